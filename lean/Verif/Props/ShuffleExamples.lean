import Verif.Props.RelExamples
import Verif.Props.ShuffleProps

/-!
# C79: a counterexample with raw phases, and cases that meet the hypotheses
-/

namespace UTide.Props

noncomputable section

open Classical

local notation "conj" => starRingEnd ℂ

/-- Times 0.5, 0, 1: those of `dayT` with the first two exchanged. -/
def swapT : TimeArg := ⟨[3], .float [.fin 0.5, .fin 0, .fin 1], []⟩
def swapTn : List Fl := [.fin 0.5, .fin 0, .fin 1]

theorem swap_times : normalizeTime idealEnv.dt64 swapT.arr (.str "python") = .ok swapTn := by
  show (Except.ok (List.map _ _) : Except PyErr (List Fl)) = _
  congr 1

theorem swap_ready (a b c : ℝ) : Ready idealEnv swapT (daySeries a b c) none :=
  idealReady _ _ _ (by simp [TimeArg.WF, TimeArr.length, swapT]) (daySeries_wf _ _ _) (by simp)

theorem swap_usable (a b c : ℝ) :
    (usable swapTn (daySeries a b c).data none).map Prod.fst = [0.5, 0, 1] := by
  simp [usable, daySeries, swapTn, goodSamples, Fl.toReal?, Cell.value?]

theorem swap_shuffled (a b c : ℝ) :
    Shuffled [.fin 0, .fin 0.5, .fin 1] (daySeries a b c) none swapTn (daySeries b a c) none := by
  unfold Shuffled swapTn daySeries sampleValues
  exact List.Perm.swap _ _ _

/-- What is common to the runs of this file. -/
theorem swap_run (opts : Dict PyVal) (q : Opt) (hq : getOpt opts false = .ok q) (hnd : opts.keys.Nodup)
    (h1 : q.method = .ols) (h2 : q.confInt = false)
    (h3 : q.nodiagn = true) (h4 : q.infer = .none) (h5 : q.cnstit = .seq .list [.str "M2"])
    (h6 : q.ordercnstit = .str "frequency") (h7 : q.epoch = .str "python") (h8 : q.flags.nodsatnone = true)
    (h9 : q.notrend = true) (t : TimeArg) (tn : List Fl) (a b c : ℝ) (R : Ready idealEnv t (daySeries a b c) none)
    (hs : t.shape = [3]) (htn : normalizeTime idealEnv.dt64 t.arr (.str "python") = .ok tn)
    (hne : usable tn (daySeries a b c).data none ≠ [])
    (h10 : requested opts "constit" = some (.seq .list [.str "M2"])) (h11 : requested opts "infer" = some .none)
    (h12 : requested opts "order_constit" = some (.str "frequency")) :
    ∃ co, solve idealEnv t (daySeries a b c) none (some 45) opts = .ok co ∧ co.opt = q ∧ AllKept co ∧
      co.name = ["M2"] ∧ co.lat = 45 := by
  obtain ⟨co, hc⟩ : ∃ co, solve idealEnv t (daySeries a b c) none (some 45) opts = .ok co := by
    refine solve_total idealEnv _ _ none 45 opts q tn (.names ["M2"]) .frequency
      hq h1 h2 h3 (by rw [h4]; rfl) (by rw [h5]; rfl) ⟨by simpa using M2_known, .inl (by simp)⟩ (by rw [h6]; rfl)
      (.inr rfl) ⟨by rw [hs]; rfl, rfl, by simp⟩ R.ht R.hu R.hv (by rw [h7]; exact htn) hne
      (fun k => by simp [nodalSingular, h8]) (fun h => by rw [h9] at h; cases h)
  obtain ⟨opt, p, tn, constit, m, W, rf, full, o, ind, F⟩ := solve_facts R hc
  have hopt : opt = q := Except.ok.inj (F.hopt.symm.trans hq)
  subst hopt
  refine ⟨co, hc, F.copt, ?_, ?_, ?_⟩
  · left; right; left; left; rw [F.copt]; exact h6
  · exact List.perm_singleton.1 ((C17_honoured idealEnv t _ none (some 45) opts R
      hnd .list (by simp) ["M2"] h10 h11 (.str "frequency") h12 co hc).1 (.inr ⟨_, rfl⟩))
  · rw [F.clat]
    exact (Option.some.inj F.prep.init.hlat).symm

/-! ## Raw phases depend on the order -/

theorem swap_reftime {a b c : ℝ} {co : Coef} {lat : Option ℝ} {opts : Dict PyVal}
    (h : solve idealEnv swapT (daySeries a b c) none lat opts = .ok co) (he : co.opt.epoch = .str "python") :
    co.reftime = 0.75 := by
  have R := swap_ready a b c
  obtain ⟨opt, p, tn, constit, m, W, rf, full, o, ind, F⟩ := solve_facts R h
  have htn : tn = swapTn := by
    have := F.prep.init.time
    rw [← F.copt, he] at this
    exact Except.ok.inj (this.symm.trans swap_times)
  subst htn
  rw [F.creftime]
  obtain ⟨-, -, -, -, h5⟩ := editData_usable _ _ _ (F.samples R).1 _ F.prep.init.edit
  have e1 : finiteTimes swapTn = [0.5, 0, 1] := by simp [finiteTimes, Fl.toReal?, swapTn]
  have e2 : (usable swapTn (daySeries a b c).data (Option.map Series.data none)).map Prod.fst = [0.5, 0, 1] :=
    swap_usable a b c
  rw [e1, e2] at h5
  unfold timeStats at h5
  by_cases he : isEqui [0.5, 0, 1]
  · simp only [he, if_true] at h5
    have h6 := congrArg Prod.fst (Except.ok.inj h5)
    exact h6.symm.trans (by show (0.5 : ℝ) * (0.5 + 1) = 0.75; norm_num)
  · simp only [he] at h5
    have h6 := congrArg Prod.fst (Except.ok.inj h5)
    exact h6.symm.trans (by show (0.5 : ℝ) * (0.5 + 1) = 0.75; norm_num)

/-- The raw M2 harmonic for reference time 0.75, at time 0.5: close to -1. -/
theorem m2_swap : (nameBasis ⟨false, true, false, true⟩ 0.75 45 0.5 "M2").re < -0.9 := by
  have h47 : constitNames.idxOf "M2" = 47 := by decide +kernel
  obtain ⟨x, h1, h2, hx⟩ : ∃ x : ℝ, 0.03 < x ∧ x < 0.04 ∧
      0 + 24 * (0.5 - 0.75) * linFreqs 0.75 47 = 0.5 * x - 0.5 := by
    refine ⟨scCoef.dotDargs 0.75 / 360.0 - hcCoef.dotDargs 0.75 / 360.0, ?_, ?_, ?_⟩
    · norm_num [Cubic.dotDargs, scCoef, hcCoef, daten]
    · norm_num [Cubic.dotDargs, scCoef, hcCoef, daten]
    · rw [linFreqs_primary _ kind_M2]
      simp only [Doodson.dot, ader]
      generalize scCoef.dotDargs 0.75 / 360.0 = a
      generalize hcCoef.dotDargs 0.75 / 360.0 = b
      norm_num
      ring
  unfold nameBasis utE
  rw [h47]
  simp only [and_self, if_true]
  rw [hx, Complex.ofReal_one, one_mul, show Complex.I * ((0.5 * x - 0.5 : ℝ) : ℂ) * 2 * Real.pi =
    ((Real.pi * x - Real.pi : ℝ) : ℂ) * Complex.I by push_cast; ring, Complex.exp_ofReal_mul_I_re, Real.cos_sub_pi]
  have hpi := Real.pi_gt_three
  have hpi4 := Real.pi_lt_d2
  have := Real.one_sub_sq_div_two_le_cos (x := Real.pi * x)
  have h3 : Real.pi * x < 0.2 := by nlinarith
  have h4 : 0 < Real.pi * x := by positivity
  nlinarith

/-- C79 is false: of the samples of a raw M2 tide at times 0, 0.5 and 1 let the first two be exchanged. The phase
is then another one. -/
theorem C79_false : ¬ C79_full := by
  intro hfull
  obtain ⟨c, hc, D⟩ := day_run (m2 0).re (m2 0.5).re (m2 1).re none (.inl rfl)
  have hcurve : ∀ τ, scalarCurve c (fun _ => 1) (fun _ => 0) 0 0 τ = (m2 τ).re := by
    intro τ
    unfold scalarCurve
    rw [D.name]
    have h7 : cisd 0 = 1 := by simp [cisd]
    simp [day_harmonic D, h7]
  obtain ⟨s0, s5, s1⟩ := day_sampleTime (m2 0).re (m2 0.5).re (m2 1).re
  have hR := day_ready (m2 0).re (m2 0.5).re (m2 1).re none (.inl rfl)
  have hR' := swap_ready (m2 0.5).re (m2 0).re (m2 1).re
  obtain ⟨h1, h2⟩ := C04_scalar idealEnv dayT _ (some 45) exOpts hR (by decide)
    ⟨_, rfl, .inl rfl⟩ c hc D.kept none (by rw [D.opt]; rfl) (by simp) _ (by rw [D.opt]; exact day_times)
    (day_separated D _ _ s0 s5 s1)
    (fun _ => 1) (fun _ => 0) 0 0 (by intros; norm_num) (by intro s h; cases h) (fun _ => rfl) (by
      intro i x τ hx hτ
      rw [hcurve]
      match i with
      | 0 => simp at hτ; subst hτ; exact (Option.some.inj hx).symm
      | 1 => simp at hτ; subst hτ; exact (Option.some.inj hx).symm
      | 2 => simp at hτ; subst hτ; exact (Option.some.inj hx).symm
      | i + 3 => simp at hτ)
  obtain ⟨e, he, hA, hB, hth, hg⟩ := h1 0 "M2" (by rw [D.name]; rfl)
  obtain ⟨k, hk⟩ := hg (by norm_num)
  obtain ⟨c', hc', hopt', hk', hname', hlat'⟩ := swap_run exOpts (exOpt false) (exOpt_eq false) (by decide) rfl rfl rfl rfl rfl rfl
    rfl rfl rfl swapT swapTn (m2 0.5).re (m2 0).re (m2 1).re hR' rfl swap_times
    (by intro h0; have := swap_usable (m2 0.5).re (m2 0).re (m2 1).re; rw [h0] at this; simp at this) rfl rfl rfl
  have hS := hfull idealEnv dayT swapT _ _ none none (some 45) exOpts hR hR' (by decide) ⟨_, rfl, .inl rfl⟩ rfl c c' hc hc'
    D.kept hk' none (by rw [D.opt]; rfl) (by simp) _ _ (by rw [D.opt]; exact day_times)
    (by rw [D.opt]; exact swap_times) (swap_shuffled _ _ _) (by rw [D.name, hname'])
    (day_separated D _ _ s0 s5 s1)
  have he' := hS.ellipse 0 0 "M2" (by rw [D.name]; rfl) (by rw [hname']; rfl)
  rw [he] at he'
  have hl' := hS.level 0.75
  obtain ⟨p, constit, m, W, rf, full, o, ind, F, hols, hinf, hex⟩ := run_facts hR' (by decide) ⟨_, rfl, .inl rfl⟩ hc' none
    (by rw [hopt']; rfl) (by simp) swapTn (by rw [hopt']; exact swap_times)
  rw [hopt'] at F
  have hn : p.sel.name.Nodup := (F.perm_names hR' (by decide) hk').nodup_iff.1 (by rw [hname']; simp)
  obtain ⟨P, M, mean, slope, hP, hM, hs, hm⟩ := F.exists_coef hn m F.mlen
  have hs0 : slope = 0 := hs rfl
  subst hs0
  have href := swap_reftime hc' (by rw [hopt']; rfl)
  obtain ⟨e1, e2⟩ := F.read (by decide) P M mean 0 hP hM hm
  -- the coefficients
  have hPM : P "M2" + conj (M "M2") = 1 := by
    rw [e1, ellipseAt_map, hname'] at he'
    have h5 : ell1 (P "M2") (M "M2") = e := by simpa using he'
    have h6 := ccw_ell1 (P "M2") (M "M2")
    rw [h5] at h6
    unfold ccw at h6
    rw [hA, hB, hth, hk, (cisd_eq_iff _ 0).2 ⟨-k, by push_cast; ring⟩] at h6
    have h7 : cisd 0 = 1 := by simp [cisd]
    rw [h7] at h6
    have : P "M2" + conj (M "M2") = 2 * ((P "M2" + conj (M "M2")) / 2) := by ring
    rw [this, ← h6]
    push_cast
    norm_num
  have hmean : mean.re = 0 := by
    rw [level_meanRec c' false true mean 0 (fun _ => rfl) e2] at hl'
    unfold level at hl'
    rw [h2, D.opt] at hl'
    have := congrArg Complex.re hl'
    simpa [exOpt] using this
  -- zero coefficients fit better
  have a1 := F.minNorm hR' rfl
  have hz : TiedBy p.sel InfCon.Rp (fun _ => (0 : ℂ)) ∧ TiedBy p.sel InfCon.Rm (fun _ => (0 : ℂ)) :=
    F.tiedBy (by decide) _ _ ⟨by rw [hinf]; simp, by rw [hinf]; simp⟩
  have h8 := a1.optimal (nameCoef p.sel (!(exOpt false).notrend) (fun _ => 0) (fun _ => 0) 0 (0 * (p.ed.lor : ℂ)))
    (F.nameCoef_length _ _ _ _)
  rw [hm, F.cost_curve hR' (by decide) hk' hex _ _ _ _ hP hM hs,
    F.cost_curve hR' (by decide) hk' hex _ _ _ _ hz.1 hz.2 (fun _ => rfl)] at h8
  have hsam : samples swapTn (sampleValues (daySeries (m2 0.5).re (m2 0).re (m2 1).re).data (Option.map Series.data none)) =
      [(0.5, ((m2 0.5).re : ℂ)), (0, ((m2 0).re : ℂ)), (1, ((m2 1).re : ℂ))] := by
    simp [samples, swapTn, sampleValues, daySeries, Cell.value?, Fl.toReal?]
  have hzero : ∀ τ, rotaryCurve c' (fun _ => 0) (fun _ => 0) 0 0 τ = 0 := by
    intro τ; unfold rotaryCurve; simp
  have hnorm : ∀ τ, ‖m2 τ‖ = 1 := by
    intro τ
    unfold m2 nameBasis utE
    simp only [and_self, if_true]
    rw [Complex.ofReal_one, one_mul, show Complex.I * ((0 + 24 * (τ - 0.5) * linFreqs 0.5 (constitNames.idxOf "M2") : ℝ) : ℂ) *
      2 * Real.pi = ((2 * Real.pi * (0 + 24 * (τ - 0.5) * linFreqs 0.5 (constitNames.idxOf "M2")) : ℝ) : ℂ) * Complex.I by
        push_cast; ring, Complex.norm_exp_ofReal_mul_I]
  have hle : ∀ τ, (m2 τ).re ^ 2 ≤ 1 := by
    intro τ
    have := Complex.abs_re_le_norm (m2 τ)
    rw [hnorm, abs_le] at this
    nlinarith
  have hcur : (rotaryCurve c' P M mean 0 0.5).re = (nameBasis ⟨false, true, false, true⟩ 0.75 45 0.5 "M2").re := by
    unfold rotaryCurve harmonic
    rw [hname', href, hlat', hopt']
    show ((List.map _ _).sum + mean + _).re = _
    simp only [List.map_cons, List.map_nil, List.sum_cons, List.sum_nil, add_zero, zero_mul, Complex.add_re, hmean]
    have : (conj (nameBasis (exOpt false).flags 0.75 45 0.5 "M2") * M "M2").re =
        (nameBasis (exOpt false).flags 0.75 45 0.5 "M2" * conj (M "M2")).re := by
      rw [← Complex.conj_re (_ * conj (M "M2")), map_mul, Complex.conj_conj]
    rw [this, ← Complex.add_re, ← mul_add, hPM, mul_one]
    rfl
  rw [hsam] at h8
  simp only [List.map_cons, List.map_nil, List.sum_cons, List.sum_nil, hzero, sub_zero, add_zero, Complex.norm_real,
    Real.norm_eq_abs, sq_abs] at h8
  obtain ⟨z, -, m5, -⟩ := m2_values
  have hbig : 3 < ‖(((m2 0.5).re : ℝ) : ℂ) - rotaryCurve c' P M mean 0 0.5‖ ^ 2 := by
    have h9 := Complex.abs_re_le_norm ((((m2 0.5).re : ℝ) : ℂ) - rotaryCurve c' P M mean 0 0.5)
    rw [Complex.sub_re, hcur, Complex.ofReal_re, m5, Complex.one_re] at h9
    have h10 := m2_swap
    rw [m5, Complex.one_re] at *
    have h11 : (1.9 : ℝ) ≤ |1 - (nameBasis ⟨false, true, false, true⟩ 0.75 45 0.5 "M2").re| := by
      rw [abs_of_pos (by linarith)]; linarith
    nlinarith
  have h12 := hle 0
  have h13 := hle 1
  have h14 := hle 0.5
  nlinarith [sq_nonneg ‖(((m2 0).re : ℝ) : ℂ) - rotaryCurve c' P M mean 0 0‖,
    sq_nonneg ‖(((m2 1).re : ℝ) : ℂ) - rotaryCurve c' P M mean 0 1‖]

/-! ## Greenwich phases do not -/

/-- The example options with Greenwich phases. -/
def gwOpts : Dict PyVal :=
  [("constit", .seq .list [.str "M2"]), ("conf_int", .str "none"), ("trend", .bool false), ("nodal", .bool false),
   ("phase", .str "Greenwich"), ("order_constit", .str "frequency"), ("epoch", .str "python")]

def gwOpt : Opt := { exOpt false with flags := ⟨false, true, false, false⟩ }

theorem gwOpt_eq : getOpt gwOpts false = .ok gwOpt := by rfl

theorem cis_ne (x y : ℝ) (n : ℤ) (h1 : n < x - y) (h2 : x - y < n + 1) : cis x ≠ cis y := by
  intro h
  rw [cis_eq, cis_eq, Complex.exp_eq_exp_iff_exists_int] at h
  obtain ⟨k, hk⟩ := h
  have h3 : ((2 * Real.pi * x : ℝ) : ℂ) * Complex.I = ((2 * Real.pi * (y + k) : ℝ) : ℂ) * Complex.I := by
    rw [hk]; push_cast; ring
  have h4 := Complex.ofReal_injective (mul_right_cancel₀ Complex.I_ne_zero h3)
  have h5 : x = y + k := mul_left_cancel₀ (by positivity) h4
  rw [h5] at h1 h2
  have h6 : n < k := by exact_mod_cast (by linarith : (n : ℝ) < k)
  have h7 : k < n + 1 := by exact_mod_cast (by push_cast; linarith : ((k : ℤ) : ℝ) < ((n + 1 : ℤ) : ℝ))
  omega

/-- Three points of the unit circle: only the zero combination of `z`, `conj z`, `1` vanishes at all of them. -/
theorem circle_indep (a b c P M k : ℂ) (ha : ‖a‖ = 1) (hb : ‖b‖ = 1) (hc : ‖c‖ = 1) (hab : a ≠ b) (hac : a ≠ c)
    (hbc : b ≠ c) (h1 : a * P + conj a * M + k = 0) (h2 : b * P + conj b * M + k = 0)
    (h3 : c * P + conj c * M + k = 0) : P = 0 ∧ M = 0 ∧ k = 0 := by
  have hu : ∀ z : ℂ, ‖z‖ = 1 → z * conj z = 1 := by
    intro z hz
    rw [Complex.mul_conj, Complex.normSq_eq_norm_sq, hz]; simp
  have q1 : a ^ 2 * P + M + k * a = 0 := by linear_combination a * h1 - M * hu a ha
  have q2 : b ^ 2 * P + M + k * b = 0 := by linear_combination b * h2 - M * hu b hb
  have q3 : c ^ 2 * P + M + k * c = 0 := by linear_combination c * h3 - M * hu c hc
  have r1 : (a + b) * P + k = 0 := by
    refine (mul_eq_zero.1 (?_ : (a - b) * ((a + b) * P + k) = 0)).resolve_left (sub_ne_zero.2 hab)
    linear_combination q1 - q2
  have r2 : (a + c) * P + k = 0 := by
    refine (mul_eq_zero.1 (?_ : (a - c) * ((a + c) * P + k) = 0)).resolve_left (sub_ne_zero.2 hac)
    linear_combination q1 - q3
  have hP : P = 0 := by
    refine (mul_eq_zero.1 (?_ : (b - c) * P = 0)).resolve_left (sub_ne_zero.2 hbc)
    linear_combination r1 - r2
  have hk : k = 0 := by rw [hP] at r1; simpa using r1
  refine ⟨hP, ?_, hk⟩
  rw [hP, hk] at q1
  simpa using q1

/-- M2 with Greenwich phase and without nodal corrections. -/
theorem gw_M2 (tref lat τ : ℝ) : nameBasis ⟨false, true, false, false⟩ tref lat τ "M2" =
    cis (2 * (τ + hcCoef.cycles τ - scCoef.cycles τ)) := by
  have h47 : constitNames.idxOf "M2" = 47 := by decide +kernel
  unfold nameBasis utE nodF nodU gwV
  rw [h47]
  have := cis_vGreenwich τ kind_M2
  unfold cis at this
  simp [this, cis, Doodson.dot, astroLift, Dy.toReal]

theorem gw_separated {c : Coef} (hopt : c.opt = gwOpt) (hname : c.name = ["M2"]) (td : Bool) (times : ℝ → Prop)
    (h0 : times 0) (h5 : times 0.5) (h1 : times 1) : Separated c none td times := by
  refine ⟨by rw [hname]; simp, ?_⟩
  intro P M mean slope _ hs hz
  replace hs := hs (by rw [hopt]; rfl)
  subst hs
  have hh : ∀ τ, harmonic c "M2" τ = cis (2 * (τ + hcCoef.cycles τ - scCoef.cycles τ)) := by
    intro τ
    unfold harmonic
    rw [hopt]
    exact gw_M2 _ _ τ
  have key : ∀ τ, times τ → cis (2 * (τ + hcCoef.cycles τ - scCoef.cycles τ)) * P "M2" +
      conj (cis (2 * (τ + hcCoef.cycles τ - scCoef.cycles τ))) * M "M2" + mean = 0 := by
    intro τ hτ
    have := hz τ hτ
    unfold rotaryCurve at this
    rw [hname] at this
    simpa [hh] using this
  obtain ⟨z1, z2, z3⟩ := circle_indep _ _ _ _ _ _ (norm_cis _) (norm_cis _) (norm_cis _)
    (cis_ne _ _ (-1) (by norm_num [Cubic.cycles, Cubic.dotArgs, scCoef, hcCoef, daten])
      (by norm_num [Cubic.cycles, Cubic.dotArgs, scCoef, hcCoef, daten]))
    (cis_ne _ _ (-2) (by norm_num [Cubic.cycles, Cubic.dotArgs, scCoef, hcCoef, daten])
      (by norm_num [Cubic.cycles, Cubic.dotArgs, scCoef, hcCoef, daten]))
    (cis_ne _ _ (-1) (by norm_num [Cubic.cycles, Cubic.dotArgs, scCoef, hcCoef, daten])
      (by norm_num [Cubic.cycles, Cubic.dotArgs, scCoef, hcCoef, daten])) (key 0 h0) (key 0.5 h5) (key 1 h1)
  refine ⟨z3, rfl, ?_⟩
  intro n hn
  rw [hname, List.mem_singleton] at hn
  subst hn
  exact ⟨z1, z2⟩

theorem day_usable_ne (a b c : ℝ) : usable [.fin 0, .fin 0.5, .fin 1] (daySeries a b c).data none ≠ [] := by
  intro h0
  have : (usable [.fin 0, .fin 0.5, .fin 1] (daySeries a b c).data none).map Prod.fst = _ := day_usable a b c none (.inl rfl)
  rw [h0] at this; simp at this

/-- Samples 1, 5, 3 at times 0, 0.5, 1, and 5, 1, 3 at times 0.5, 0, 1: same amplitude and phase of M2, same mean
level. -/
example : ∃ c c', solve idealEnv dayT (daySeries 1 5 3) none (some 45) gwOpts = .ok c ∧
    solve idealEnv swapT (daySeries 5 1 3) none (some 45) gwOpts = .ok c' ∧
    ellipseAt c'.ell 0 = ellipseAt c.ell 0 ∧ ∀ τ, level c' τ = level c τ := by
  have hR := day_ready 1 5 3 none (.inl rfl)
  have hR' := swap_ready 5 1 3
  obtain ⟨c, hc, hopt, hk, hname, hlat⟩ := swap_run gwOpts gwOpt gwOpt_eq (by decide) rfl rfl rfl rfl rfl rfl
    rfl rfl rfl dayT _ 1 5 3 hR rfl day_times (day_usable_ne _ _ _) rfl rfl rfl
  obtain ⟨c', hc', hopt', hk', hname', hlat'⟩ := swap_run gwOpts gwOpt gwOpt_eq (by decide) rfl rfl rfl rfl rfl rfl
    rfl rfl rfl swapT swapTn 5 1 3 hR' rfl swap_times
    (by intro h0; have := swap_usable 5 1 3; rw [h0] at this; simp at this) rfl rfl rfl
  obtain ⟨s0, s5, s1⟩ := day_sampleTime 1 5 3
  have hS := C79_order_partial idealEnv dayT swapT _ _ none none (some 45) gwOpts hR hR' (by decide) ⟨_, rfl, .inl rfl⟩ rfl
    c c' hc hc' hk hk' none (by rw [hopt]; rfl) (by simp) _ _ (by rw [hopt]; exact day_times)
    (by rw [hopt]; exact swap_times) (swap_shuffled _ _ _) (by rw [hname, hname'])
    (gw_separated hopt hname _ _ s0 s5 s1) .off rfl (by decide) rfl
  exact ⟨c, c', hc, hc', hS.ellipse 0 0 "M2" (by rw [hname]; rfl) (by rw [hname']; rfl), hS.level⟩

/-- Times 1, 0.5, 0. -/
def backT : TimeArg := ⟨[3], .float [.fin 1, .fin 0.5, .fin 0], []⟩

/-- Reversed record, raw phases: same result. -/
example : ∃ c c', solve idealEnv dayT (daySeries 1 5 3) none (some 45) exOpts = .ok c ∧
    solve idealEnv backT (daySeries 3 5 1) none (some 45) exOpts = .ok c' ∧
    ellipseAt c'.ell 0 = ellipseAt c.ell 0 ∧ c'.mean = c.mean := by
  have hR := day_ready 1 5 3 none (.inl rfl)
  have hR' : Ready idealEnv backT (daySeries 3 5 1) none :=
    idealReady _ _ _ (by simp [TimeArg.WF, TimeArr.length, backT]) (daySeries_wf _ _ _) (by simp)
  have ht : normalizeTime idealEnv.dt64 backT.arr (.str "python") = .ok [.fin 1, .fin 0.5, .fin 0] := by
    show (Except.ok (List.map _ _) : Except PyErr (List Fl)) = _
    congr 1
  have hu : (usable [.fin 1, .fin 0.5, .fin 0] (daySeries 3 5 1).data (Option.map Series.data none)).map Prod.fst =
      [1, 0.5, 0] := by simp [usable, daySeries, goodSamples, Fl.toReal?, Cell.value?]
  obtain ⟨c, hc, D⟩ := day_run 1 5 3 none (.inl rfl)
  obtain ⟨c', hc', hopt', hk', hname', hlat'⟩ := swap_run exOpts (exOpt false) (exOpt_eq false) (by decide) rfl rfl rfl rfl rfl rfl
    rfl rfl rfl backT _ 3 5 1 hR' rfl ht
    (by intro h0; rw [Option.map_none, h0] at hu; simp at hu) rfl rfl rfl
  obtain ⟨s0, s5, s1⟩ := day_sampleTime 1 5 3
  have href : c'.reftime = 0.5 := by
    obtain ⟨opt, p, tn, constit, m, W, rf, full, o, ind, F⟩ := solve_facts hR' hc'
    have htn : tn = [.fin 1, .fin 0.5, .fin 0] := by
      have := F.prep.init.time
      rw [← F.copt, hopt'] at this
      exact Except.ok.inj (this.symm.trans ht)
    subst htn
    rw [F.creftime]
    obtain ⟨-, -, -, -, h5⟩ := editData_usable _ _ _ (F.samples hR').1 _ F.prep.init.edit
    have e1 : finiteTimes [.fin 1, .fin 0.5, .fin 0] = [1, 0.5, 0] := by simp [finiteTimes, Fl.toReal?]
    rw [e1, hu] at h5
    unfold timeStats at h5
    by_cases he : isEqui [1, 0.5, 0]
    · simp only [he, if_true] at h5
      have h6 := congrArg Prod.fst (Except.ok.inj h5)
      exact h6.symm.trans (by show (0.5 : ℝ) * (1 + 0) = 0.5; norm_num)
    · simp only [he] at h5
      have h6 := congrArg Prod.fst (Except.ok.inj h5)
      exact h6.symm.trans (by show (0.5 : ℝ) * (1 + 0) = 0.5; norm_num)
  obtain ⟨hS, hm⟩ := C79_same_reftime_partial idealEnv dayT backT _ _ none none (some 45) exOpts hR hR' (by decide)
    ⟨_, rfl, .inl rfl⟩ rfl c c' hc hc' D.kept hk' none (by rw [D.opt]; rfl) (by simp) _ _ (by rw [D.opt]; exact day_times)
    (by rw [D.opt]; exact ht) (by
      unfold Shuffled daySeries sampleValues
      exact List.reverse_perm [((.fin 0 : Fl), some (((1 : ℝ) : ℂ))), (.fin 0.5, some ((5 : ℝ) : ℂ)), (.fin 1, some ((3 : ℝ) : ℂ))])
    (by rw [D.name, hname'])
    (day_separated D _ _ s0 s5 s1) (by rw [href, D.reftime])
  exact ⟨c, c', hc, hc', hS.ellipse 0 0 "M2" (by rw [D.name]; rfl) (by rw [hname']; rfl), hm⟩

end

end UTide.Props
