import Mathlib.Analysis.SpecialFunctions.ExpDeriv
import Mathlib.Analysis.Complex.RealDeriv
import Mathlib.Topology.Order.IntermediateValue
import Verif.Props.BoundProps
import Verif.Props.NyquistProps
import Verif.Props.ReturnProps

/-!
# Predictions are smooth curves: C118
-/

namespace UTide.Props

noncomputable section

open Classical

local notation "conj" => starRingEnd ℂ

/-! ## Specification -/

/-- `reconstruct` with these arguments gives the values of `h`, at whatever times and in whatever time format it is
asked. -/
def PredictedBy (c : Coef) (a : RecArgs) (h : ℝ → ℂ) : Prop := ∀ (E : Env) (t : TimeArr) (ep : PyVal),
  reconstruct E t c { a with epoch := ep } =
    (normalizeTime E.dt64 t ep).map fun tn => tn.map fun x => x.toReal?.map h

/-- The slope of the trend per day, as a complex number for currents. -/
def trendRate (c : Coef) : ℂ := match c.mean with
  | .one _ s => ((s.getD 0 : ℝ) : ℂ)
  | .two _ _ s => ⟨(s.getD (0, 0)).1, (s.getD (0, 0)).2⟩

/-! ## Smoothness of the harmonics -/

theorem contDiff_longitude (a b c d : ℝ) : ContDiff ℝ ⊤ (longitude a b c d) := by
  unfold longitude; fun_prop

theorem contDiff_equilibrium (d : Doodson) (s : Dy) : ContDiff ℝ ⊤ (equilibrium d s) := by
  unfold equilibrium lunarTime moonL sunL perigeeL nodeL sunPerigeeL
  have := contDiff_longitude
  fun_prop

theorem contDiff_phasor {f : ℝ → ℝ} (hf : ContDiff ℝ ⊤ f) : ContDiff ℝ ⊤ fun t => phasor (f t) := by
  unfold phasor
  have h1 : ContDiff ℝ ⊤ fun t => (((2 * Real.pi * f t : ℝ) : ℂ)) :=
    Complex.ofRealCLM.contDiff.comp (contDiff_const.mul hf)
  exact (h1.mul contDiff_const).cexp

theorem contDiff_list_sum {α : Type} (l : List α) (f : α → ℝ → ℂ) (h : ∀ x ∈ l, ContDiff ℝ ⊤ (f x)) :
    ContDiff ℝ ⊤ fun t => (l.map fun x => f x t).sum := by
  induction l with
  | nil => simpa using contDiff_const
  | cons a l ih =>
    simp only [List.map_cons, List.sum_cons]
    exact (h a (by simp)).add (ih fun x hx => h x (by simp [hx]))

theorem contDiff_list_prod {α : Type} (l : List α) (f : α → ℝ → ℂ) (h : ∀ x ∈ l, ContDiff ℝ ⊤ (f x)) :
    ContDiff ℝ ⊤ fun t => (l.map fun x => f x t).prod := by
  induction l with
  | nil => simpa using contDiff_const
  | cons a l ih =>
    simp only [List.map_cons, List.prod_cons]
    exact (h a (by simp)).mul (ih fun x hx => h x (by simp [hx]))

theorem contDiff_modulation (lat : ℝ) (k : ℕ) : ContDiff ℝ ⊤ fun t => modulation lat t k := by
  unfold modulation
  refine contDiff_const.add (contDiff_list_sum _ _ fun s _ => contDiff_const.mul (contDiff_phasor ?_))
  unfold satellitePhase perigeeL nodeL sunPerigeeL
  have := contDiff_longitude
  fun_prop

theorem contDiff_tidalLine (mn mp : Mode) (tref lat : ℝ) (k : ℕ) : ContDiff ℝ ⊤ fun t => tidalLine mn mp tref lat t k := by
  unfold tidalLine
  split
  · refine ContDiff.mul ?_ (contDiff_phasor ?_)
    · unfold nodalAt
      cases mn
      · exact contDiff_modulation lat k
      · exact contDiff_const
      · exact contDiff_const
    · unfold argumentAt
      cases mp
      · exact contDiff_equilibrium _ _
      · fun_prop
      · fun_prop
  · exact contDiff_const

theorem contDiff_powW {f : ℝ → ℂ} (hf : ContDiff ℝ ⊤ f) (n : ℤ) : ContDiff ℝ ⊤ fun t => powW (f t) n := by
  unfold powW
  split
  · exact hf.pow _
  · exact (Complex.conjCLE.contDiff.comp hf).pow _

theorem contDiff_textbook (mn mp : Mode) (tref lat : ℝ) (k : ℕ) : ContDiff ℝ ⊤ fun t => textbook mn mp tref lat t k := by
  unfold textbook
  split
  · exact contDiff_tidalLine _ _ _ _ _
  · exact contDiff_list_prod _ _ fun q _ => contDiff_powW (contDiff_tidalLine _ _ _ _ _) _
  · exact contDiff_const

theorem contDiff_mk {f g : ℝ → ℝ} (hf : ContDiff ℝ ⊤ f) (hg : ContDiff ℝ ⊤ g) :
    ContDiff ℝ ⊤ fun t => (⟨f t, g t⟩ : ℂ) := by
  have : (fun t => (⟨f t, g t⟩ : ℂ)) = fun t => ((f t : ℝ) : ℂ) + ((g t : ℝ) : ℂ) * Complex.I := by
    funext t
    exact Complex.mk_eq_add_mul_I _ _
  rw [this]
  exact (Complex.ofRealCLM.contDiff.comp hf).add ((Complex.ofRealCLM.contDiff.comp hg).mul contDiff_const)

theorem contDiff_tide (c : Coef) (i : ℕ)
    (h : ContDiff ℝ ⊤ fun τ => utE c.opt.flags c.reftime c.lat τ (c.frq.getD i 0) (c.lind.getD i 0)) :
    ContDiff ℝ ⊤ fun τ => tide c τ i := by
  unfold tide
  dsimp only
  cases c.ell with
  | one A g =>
    dsimp only
    exact Complex.ofRealCLM.contDiff.comp (contDiff_const.mul (Complex.reCLM.contDiff.comp (h.mul contDiff_const)))
  | two M m th g =>
    dsimp only
    exact contDiff_const.mul (contDiff_mk (contDiff_const.mul (Complex.reCLM.contDiff.comp (h.mul contDiff_const)))
      (contDiff_const.mul (Complex.imCLM.contDiff.comp (h.mul contDiff_const))))

theorem contDiff_level (c : Coef) : ContDiff ℝ ⊤ (level c) := by
  unfold level
  cases c.mean with
  | one m s =>
    dsimp only
    have h : ContDiff ℝ ⊤ fun τ : ℝ => m + s.getD 0 * (τ - c.reftime) := by fun_prop
    exact Complex.ofRealCLM.contDiff.comp h
  | two um vm s =>
    dsimp only
    exact contDiff_mk (by fun_prop) (by fun_prop)

/-! ## Rates of change -/

theorem norm_tide_sub (c : Coef) (hr : InRanges c.ell) (hl : ∃ n, c.Len n) (τ τ' : ℝ) (i : ℕ) :
    ‖tide c τ' i - tide c τ i‖ ≤ ‖utE c.opt.flags c.reftime c.lat τ' (c.frq.getD i 0) (c.lind.getD i 0) -
      utE c.opt.flags c.reftime c.lat τ (c.frq.getD i 0) (c.lind.getD i 0)‖ * amplitude c i := by
  obtain ⟨n, hl⟩ := hl
  unfold tide amplitude
  have hell := hl.ell
  generalize utE c.opt.flags c.reftime c.lat τ' (c.frq.getD i 0) (c.lind.getD i 0) = z'
  generalize utE c.opt.flags c.reftime c.lat τ (c.frq.getD i 0) (c.lind.getD i 0) = z
  cases he : c.ell with
  | one A g =>
    rw [he] at hr
    dsimp only
    have hA : 0 ≤ A.getD i 0 := by
      by_cases hi : i < A.length
      · rw [List.getD_eq_getElem _ _ hi]; exact hr.1 _ (List.getElem_mem hi)
      · rw [List.getD_eq_default _ _ (by omega)]
    rw [← Complex.ofReal_sub, ← mul_sub, ← Complex.sub_re, ← sub_mul, Complex.norm_real, Real.norm_eq_abs, abs_mul,
      abs_of_nonneg hA, mul_comm]
    refine mul_le_mul_of_nonneg_right ((Complex.abs_re_le_norm _).trans ?_) hA
    rw [norm_mul, norm_cisd, mul_one]
  | two M m th g =>
    rw [he] at hr hell
    dsimp only
    obtain ⟨l1, l2, -⟩ := hell
    have hA : |m.getD i 0| ≤ M.getD i 0 := by
      by_cases hi : i < n
      · rw [List.getD_eq_getElem _ _ (by omega), List.getD_eq_getElem _ _ (by omega)]
        exact hr.1 i _ _ (List.getElem?_eq_getElem (by omega)) (List.getElem?_eq_getElem (by omega))
      · rw [List.getD_eq_default _ _ (by omega), List.getD_eq_default _ _ (by omega), abs_zero]
    have e : ∀ w w' : ℂ, (⟨M.getD i 0 * w'.re, m.getD i 0 * w'.im⟩ - ⟨M.getD i 0 * w.re, m.getD i 0 * w.im⟩ : ℂ) =
        ⟨M.getD i 0 * (w' - w).re, m.getD i 0 * (w' - w).im⟩ := by
      intro w w'
      apply Complex.ext <;> simp <;> ring
    rw [← mul_sub, e, ← sub_mul]
    refine (norm_turn _ _ _ _ hA).trans ?_
    rw [norm_mul, norm_cisd, mul_one, mul_comm]

theorem amplitude_nonneg (c : Coef) (hr : InRanges c.ell) (hl : ∃ n, c.Len n) (i : ℕ) : 0 ≤ amplitude c i := by
  obtain ⟨n, hl⟩ := hl
  unfold amplitude
  have hell := hl.ell
  cases he : c.ell with
  | one A g =>
    rw [he] at hr
    dsimp only
    by_cases hi : i < A.length
    · rw [List.getD_eq_getElem _ _ hi]; exact hr.1 _ (List.getElem_mem hi)
    · rw [List.getD_eq_default _ _ (by omega)]
  | two M m th g =>
    rw [he] at hr hell
    dsimp only
    obtain ⟨l1, l2, -⟩ := hell
    by_cases hi : i < n
    · rw [List.getD_eq_getElem _ _ (by omega)]
      exact (abs_nonneg _).trans
        (hr.1 i _ _ (List.getElem?_eq_getElem (by omega)) (List.getElem?_eq_getElem (by omega)))
    · rw [List.getD_eq_default _ _ (by omega)]

theorem level_sub (c : Coef) (τ τ' : ℝ) : level c τ' - level c τ = trendRate c * ((τ' - τ : ℝ) : ℂ) := by
  unfold level trendRate
  cases c.mean with
  | one m s => dsimp only; push_cast; ring
  | two um vm s => apply Complex.ext <;> simp <;> ring

theorem sum_map_sub {α : Type} (l : List α) (f g : α → ℂ) : (l.map f).sum - (l.map g).sum = (l.map fun x => f x - g x).sum := by
  induction l with
  | nil => simp
  | cons a l ih => simp only [List.map_cons, List.sum_cons, ← ih]; ring

theorem sum_map_mul_const {α : Type} (l : List α) (f : α → ℝ) (r : ℝ) : (l.map fun x => f x * r).sum = (l.map f).sum * r := by
  induction l with
  | nil => simp
  | cons a l ih => simp only [List.map_cons, List.sum_cons, ih]; ring

/-! ## C118 -/

section

variable {E : Env} {t : TimeArg} {u : Series} {v : Option Series} {lat : Option ℝ} {opts : Dict PyVal} {c : Coef}
  {a : RecArgs}

/-- The curve of the constituents asked for. -/
theorem predictedBy_sum (R : Ready E t u v) (hnd : opts.keys.Nodup) (h : solve E t u v lat opts = .ok c) (hk : AllKept c) :
    PredictedBy c a fun τ =>
      level c τ + (((List.range c.name.length).filter (Selected c a)).map (tide c τ)).sum := by
  intro E' t' ep
  rw [C36_selected E t u v lat opts R hnd c h hk E' t' _]
  rfl

/-- **C118.** What `reconstruct` predicts is an analytic function of time: it has no jumps and no corners, whatever the
nodal and phase corrections. (`M7` must not be among the constituents asked for, see C40.) -/
theorem C118_smooth (R : Ready E t u v) (hnd : opts.keys.Nodup) (h : solve E t u v lat opts = .ok c) (hk : AllKept c)
    (mn mp : Mode) (hn : (requested opts "nodal").bind nodalMode = some mn)
    (hp : (requested opts "phase").bind phaseMode = some mp) (hlat : c.lat ≠ 0 ∨ mn = .off)
    (hM : ∀ i, Selected c a i → c.name[i]? ≠ some "M7") :
    ∃ f : ℝ → ℂ, ContDiff ℝ ⊤ f ∧ PredictedBy c a f := by
  refine ⟨_, ?_, predictedBy_sum R hnd h hk⟩
  refine (contDiff_level c).add (contDiff_list_sum _ (fun i τ => tide c τ i) fun i hi => contDiff_tide c i ?_)
  obtain ⟨h1, h2⟩ := List.mem_filter.1 hi
  have hi' := List.getElem?_eq_getElem (List.mem_range.1 h1)
  have key := fun τ => (C20_harmonics E t u v lat opts hnd c h mn mp hn hp hlat i _ hi'
    (fun e => hM i (by simpa using h2) (by rw [hi', e])) τ).2
  simp only [key]
  exact contDiff_textbook _ _ _ _ _

/-- A level (of the sea, or of the component of the current in the direction `θ`) that is passed between two times is
reached in between: there is a time of which `reconstruct` predicts exactly this level. -/
theorem C118_crossing (R : Ready E t u v) (hnd : opts.keys.Nodup) (h : solve E t u v lat opts = .ok c) (hk : AllKept c)
    (mn mp : Mode) (hn : (requested opts "nodal").bind nodalMode = some mn)
    (hp : (requested opts "phase").bind phaseMode = some mp) (hlat : c.lat ≠ 0 ∨ mn = .off)
    (hM : ∀ i, Selected c a i → c.name[i]? ≠ some "M7") :
    ∃ f : ℝ → ℂ, PredictedBy c a f ∧ ∀ θ τ₁ τ₂ y : ℝ, τ₁ ≤ τ₂ →
      ((cisd (-θ) * f τ₁).re ≤ y ∧ y ≤ (cisd (-θ) * f τ₂).re ∨ (cisd (-θ) * f τ₂).re ≤ y ∧ y ≤ (cisd (-θ) * f τ₁).re) →
      ∃ τ, τ₁ ≤ τ ∧ τ ≤ τ₂ ∧ (cisd (-θ) * f τ).re = y := by
  obtain ⟨f, hf, hpr⟩ := C118_smooth (a := a) R hnd h hk mn mp hn hp hlat hM
  refine ⟨f, hpr, fun θ τ₁ τ₂ y h12 hy => ?_⟩
  have hc : Continuous fun τ => (cisd (-θ) * f τ).re :=
    Complex.continuous_re.comp (continuous_const.mul hf.continuous)
  rcases hy with hy | hy
  · obtain ⟨τ, h1, h2⟩ := intermediate_value_Icc h12 hc.continuousOn hy
    exact ⟨τ, h1.1, h1.2, h2⟩
  · obtain ⟨τ, h1, h2⟩ := intermediate_value_Icc' h12 hc.continuousOn hy
    exact ⟨τ, h1.1, h1.2, h2⟩

/-- How fast a prediction can change if the corrections are off or evaluated at the reference time: the slope of the
trend, and for every constituent its amplitude times `2 pi` over its period (frequencies are in cycles per hour, times
in days), times the modulus of its harmonic, which does not change in time. -/
theorem C118_rate (R : Ready E t u v) (hnd : opts.keys.Nodup) (h : solve E t u v lat opts = .ok c) (hk : AllKept c)
    (hs : Steady opts) :
    ∃ f : ℝ → ℂ, PredictedBy c a f ∧ ∀ τ τ', ‖f τ' - f τ‖ ≤ (‖trendRate c‖ +
      (((List.range c.name.length).filter (Selected c a)).map fun i =>
        ‖harmonic c (c.name.getD i "") c.reftime‖ * amplitude c i * (2 * Real.pi * (24 * |c.frq.getD i 0|))).sum) * |τ' - τ| := by
  refine ⟨_, predictedBy_sum R hnd h hk, fun τ τ' => ?_⟩
  obtain ⟨hran, -⟩ := C09_ranges E t u v lat opts hnd c h
  obtain ⟨e1, e2, e3⟩ := permute_aligned h
  obtain ⟨opt, p, tn, constit, m, W, rf, full, o, ind, F⟩ := solve_facts R h
  have hlen : ∃ n, c.Len n := by
    have := (F.coherent hnd).permute ind F.lt
    rw [← F.solved.result] at this
    exact ⟨_, this.len⟩
  obtain ⟨f1, f2, -⟩ := steady_flags hnd F.hopt hs
  rw [← F.copt] at f1 f2
  rw [add_sub_add_comm, level_sub, sum_map_sub, add_mul]
  refine (norm_add_le _ _).trans (add_le_add ?_ ?_)
  · rw [norm_mul, Complex.norm_real, Real.norm_eq_abs]
  · rw [← sum_map_mul_const]
    refine norm_sum_map_le _ _ _ fun i hi => (norm_tide_sub c hran hlen τ τ' i).trans ?_
    have hi : i < c.name.length := List.mem_range.1 (List.mem_filter.1 hi).1
    have hi' : i < c.lind.length := by rw [e1, List.length_map] at hi; exact hi
    have hn : c.name.getD i "" = nameAt c.lind[i] := by
      rw [List.getD_eq_getElem _ _ hi]; simp only [e1, List.getElem_map]
    have hf : c.frq.getD i 0 = linFreqs c.reftime c.lind[i] := by
      rw [List.getD_eq_getElem _ _ (by rw [e2, List.length_map]; exact hi')]; simp only [e2, List.getElem_map]
    have hh : harmonic c (c.name.getD i "") c.reftime =
        utE c.opt.flags c.reftime c.lat c.reftime (linFreqs c.reftime c.lind[i]) c.lind[i] := by
      unfold harmonic nameBasis
      rw [hn, idxOf_nameAt (e3 _ (List.getElem_mem hi'))]
    rw [hh, hf, List.getD_eq_getElem _ _ hi']
    have hstep := fun x s => utE_step c.opt.flags f1 f2 c.reftime c.lat x s c.lind[i]
    have hcon : ‖utE c.opt.flags c.reftime c.lat τ (linFreqs c.reftime c.lind[i]) c.lind[i]‖ =
        ‖utE c.opt.flags c.reftime c.lat c.reftime (linFreqs c.reftime c.lind[i]) c.lind[i]‖ := by
      have := hstep c.reftime (τ - c.reftime)
      rw [add_sub_cancel] at this
      rw [this, norm_mul, mul_comm Complex.I, Complex.norm_exp_ofReal_mul_I, mul_one]
    have h1 := hstep τ (τ' - τ)
    rw [add_sub_cancel] at h1
    have hamp := amplitude_nonneg c hran hlen i
    rw [h1, ← mul_sub_one, norm_mul, hcon]
    have h2 := Real.norm_exp_I_mul_ofReal_sub_one_le (x := 2 * Real.pi * (24 * (τ' - τ) * linFreqs c.reftime c.lind[i]))
    rw [Real.norm_eq_abs, abs_mul, abs_mul (24 * (τ' - τ)), abs_mul 24, abs_of_pos (by positivity : 0 < 2 * Real.pi),
      abs_of_pos (by norm_num : (0 : ℝ) < 24)] at h2
    calc _ ≤ ‖utE c.opt.flags c.reftime c.lat c.reftime (linFreqs c.reftime c.lind[i]) c.lind[i]‖ *
          (2 * Real.pi * (24 * |τ' - τ| * |linFreqs c.reftime c.lind[i]|)) * amplitude c i := by gcongr
      _ = _ := by ring

end

/-! ## Examples -/

/-- A prediction of `M2` and `S2` with all corrections. -/
example : ∃ c f, solve idealEnv dayT dayU none (some 45) plainOpts = .ok c ∧ c.name.length = 2 ∧ ContDiff ℝ ⊤ f ∧
    PredictedBy c recAll f := by
  obtain ⟨c, hc⟩ := C75_returns _ _ _ _ _ _ plain_sound
  have hp := (C17_honoured idealEnv dayT dayU none (some 45) plainOpts dayReady plain_documented.nodup .list (by simp)
    ["M2", "S2"] rfl rfl _ rfl c hc).1 (.inl rfl)
  have hlat : c.lat = 45 := by
    obtain ⟨opt, p, tn, constit, m, W, rf, full, o, ind, F⟩ := solve_facts dayReady hc
    have h1 : c.lat = p.lat := by rw [F.solved.result]; exact F.solved.head.lat
    rw [h1]; exact (Option.some.inj F.prep.init.hlat).symm
  have hk : AllKept c := by
    obtain ⟨opt, p, tn, constit, m, W, rf, full, o, ind, F⟩ := solve_facts dayReady hc
    have h1 := (getOpt_requests _ plain_documented.nodup _ _ F.hopt).order .none rfl
    left
    rw [F.copt, ← Except.ok.inj h1]
    exact .inl (.inl rfl)
  obtain ⟨f, h1, h2⟩ := C118_smooth (a := recAll) dayReady plain_documented.nodup hc hk .exact .exact rfl rfl
    (.inl (by rw [hlat]; norm_num)) (fun i _ h7 => by
      have := hp.mem_iff.1 (List.mem_of_getElem? h7)
      simp at this)
  exact ⟨c, f, hc, by rw [hp.length_eq]; rfl, h1, h2⟩

/-- A prediction of `M2` without corrections changes by at most amplitude times `2 pi` a period. -/
example : ∃ c f, solve idealEnv dayT (daySeries 1 0 2) none (some 45) exOpts = .ok c ∧ PredictedBy c recAll f ∧
    ∀ τ τ', ‖f τ' - f τ‖ ≤ (‖trendRate c‖ + (((List.range c.name.length).filter (Selected c recAll)).map fun i =>
      ‖harmonic c (c.name.getD i "") c.reftime‖ * amplitude c i * (2 * Real.pi * (24 * |c.frq.getD i 0|))).sum) * |τ' - τ| := by
  obtain ⟨c, hc, D⟩ := day_run 1 0 2 none (.inl rfl)
  obtain ⟨f, h1, h2⟩ := C118_rate (a := recAll) (day_ready 1 0 2 none (.inl rfl)) (by decide) hc D.kept
    ⟨.inl rfl, .inl rfl⟩
  exact ⟨c, f, hc, h1, h2⟩

/-- A record that is 1, 0, 2 at midnight, noon and midnight: whatever lies between two predicted levels is predicted
for a time in between. -/
example : ∃ c f, solve idealEnv dayT (daySeries 1 0 2) none (some 45) exOpts = .ok c ∧ PredictedBy c recAll f ∧
    ∀ y, (f 0.5).re ≤ y → y ≤ (f 1).re → ∃ τ, 0.5 ≤ τ ∧ τ ≤ 1 ∧ (f τ).re = y := by
  obtain ⟨c, hc, D⟩ := day_run 1 0 2 none (.inl rfl)
  obtain ⟨f, h1, h2⟩ := C118_crossing (a := recAll) (day_ready 1 0 2 none (.inl rfl)) (by decide) hc D.kept .off .off
    rfl rfl (.inr rfl) (fun i _ h7 => by rw [D.name] at h7; cases i <;> simp at h7)
  refine ⟨c, f, hc, h1, fun y ha hb => ?_⟩
  have h0 : cisd (-0) = 1 := by simp [cisd]
  obtain ⟨τ, g1, g2, g3⟩ := h2 0 0.5 1 y (by norm_num) (.inl (by rw [h0, one_mul, one_mul]; exact ⟨ha, hb⟩))
  rw [h0, one_mul] at g3
  exact ⟨τ, g1, g2, g3⟩

end

end UTide.Props
