import Verif.Props.ReduceProps
import Verif.Props.RepeatProps
import Verif.Props.ValueFreeProps
import Verif.Props.NyquistExample
import Verif.Props.ShuffleExamples
import Verif.Props.SixExample
import Verif.Props.AvailProps

/-!
# Runs for C106, C107, C108
-/

namespace UTide.Props

noncomputable section

open Classical

/-! ## C106 -/

theorem quad_holes (a b c d a' b' c' d' : ℝ) :
    SameHoles (sampleValues (quadSeries a b c d).data none) (sampleValues (quadSeries a' b' c' d').data none) := by
  intro i
  simp only [sampleValues, quadSeries, List.map_cons, List.map_nil, Cell.value?, Fl.toReal?, Option.map_some]
  rcases i with _ | _ | _ | _ | i <;> simp

/-- Four samples, whatever they are: the run returns, with M2 in first place. -/
example (a b c d : ℝ) : outcome (solve idealEnv quadT (quadSeries a b c d) none (some 45) exOpts) = none := by
  obtain ⟨co, hc, -⟩ := quad_run 0 0 0 0 none (.inl rfl)
  have R := quad_ready 0 0 0 0 none (.inl rfl)
  have R' := quad_ready a b c d none (.inl rfl)
  rw [C106_outcome idealEnv quadT (quadSeries 0 0 0 0) (quadSeries a b c d) none none (some 45) exOpts (by decide) R.ht R.hu
    R.hv R'.hu R'.hv ⟨_, rfl, .inl rfl⟩ ⟨_, rfl, .inl rfl⟩ rfl rfl (quad_holes _ _ _ _ _ _ _ _), hc]
  rfl

/-- Without a latitude the run ends with ValueError, whatever the samples. -/
example (a b c d : ℝ) : outcome (solve idealEnv quadT (quadSeries a b c d) none none exOpts) = some .valueError := by
  have R := quad_ready 0 0 0 0 none (.inl rfl)
  have R' := quad_ready a b c d none (.inl rfl)
  rw [C106_outcome idealEnv quadT (quadSeries 0 0 0 0) (quadSeries a b c d) none none none exOpts (by decide) R.ht R.hu
    R.hv R'.hu R'.hv ⟨_, rfl, .inl rfl⟩ ⟨_, rfl, .inl rfl⟩ rfl rfl (quad_holes _ _ _ _ _ _ _ _)]
  unfold solve
  rw [show getOpt exOpts (none : Option Series).isSome = .ok (exOpt false) from exOpt_eq false]
  rfl

/-- Two records on the same four times, with linear intervals: same plan. -/
example : ∃ c c', solve idealEnv quadT (quadSeries 1 0 2 5) none (some 45) (ciOpts "linear" true) = .ok c ∧
    solve idealEnv quadT (quadSeries 3 7 1 1) none (some 45) (ciOpts "linear" true) = .ok c' ∧ SamePlan c c' := by
  obtain ⟨c, hc, -⟩ := quad_ci 1 0 2 5 none (.inl rfl) true
  obtain ⟨c', hc', -⟩ := quad_ci 3 7 1 1 none (.inl rfl) true
  exact ⟨c, c', hc.returned, hc'.returned, (C106_plan idealEnv quadT _ _ none none (some 45) _ (quad_ready _ _ _ _ none (.inl rfl))
    (quad_ready _ _ _ _ none (.inl rfl)) (by decide) rfl (quad_holes _ _ _ _ _ _ _ _) c c' hc.returned hc'.returned hc.kept).1⟩

/-! ## C107 -/

/-- Each of three samples twice. -/
def twice (a b c : ℝ) : Fin 6 → ℝ := ![a, a, b, b, c, c]

theorem twice_rows (a b c : ℝ) :
    RepeatedRows 2 [.fin 0, .fin 0.5, .fin 1] (daySeries a b c) none sixTn (sixSeries (twice a b c)) none := by
  unfold RepeatedRows
  have e1 : sixTn.zip (sampleValues (sixSeries (twice a b c)).data (Option.map Series.data none)) =
      [(.fin 0, some (a : ℂ)), (.fin 0, some (a : ℂ)), (.fin 0.5, some (b : ℂ)), (.fin 0.5, some (b : ℂ)),
       (.fin 1, some (c : ℂ)), (.fin 1, some (c : ℂ))] := by
    simp [sixTn, sampleValues, sixSeries, twice, Cell.value?, Fl.toReal?]
  have e2 : (List.replicate 2 (([.fin 0, .fin 0.5, .fin 1] : List Fl).zip
      (sampleValues (daySeries a b c).data (Option.map Series.data none)))).flatten =
      [(.fin 0, some (a : ℂ)), (.fin 0.5, some (b : ℂ)), (.fin 1, some (c : ℂ)), (.fin 0, some (a : ℂ)),
       (.fin 0.5, some (b : ℂ)), (.fin 1, some (c : ℂ))] := by
    simp [sampleValues, daySeries, Cell.value?, Fl.toReal?, List.replicate]
  rw [e1, e2]
  exact List.perm_iff_count.2 fun x => by simp only [List.count_cons, List.count_nil]; omega

theorem twice_run (opts : Dict PyVal) (q : Opt) (hq : getOpt opts false = .ok q) (hnd : opts.keys.Nodup)
    (h1 : q.method = .ols) (h2 : q.confInt = false)
    (h3 : q.nodiagn = true) (h4 : q.infer = .none) (h5 : q.cnstit = .seq .list [.str "M2"])
    (h6 : q.ordercnstit = .str "frequency") (h7 : q.epoch = .str "python") (h8 : q.flags.nodsatnone = true)
    (h9 : q.notrend = true) (y : Fin 6 → ℝ)
    (h10 : requested opts "constit" = some (.seq .list [.str "M2"])) (h11 : requested opts "infer" = some .none)
    (h12 : requested opts "order_constit" = some (.str "frequency")) :
    ∃ co, solve idealEnv sixT (sixSeries y) none (some 45) opts = .ok co ∧ co.opt = q ∧ AllKept co ∧
      co.name = ["M2"] ∧ co.reftime = 0.5 := by
  have R := six_ready y none (.inl rfl)
  obtain ⟨co, hc⟩ : ∃ co, solve idealEnv sixT (sixSeries y) none (some 45) opts = .ok co := by
    refine solve_total idealEnv _ _ none 45 opts q sixTn (.names ["M2"]) .frequency
      hq h1 h2 h3 (by rw [h4]; rfl) (by rw [h5]; rfl) ⟨by simpa using M2_known, .inl (by simp)⟩ (by rw [h6]; rfl)
      (.inr rfl) (six_shapes y none (.inl rfl)) R.ht R.hu R.hv (by rw [h7]; exact six_times)
      (by intro h; have := six_usable y none (.inl rfl); rw [h] at this; simp at this)
      (fun k => by simp [nodalSingular, h8]) (fun h => by rw [h9] at h; cases h)
  obtain ⟨opt, p, tn, constit, m, W, rf, full, o, ind, F⟩ := solve_facts R hc
  have hopt : opt = q := Except.ok.inj (F.hopt.symm.trans hq)
  subst hopt
  refine ⟨co, hc, F.copt, ?_, ?_, ?_⟩
  · left; right; left; left; rw [F.copt]; exact h6
  · exact List.perm_singleton.1 ((C17_honoured idealEnv sixT _ none (some 45) opts R
      hnd .list (by simp) ["M2"] h10 h11 (.str "frequency") h12 co hc).1 (.inr ⟨_, rfl⟩))
  · have htn : tn = sixTn := by
      have := F.prep.init.time
      rw [h7] at this
      exact Except.ok.inj (this.symm.trans six_times)
    subst htn
    rw [F.creftime]
    obtain ⟨-, -, -, -, h5⟩ := editData_usable _ _ _ (F.samples R).1 _ F.prep.init.edit
    rw [six_finite, six_usable y none (.inl rfl)] at h5
    unfold timeStats at h5
    by_cases he : isEqui [0, 0, 0.5, 0.5, 1, 1]
    · simp only [he, if_true] at h5
      have h6 := congrArg Prod.fst (Except.ok.inj h5)
      exact h6.symm.trans (by show (0.5 : ℝ) * (0 + 1) = 0.5; norm_num)
    · simp only [he] at h5
      have h6 := congrArg Prod.fst (Except.ok.inj h5)
      exact h6.symm.trans (by show (0.5 : ℝ) * (0 + 1) = 0.5; norm_num)

/-- Greenwich phases: each of the samples 1, 5, 3 given twice, same M2 and mean level. -/
example : ∃ c c', solve idealEnv dayT (daySeries 1 5 3) none (some 45) gwOpts = .ok c ∧
    solve idealEnv sixT (sixSeries (twice 1 5 3)) none (some 45) gwOpts = .ok c' ∧
    ellipseAt c'.ell 0 = ellipseAt c.ell 0 ∧ ∀ τ, level c' τ = level c τ := by
  have hR := day_ready 1 5 3 none (.inl rfl)
  have hR' := six_ready (twice 1 5 3) none (.inl rfl)
  obtain ⟨c, hc, hopt, hk, hname, hlat⟩ := swap_run gwOpts gwOpt gwOpt_eq (by decide) rfl rfl rfl rfl rfl rfl
    rfl rfl rfl dayT _ 1 5 3 hR rfl day_times (day_usable_ne _ _ _) rfl rfl rfl
  obtain ⟨c', hc', hopt', hk', hname', -⟩ := twice_run gwOpts gwOpt gwOpt_eq (by decide) rfl rfl rfl rfl rfl rfl
    rfl rfl rfl (twice 1 5 3) rfl rfl rfl
  obtain ⟨s0, s5, s1⟩ := day_sampleTime 1 5 3
  have hS := C107_repeated idealEnv dayT sixT _ _ none none (some 45) gwOpts hR hR' (by decide) ⟨_, rfl, .inl rfl⟩ rfl
    c c' hc hc' hk hk' none (by rw [hopt]; rfl) (by simp) _ _ (by rw [hopt]; exact day_times)
    (by rw [hopt]; exact six_times) 2 (by norm_num) (twice_rows _ _ _) (by rw [hname, hname'])
    (gw_separated hopt hname _ _ s0 s5 s1) .off rfl (by decide) rfl
  exact ⟨c, c', hc, hc', hS.ellipse 0 0 "M2" (by rw [hname]; rfl) (by rw [hname']; rfl), hS.level⟩

/-- Raw phases: the reference time is the same, and so is the result. -/
example : ∃ c c', solve idealEnv dayT (daySeries 1 5 3) none (some 45) exOpts = .ok c ∧
    solve idealEnv sixT (sixSeries (twice 1 5 3)) none (some 45) exOpts = .ok c' ∧
    ellipseAt c'.ell 0 = ellipseAt c.ell 0 ∧ c'.mean = c.mean := by
  have hR := day_ready 1 5 3 none (.inl rfl)
  have hR' := six_ready (twice 1 5 3) none (.inl rfl)
  obtain ⟨c, hc, D⟩ := day_run 1 5 3 none (.inl rfl)
  obtain ⟨c', hc', hopt', hk', hname', href⟩ := twice_run exOpts (exOpt false) (exOpt_eq false) (by decide) rfl rfl rfl rfl rfl rfl
    rfl rfl rfl (twice 1 5 3) rfl rfl rfl
  obtain ⟨s0, s5, s1⟩ := day_sampleTime 1 5 3
  obtain ⟨hS, hm⟩ := C107_same_reftime idealEnv dayT sixT _ _ none none (some 45) exOpts hR hR' (by decide)
    ⟨_, rfl, .inl rfl⟩ rfl c c' hc hc' D.kept hk' none (by rw [D.opt]; rfl) (by simp) _ _ (by rw [D.opt]; exact day_times)
    (by rw [D.opt]; exact six_times) 2 (by norm_num) (twice_rows _ _ _)
    (by rw [D.name, hname']) (day_separated D _ _ s0 s5 s1) (by rw [href, D.reftime])
  exact ⟨c, c', hc, hc', hS.ellipse 0 0 "M2" (by rw [D.name]; rfl) (by rw [hname']; rfl), hm⟩

/-! ## C108 -/

/-- Eight samples of S2 and S4 about a mean. -/
def octTide (a b s : ℝ) (i : Fin 8) : ℝ :=
  s + a * Real.cos (4 * Real.pi * ((i : ℕ) / 16 - 7 / 32)) + b * Real.cos (8 * Real.pi * ((i : ℕ) / 16 - 7 / 32))

theorem octTide_found (a b s : ℝ) (ha : 0 ≤ a) (hb : 0 ≤ b) :
    ∃ c, solve idealEnv octT (octSeries (octTide a b s)) none (some 45) (listOpts ["S2", "S4"] (.str "frequency")) = .ok c ∧
    c.mean = .one s none ∧
    ∀ i, (c.name[i]? = some "S2" → ∃ e, ellipseAt c.ell i = some e ∧ e.Lsmaj = a) ∧
      (c.name[i]? = some "S4" → ∃ e, ellipseAt c.ell i = some e ∧ e.Lsmaj = b) := by
  obtain ⟨c, hc⟩ := octS_returns (octTide a b s)
  obtain ⟨ho, hn, hr⟩ := octS_opt hc
  obtain ⟨h1, h2, h3⟩ := S2S4_nyquist (S2S4_frq hc hn)
  have hE : ∀ k n : ℕ, linFreqs (7 / 32) k = n / 12 → ∀ τ,
      (utE c.opt.flags c.reftime c.lat τ (linFreqs c.reftime k) k).re = Real.cos (n * (4 * Real.pi * (τ - 7 / 32))) := by
    intro k n hf τ
    rw [hr, oct_utE c.opt.flags (by rw [ho]; exact ⟨rfl, rfl⟩) c.lat τ k n hf, octTurn_eq]
    show Real.cos _ = _
    congr 1; ring
  obtain ⟨k1, k2⟩ := C101_scalar (octS_ready _) (someOpts_nodup _ _) ⟨_, rfl, .inl rfl⟩ hc (list_kept (octS_ready _) _ c hc)
    (by rw [ho]; rfl) octTn (by rw [ho]; exact oct_times) (list_steady _ _) (list_notVanishing _ _ _) h1 h2 (1 / 16)
    (by norm_num) h3 (octS_stretch hn ho) (fun n => if n = "S2" then a else b) (fun _ => 0) s 0
    (fun n _ => by split <;> assumption) (fun _ => rfl) (by
      intro i x τ hx hτ
      obtain ⟨hi, rfl⟩ := octTn_get hτ
      have hx' : x = s + a * Real.cos (4 * Real.pi * ((i : ℝ) / 16 - 7 / 32)) + b * Real.cos (8 * Real.pi * ((i : ℝ) / 16 - 7 / 32)) := by
        simp only [octSeries, octTide, List.map_ofFn, List.getElem?_ofFn, hi, dif_pos, Option.bind_some, Function.comp, Cell.value?,
          Fl.toReal?] at hx
        simpa using hx.symm
      unfold scalarCurve
      rw [(hn.map _).sum_eq, hx']
      simp only [List.map_cons, List.map_nil, List.sum_cons, List.sum_nil, harmonic, nameBasis, idx_S2, idx_S4, neg_zero, cisd_zero,
        mul_one, zero_mul, add_zero, if_true]
      rw [hE 56 1 (by rw [freq_S2]; norm_num), hE 88 2 (by rw [freq_S4]; norm_num), if_neg (by decide)]
      push_cast
      rw [one_mul, show (2 : ℝ) * (4 * Real.pi * ((i : ℝ) / 16 - 7 / 32)) = 8 * Real.pi * ((i : ℝ) / 16 - 7 / 32) by ring]
      ring)
  refine ⟨c, hc, by rw [k2, ho]; rfl, fun i => ⟨fun hi => ?_, fun hi => ?_⟩⟩
  · obtain ⟨e, e1, e2, -, -, -⟩ := k1 i _ hi
    rw [if_pos rfl] at e2
    exact ⟨e, e1, e2⟩
  · obtain ⟨e, e1, e2, -, -, -⟩ := k1 i _ hi
    rw [if_neg (by decide)] at e2
    exact ⟨e, e1, e2⟩

/-- Eight samples of an S2 tide: S4 is found to be zero, and without S4 the amplitude of S2 is the same. -/
example : ∃ c c' e, solve idealEnv octT (octSeries (octTide 2 0 5)) none (some 45) (listOpts ["S2", "S4"] (.str "frequency")) = .ok c ∧
    solve idealEnv octT (octSeries (octTide 2 0 5)) none (some 45) (listOpts ["S2"] (.str "frequency")) = .ok c' ∧
    ellipseAt c'.ell 0 = some e ∧ e.Lsmaj = 2 ∧ ∀ τ, level c' τ = 5 := by
  have R := octS_ready (octTide 2 0 5)
  obtain ⟨c, hc, hmean, hell⟩ := octTide_found 2 0 5 (by norm_num) (by norm_num)
  obtain ⟨ho, hn, hr⟩ := octS_opt hc
  obtain ⟨c', hc'⟩ : ∃ c', solve idealEnv octT (octSeries (octTide 2 0 5)) none (some 45) (listOpts ["S2"] (.str "frequency")) = .ok c' := by
    have := list_returns idealEnv octTn [] (octSeries (octTide 2 0 5)).data (by simp [octTn, octSeries]) ["S2"]
      (fun n hn => S2S4_known n (by simp only [List.mem_singleton] at hn; simp [hn]))
      (by intro h; have := octS_usable (octTide 2 0 5); rw [h] at this; simp [octTimes] at this)
    simpa [octT, octTn, octSeries] using this
  obtain ⟨opt, p, tn, constit, m, W, rf, full, o, ind, F⟩ := solve_facts R hc'
  have ho' : c'.opt = listOpt false ["S2"] (.str "frequency") := by
    rw [F.copt]
    exact Except.ok.inj (F.hopt.symm.trans (listOpt_frequency false _))
  have hn' : c'.name = ["S2"] := List.perm_singleton.1
    ((C17_honoured idealEnv octT _ none (some 45) _ R (someOpts_nodup _ _) .list (by simp) _ rfl rfl _ rfl c' hc').1 (.inr ⟨_, rfl⟩))
  have hf : c'.frq = [1 / 12] := by
    rw [frq_of_name hc', hn']
    simp only [List.map_cons, List.map_nil, idx_S2, freq_S2]
  have hsep : Separated c' none false (SampleTime octTn (octSeries (octTide 2 0 5)).data none) := by
    refine C101_separated R (someOpts_nodup _ _) hc' (list_steady _ _) (list_notVanishing _ _ _) (by rw [hf]; simp)
      (by rw [hf]; simp) (1 / 16) (by norm_num) (by rw [hf]; simp; norm_num) _ ?_ none false
    obtain ⟨t0, h0⟩ := octS_stretch (ys := octTide 2 0 5) hn ho
    refine ⟨t0, fun j hj => h0 j ?_⟩
    rw [hn', ho'] at hj
    rw [hn.length_eq, ho]
    have : j < 3 := hj
    show j < 5
    omega
  obtain ⟨i, hi⟩ := List.getElem?_of_mem (hn.mem_iff.2 (show "S2" ∈ ["S2", "S4"] by simp))
  obtain ⟨e, he, hA⟩ := (hell i).1 hi
  have hlev : ∀ τ, level c τ = 5 := by intro τ; unfold level; rw [hmean]; simp
  have hS := C108_reduced idealEnv octT _ none (some 45) _ _ R (someOpts_nodup _ _) (someOpts_nodup _ _) ⟨_, rfl, .inl rfl⟩
    ⟨_, rfl, .inl rfl⟩ c c' hc hc' (list_kept (octS_ready _) _ c hc) (list_kept (octS_ready _) _ c' hc')
    (hn.nodup_iff.2 (by simp)) (by intro n h; rw [hn', List.mem_singleton] at h; rw [hn.mem_iff]; simp [h])
    (by
      intro k hk
      simp only [List.mem_cons, List.not_mem_nil, or_false] at hk
      rcases hk with rfl | rfl | rfl | rfl <;> rfl)
    (by
      intro j n e hj hne he
      have h4 : n = "S4" := by
        have := hn.mem_iff.1 (List.mem_of_getElem? hj)
        rw [hn'] at hne
        simp only [List.mem_cons, List.not_mem_nil, or_false] at this hne
        tauto
      subst h4
      obtain ⟨e', he', h0⟩ := (hell j).2 hj
      rw [he] at he'
      rw [Option.some.inj he', h0])
    (fun _ => by rw [ho']; rfl) (fun _ τ => by rw [hlev, hlev]) none (by rw [ho']; rfl) (by simp) octTn
    (by rw [ho']; exact oct_times) hsep
  refine ⟨c, c', e, hc, hc', ?_, hA, fun τ => by rw [hS.level, hlev]⟩
  rw [hS.ellipse i 0 "S2" hi (by rw [hn']; rfl), he]

end

end UTide.Props
