import Verif.Props.EllipseProps
import Verif.Props.StableExample
import Verif.Props.SplitProps
import Verif.Props.SwapProps
import Verif.Props.ArgProps
import Verif.Props.RobustOls
import Verif.Props.ConfProps
import Verif.Props.CrossProps
import Verif.Props.GridProps
import Verif.Props.LombProps
import Verif.Props.TiedCiProps
import Verif.Props.RelExamples

/-!
# Further concrete cases

Cases of theorems whose own files show none, or none that goes through the theorem.
-/

namespace UTide.Props

noncomputable section

open Classical

/-! ## C09, C10 -/

/-- The anticlockwise ellipse with semi-axes 2 and 1: the greatest speed over the cycle is 2, the least 1. -/
example : IsGreatest (Set.range fun φ => ‖current 2 0 0 1 φ‖) 2 ∧ IsLeast (Set.range fun φ => ‖current 2 0 0 1 φ‖) 1 ∧
    ∀ φ, 0 < turning 2 0 0 1 φ := by
  have h1 : (cs2cep2 2 0 0 1).Lsmaj = 2 := by unfold cs2cep2; norm_num
  have h2 : (cs2cep2 2 0 0 1).Lsmin = 1 := by unfold cs2cep2; norm_num
  have k1 := C10_max_speed 2 0 0 1
  have k2 := C10_min_speed 2 0 0 1
  rw [h1] at k1
  rw [h2, abs_one] at k2
  exact ⟨k1, k2, (C10_rotation 2 0 0 1).1.2 (by rw [h2]; norm_num)⟩

/-- A clockwise rotation. -/
example : (∀ φ, turning 1 0 0 (-1) φ < 0) ∧ 0 ≤ (cs2cep2 1 0 0 (-1)).g ∧ (cs2cep2 1 0 0 (-1)).g < 360 := by
  have h2 : (cs2cep2 1 0 0 (-1)).Lsmin = -1 := by unfold cs2cep2; norm_num
  have h := C09_cs2cep_ranges 1 0 0 (-1)
  exact ⟨(C10_rotation 1 0 0 (-1)).2.2 (by rw [h2]; norm_num), h.2.2.2.2.2.2.1, h.2.2.2.2.2.2.2⟩

/-- At its phase `g` the current of speed `Lsmaj` points along `theta`; a current of `(3 cos φ, 4 cos φ)` has speed 5 then. -/
example : ‖current 3 0 4 0 (cs2cep2 3 0 4 0).g‖ = (cs2cep2 3 0 4 0).Lsmaj := by
  rw [C10_direction, norm_mul, Complex.norm_real, Real.norm_of_nonneg (by
    have := (C09_cs2cep_ranges 3 0 4 0).2.2.2.1
    exact le_trans (abs_nonneg _) this)]
  have : ∀ x : ℝ, ‖(⟨Real.cos x, Real.sin x⟩ : ℂ)‖ = 1 := by
    intro x
    rw [← sq_eq_sq₀ (norm_nonneg _) zero_le_one, ← Complex.normSq_eq_norm_sq, Complex.normSq_apply]
    have := Real.cos_sq_add_sin_sq x
    simp only []
    nlinarith
  rw [this, mul_one]

/-- `3 cos φ + 4 sin φ` is a cosine of amplitude 5. -/
example : ∃ g, ∀ φ, uAt 3 4 φ = 5 * Real.cos ((φ - g) * Real.pi / 180) := by
  refine ⟨(cs2cep1 3 4).g, fun φ => ?_⟩
  have h : (cs2cep1 3 4).Lsmaj = 5 := by
    unfold cs2cep1 
    simp only [Complex.norm_def, Complex.normSq_apply]
    rw [show (5 : ℝ) = Real.sqrt (5 ^ 2) by rw [Real.sqrt_sq (by norm_num)]]
    norm_num
  rw [C10_scalar, h]

/-! ## C14, C15 -/

/-- P1 from K1 and K2 from S2 is accepted, for an elevation; for a current the ratios are too few. -/
example :
    let kv : Dict PyVal := [("inferred_names", .seq .list [.str "P1", .str "K2"]), ("reference_names", .seq .list [.str "K1", .str "S2"]),
     ("amp_ratios", .seq .list [.num (1/3), .num (1/4)]), ("phase_offsets", .seq .list [.num 0, .num 10])]
    (∃ x, validateInfer (.dict true kv) false = .ok x) ∧ validateInfer (.dict true kv) true = .error .valueError := by
  intro kv
  have hs : ∀ k ∈ requiredKeys, ∃ kd xs, Dict.get? kv k = some (.seq kd xs) := by
    intro k hk
    simp only [requiredKeys, List.mem_cons, List.not_mem_nil, or_false] at hk
    rcases hk with rfl | rfl | rfl | rfl <;> exact ⟨_, _, rfl⟩
  refine ⟨⟨_, (C14_validation_partial kv false hs).1 ⟨.list, .list, .list, .list, [.str "P1", .str "K2"], [.str "K1", .str "S2"],
    [.num (1/3), .num (1/4)], [.num 0, .num 10], rfl, rfl, rfl, rfl, rfl, rfl, rfl⟩⟩, (C14_validation_partial kv true hs).2 ?_⟩
  rintro ⟨a, b, c, d, xs, ys, zs, ws, h1, h2, h3, h4, h5, h6, h7⟩
  cases h1
  cases h3
  simp at h6

/-- `constit='auto'` for a record too short for anything. -/
example : ∃ s, cnstitsel 730000 .pinf .auto none = .ok s := C15_total _ _

/-! ## C25, C27, C30, C31 -/

example : normalizeTime (fun _ => none) (.float ([.fin 366, .nan] ++ [.fin 400])) (.str "matlab") =
    .ok ([.fin 0, .nan] ++ [.fin 34]) := by
  rw [C25_pointwise _ _ _ _ (by simp)]
  show (Except.ok ([Fl.fin (366 - 366), .nan] ++ [Fl.fin (400 - 366)]) : Except PyErr (List Fl)) = _
  norm_num

example : normalizeTime (fun _ => none) (.float [.fin 730000.5, .nan]) (.str "python") = .ok [.fin 730000.5, .nan] :=
  C27_python_epoch_partial _ _

/-- Masking the second of three times changes nothing. -/
example : ∃ c, solve idealEnv dayT dayU none (some 45) (listOpts ["M2", "S2"] (.str "frequency")) = .ok c ∧
    solve idealEnv { dayT with mask := [false, true, false] } dayU none (some 45) (listOpts ["M2", "S2"] (.str "frequency")) = .ok c := by
  obtain ⟨c, hc⟩ := day_list ["M2", "S2"] M2S2_known
  exact ⟨c, hc, by rw [C30_mask_ignored]; exact hc⟩

/-- Times 3, NaN and 5: the second value is missing, and the three are those for `[3, NaN]` and for `[5]`. -/
example : ∃ c r r₁ r₂, solve idealEnv dayT dayU none (some 45) (listOpts ["M2", "S2"] (.str "frequency")) = .ok c ∧
    reconstruct idealEnv (.float [.fin 3, .nan, .fin 5]) c recAll = .ok r ∧ r[1]? = some none ∧ r[0]? ≠ some none ∧
    reconstruct idealEnv (.float [.fin 3, .nan]) c recAll = .ok r₁ ∧ reconstruct idealEnv (.float [.fin 5]) c recAll = .ok r₂ ∧
    r = r₁ ++ r₂ := by
  obtain ⟨c, hc⟩ := day_list ["M2", "S2"] M2S2_known
  have hk := list_kept dayReady _ c hc
  have hr := C36_selected idealEnv dayT _ none (some 45) _ dayReady (someOpts_nodup _ _) c hc hk idealEnv
    (.float [.fin 3, .nan, .fin 5]) recAll
  have ht := C27_python_epoch_partial idealEnv.dt64 [.fin 3, .nan, .fin 5]
  rw [show normalizeTime idealEnv.dt64 (.float [.fin 3, .nan, .fin 5]) recAll.epoch = _ from ht] at hr
  obtain ⟨-, tn, htn, -, h3⟩ := C31_shape idealEnv _ c recAll _ hr
  cases Except.ok.inj (htn.symm.trans ht)
  obtain ⟨r₁, r₂, h4, h5, h6⟩ := (C31_concat idealEnv c recAll (.float [.fin 3, .nan]) (.float [.fin 5]) (.float [.fin 3, .nan, .fin 5])
    (.float _ _) _).1 hr
  refine ⟨c, _, r₁, r₂, hc, hr, (h3 1 .nan rfl).2 rfl, fun h => ?_, h4, h5, h6⟩
  have := (h3 0 (.fin 3) rfl).1 h
  cases this

/-! ## C32, C35, C36 -/

/-- Two constituents exchanged in a result. -/
example : ∃ c, solve idealEnv dayT dayU none (some 45) (listOpts ["M2", "S2"] (.str "frequency")) = .ok c ∧
    ∀ E t a, reconstruct E t (c.permute [1, 0]) a = reconstruct E t c a := by
  obtain ⟨c, hc⟩ := day_list ["M2", "S2"] M2S2_known
  obtain ⟨opt, p, tn, constit, m, W, rf, full, o, ind, F⟩ := solve_facts dayReady hc
  have hco := (F.coherent (someOpts_nodup _ _)).permute ind F.lt
  rw [← F.solved.result] at hco
  have hl : ind.length = 2 := by rw [← hco.len.name, (day_list_names _ c hc).length_eq]; rfl
  refine ⟨c, hc, fun E t a => C35_permutation 2 c (hl ▸ hco.len) (fun x hx => ?_) [1, 0] (by decide) E t a⟩
  rcases F.solved.ci with ⟨-, h⟩ | ⟨h, -⟩
  · rw [F.solved.result, show (full.permute ind).ci = full.ci.map (CiArr.permute ind) from rfl, h] at hx
    cases hx
  · rw [F.prep.hopt, Except.ok.inj (F.hopt.symm.trans (listOpt_frequency _ _))] at h
    cases h

/-- With an energy threshold of 60 percent less is used than with one of 30 percent. -/
example (c : Coef) (i : ℕ) (h : Selected c ⟨.str "python", false, none, 2, 60⟩ i) : Selected c ⟨.str "python", false, none, 2, 30⟩ i :=
  C36_monotone c _ _ rfl rfl (by norm_num) (by norm_num) (by norm_num) i h

/-! ## C50 -/

/-- The ellipse of `(3 cos φ + 4 sin φ, cos φ)` with standard errors 1, 2, 1, 2. -/
example : FirstOrderCi ![3, 4, 1, 0] ![1, 2, 1, 2] (linear2 none 3 4 1 0 1 4 1 4).1 := by
  have := (C50_vector_partial none ![3, 4, 1, 0] ![1, 2, 1, 2] ![1, 4, 1, 4] (by
    constructor <;> intro h <;> have := congrArg Complex.re h <;> simp [rotP, rotM] at this) (by intro i; fin_cases i <;> simp) (by simp [linear2]; norm_num)).1 (by simp)
  simpa using this

/-! ## C72, C78, C99 -/

/-- Four samples of M2 with intervals: more samples than parameters, and they are separated. -/
example : ∃ c, solve idealEnv quadT (quadSeries 1 0 2 5) none (some 45) (ciOpts "linear" true) = .ok c ∧ c.ci ≠ none ∧
    Overdetermined c quadTn (quadSeries 1 0 2 5) none := by
  obtain ⟨c, Q, hci⟩ := quad_ci 1 0 2 5 none (.inl rfl) true
  exact ⟨c, Q.returned, hci, C72_needed (quad_ready 1 0 2 5 none (.inl rfl)) idealNum_ok.inv (by decide) ⟨_, rfl, .inl rfl⟩ Q.returned
    (by rw [Q.opt]; rfl) Q.kept (by rw [Q.opt]; exact quad_times) hci⟩

/-- The prediction for day 4 is the mean plus what M2 and S2 add by themselves. -/
example : ∃ c z z₀ zM zS, solve idealEnv dayT dayU none (some 45) (listOpts ["M2", "S2"] (.str "frequency")) = .ok c ∧
    reconstruct idealEnv (.float [.fin 4]) c recAll = .ok [some z] ∧
    Predicts idealEnv (.float [.fin 4]) c recAll [] 0 z₀ ∧ Predicts idealEnv (.float [.fin 4]) c recAll ["M2"] 0 zM ∧
    Predicts idealEnv (.float [.fin 4]) c recAll ["S2"] 0 zS ∧ z = z₀ + (zM - z₀) + (zS - z₀) := by
  obtain ⟨c, hc⟩ := day_list ["M2", "S2"] M2S2_known
  have hk := list_kept dayReady _ c hc
  have hp := day_list_names _ c hc
  have hr := C36_selected idealEnv dayT _ none (some 45) _ dayReady (someOpts_nodup _ _) c hc hk idealEnv (.float [.fin 4]) recAll
  rw [show normalizeTime idealEnv.dt64 (.float [.fin 4]) recAll.epoch = _ from C27_python_epoch_partial idealEnv.dt64 [.fin 4]] at hr
  obtain ⟨z₀, f, h1, h2, h3⟩ := C99_each dayReady (someOpts_nodup _ _) hc hk (hp.nodup_iff.2 (by decide)) idealEnv (.float [.fin 4])
    recAll ⟨rfl, rfl, rfl⟩ _ hr 0 _ rfl
  refine ⟨c, _, z₀, _, _, hc, hr, h1, h2 "M2", h2 "S2", ?_⟩
  rw [h3, (hp.map f).sum_eq]
  simp
  ring

/-! ## C102 -/

example : ∃ c out out' t', solve idealEnv dayT (daySeries 1 0 2) none (some 45) exOpts = .ok c ∧
    reconstructOut idealEnv ⟨[1], .float [.fin 466], []⟩ c { recAll with epoch := .str "matlab" } = .ok out ∧
    reconstructOut idealEnv t' c recAll = .ok out' ∧ out'.get? "h" = out.get? "h" := by
  obtain ⟨c, hc, D⟩ := day_run 1 0 2 none (.inl rfl)
  have hR := day_ready 1 0 2 none (.inl rfl)
  have hr := C36_selected idealEnv dayT _ none (some 45) exOpts hR (by decide) c hc D.kept idealEnv (.float [.fin 466])
    { recAll with epoch := .str "matlab" }
  have ht : normalizeTime idealEnv.dt64 (.float [.fin 466]) (.str "matlab") = .ok [.fin 100] := by
    show (Except.ok [Fl.fin (466 - 366)] : Except PyErr (List Fl)) = _
    norm_num
  rw [ht] at hr
  obtain ⟨out, ho⟩ := (C102_axes (E := idealEnv) (t := ⟨[1], .float [.fin 466], []⟩) (c := c)
    (a := { recAll with epoch := .str "matlab" })).2 (by simp) |>.2 ⟨_, hr⟩
  obtain ⟨x, t', out', -, -, h3, h4⟩ := C102_again out ho
  exact ⟨c, out, out', t', hc, ho, h3, h4 "h" (by simp)⟩

/-! ## C32, C70 -/

/-- A noisy current with cosine coefficients 1 and 2: the energies are not all zero, and the shares add up to 100. -/
example : ∃ (z : ℂ) (c : Coef) (P : List ℝ) (ci : CiArr) (r : Ci1), solve idealEnv pentT (pentData z 1 1 0) (some (pentData z 2 0 1)) (some 45) (ciOpts "linear" true) = .ok c ∧
    c.PE = some (P.map Fl.fin) ∧ P.sum = 100 ∧ c.ci = some ci ∧ intervalAt ci 0 = some r := by
  obtain ⟨z, Z⟩ := pent_rot
  obtain ⟨c, Q⟩ := pent_pair z true 1 1 0 2 0 1
  have H : WhiteRun idealEnv pentT (pentData z 1 1 0) (some (pentData z 2 0 1)) (some 45) (ciOpts "linear" true) c pentTn :=
    ⟨PentRun.returned Q, by decide, ⟨.str "ols", rfl, .inl rfl⟩, by rw [PentRun.opt Q]; rfl, by rw [PentRun.opt Q]; rfl,
      by rw [PentRun.opt Q]; rfl, by rw [PentRun.opt Q]; rfl, PentRun.kept Q, by rw [PentRun.opt Q]; exact pent_times⟩
  have R := pent_pair_ready z 1 1 0 2 0 1
  obtain ⟨ci, qu, qv, hci, hqu, hqv, hall⟩ := C70_vector_partial R idealNum_ok.inv H
  obtain ⟨a, b, su, sv, x, σ, hx, -, -, -, -, -, -, hell, hint⟩ := hall 0 "M2" (by rw [PentRun.name Q]; rfl)
  rw [pent_sampleTimes z 1 1 0 (some (pentData z 2 0 1)) (.inr ⟨_, _, _, _, _, rfl⟩)] at hqu hqv
  rw [(pent_sampleUV z 1 1 0 2 0 1).1] at hqu
  rw [(pent_sampleUV z 1 1 0 2 0 1).2] at hqv
  obtain ⟨b1, b2, -⟩ := pent_best Q (pent_like true) z Z.h0 Z.h1 Z.h2 Z.h3 Z.h4 Z.hu Z.hr Z.hi _ _ _ _ hqu
  obtain ⟨b3, b4, -⟩ := pent_best Q (pent_like true) z Z.h0 Z.h1 Z.h2 Z.h3 Z.h4 Z.hu Z.hr Z.hi _ _ _ _ hqv
  rw [b1, b2, b3, b4] at hx
  subst hx
  obtain ⟨r, hr, -⟩ := hint (by
    constructor <;> intro h <;> have := congrArg Complex.re h <;> simp [rotP, rotM] at this)
  have hpos : 0 < (cs2cep2 1 0 2 0).Lsmaj := by
    refine lt_of_lt_of_le ?_ ((C10_max_speed 1 0 2 0).2 ⟨0, rfl⟩)
    refine norm_pos_iff.2 fun h => ?_
    have := congrArg Complex.re h
    simp [current, uAt] at this
  have hz : Nonzero c.ell := by
    change ellipseAt c.ell 0 = some (cs2cep2 1 0 2 0) at hell
    generalize cs2cep2 1 0 2 0 = e at hell hpos
    cases he : c.ell with
    | one A g =>
      rw [he] at hell
      simp only [ellipseAt, Option.bind_eq_some_iff, Option.map_eq_some_iff] at hell
      obtain ⟨a, ha, b, -, rfl⟩ := hell
      exact ⟨a, List.mem_of_getElem? ha, hpos.ne'⟩
    | two A B C D =>
      rw [he] at hell
      simp only [ellipseAt, Option.bind_eq_some_iff, Option.map_eq_some_iff] at hell
      obtain ⟨a, ha, b, -, d, -, f, -, rfl⟩ := hell
      exact .inl ⟨a, List.mem_of_getElem? ha, hpos.ne'⟩
  obtain ⟨opt, p, tn, constit, m, W, rf, full, o, ind, F⟩ := solve_facts R (PentRun.returned Q)
  have hPE : ∃ l, c.PE = some l := by
    rw [F.solved.result]
    show ∃ l, full.PE.map (gather · ind) = some l
    rw [F.solved.PE, if_neg]
    · exact ⟨_, rfl⟩
    · rw [F.prep.hopt, ← F.copt, PentRun.opt Q]
      exact fun h => by cases h.1
  obtain ⟨l, hl⟩ := hPE
  obtain ⟨P, rfl, -, -, hP, -⟩ := C32_solve _ _ _ _ _ _ R (by decide) c (PentRun.returned Q) (PentRun.kept Q) hz l hl
  exact ⟨z, c, P, ci, r, PentRun.returned Q, hl, hP, hci, hr⟩

/-! ## C71 -/

/-- Linearised intervals only add to the run without intervals. -/
example : ∃ c c', solve idealEnv quadT (quadSeries 1 0 2 5) none (some 45) (ciOpts "none" true) = .ok c ∧
    solve idealEnv quadT (quadSeries 1 0 2 5) none (some 45) (ciOpts "linear" true) = .ok c' ∧ c'.ci ≠ none ∧ SameFit c c' := by
  obtain ⟨c', Q', hci⟩ := quad_ci 1 0 2 5 none (.inl rfl) true
  obtain ⟨c, hc⟩ : ∃ c, solve idealEnv quadT (quadSeries 1 0 2 5) none (some 45) (ciOpts "none" true) = .ok c := by
    have R := quad_ready 1 0 2 5 none (.inl rfl)
    refine solve_total idealEnv _ _ none 45 _ _ quadTn (.names ["M2"]) .frequency (ciOpts_none false true) rfl rfl rfl rfl rfl
      ⟨by simpa using M2_known, .inl (by simp)⟩ rfl (.inr rfl) ⟨rfl, rfl, by simp⟩ R.ht R.hu R.hv quad_times ?_
      (fun k => by simp [nodalSingular, exOpt]) (fun h => by simp [exOpt] at h)
    intro h0
    have hus := quad_usable 1 0 2 5 none (.inl rfl)
    rw [h0] at hus
    simp at hus
  refine ⟨c, c', hc, Q'.returned, hci, C71_added (by decide) (by decide) (ciOpts_requested _ _ _ _) c c' hc Q'.returned ?_⟩
  obtain ⟨opt, p, tn, constit, m, W, rf, full, o, ind, F⟩ := solve_facts (quad_ready 1 0 2 5 none (.inl rfl)) hc
  rcases F.solved.ci with ⟨-, h⟩ | ⟨h, -⟩
  · rw [F.solved.result]
    show full.ci.map (CiArr.permute ind) = none
    rw [h]; rfl
  · rw [F.prep.hopt, Except.ok.inj (F.hopt.symm.trans (ciOpts_none _ _))] at h
    cases h

/-! ## C11 -/

/-- NU2 inferred from N2, for a current: both rotating parts are a fifth of those of N2, turned by 30 degrees. -/
example : ∃ c, solve idealEnv dayT dayU (some dayU) (some 45) (tiedOpts 2) = .ok c ∧
    ∃ i k e eR, c.name[i]? = some "NU2" ∧ c.name[k]? = some "N2" ∧ ellipseAt c.ell i = some e ∧ ellipseAt c.ell k = some eR ∧
      ccw e = (1 / 5 : ℚ) * cisd (30 : ℚ) * ccw eR ∧ cw e = (1 / 5 : ℚ) * cisd (-(30 : ℚ)) * cw eR := by
  obtain ⟨c, hc⟩ := tied_returns idealEnv (some dayU) (by rintro w h; cases h; exact dayReady.hu)
    ⟨rfl, rfl, by rintro w h; cases h; rfl⟩ (by simp [usable, goodSamples2, Fl.toReal?, Cell.value?, dayU])
  obtain ⟨hco, hk⟩ := tied_opt dayReady2 hc
  have hp := tied_names dayReady2 hc
  obtain ⟨i, hi⟩ := List.mem_iff_getElem?.1 (hp.mem_iff.2 (show "NU2" ∈ _ by simp))
  obtain ⟨k, hkk⟩ := List.mem_iff_getElem?.1 (hp.mem_iff.2 (show "N2" ∈ _ by simp))
  obtain ⟨e, eR, h⟩ := C11_vector idealEnv dayT dayU dayU (some 45) (tiedOpts 2) dayReady2 (by decide) c hc hk
    (hp.nodup_iff.2 (by decide)) (tiedSpec true) (by rw [hco]; exact tied_read _) 0 "NU2" "N2" (1 / 5) 30 (1 / 5) 30
    rfl rfl rfl rfl rfl rfl i k hi hkk
  exact ⟨c, hc, i, k, e, eR, hi, hkk, h⟩

end

end UTide.Props
