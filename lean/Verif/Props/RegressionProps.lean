import Verif.Props.LeakBeside
import Verif.Props.NeedProps

/-!
# C160: mean and trend where the tide averages out over the samples
-/

namespace UTide.Props

noncomputable section

open Classical

local notation "conj" => starRingEnd ℂ

/-- Specification: over the usable samples every constituent averages out, and so does its product with time if a trend is
fitted. -/
structure Balanced (c : Coef) (tn : List Fl) (u : Series) (v : Option Series) : Prop where
  constant : ∀ n ∈ c.name, ((sampleTimes tn u v).map fun τ => harmonic c n τ).sum = 0
  trend : c.opt.notrend = false → ∀ n ∈ c.name, ((sampleTimes tn u v).map fun τ : ℝ => (τ : ℂ) * harmonic c n τ).sum = 0

/-- `perp_of_best` for any `D`. -/
theorem perp_of_best' (L : List (ℝ × ℂ)) (K D : ℝ → ℂ)
    (h : ∀ ε : ℂ, (L.map fun s => ‖s.2 - K s.1‖ ^ 2).sum ≤ (L.map fun s => ‖s.2 - (K s.1 + ε * D s.1)‖ ^ 2).sum) :
    (L.map fun s => conj (D s.1) * (s.2 - K s.1)).sum = 0 := by
  have h0 : 0 ≤ (L.map fun s => ‖D s.1‖ ^ 2).sum := List.sum_nonneg fun y hy => by
    obtain ⟨s, -, rfl⟩ := List.mem_map.1 hy
    positivity
  rcases h0.lt_or_eq with h1 | h1
  · exact perp_of_best L K D _ h1 rfl h
  · have hz : ∀ s ∈ L, D s.1 = 0 := by
      clear h h0
      induction L with
      | nil => simp
      | cons a l ih =>
        simp only [List.map_cons, List.sum_cons] at h1
        have h2 : 0 ≤ (l.map fun s => ‖D s.1‖ ^ 2).sum := List.sum_nonneg fun y hy => by
          obtain ⟨s, -, rfl⟩ := List.mem_map.1 hy
          positivity
        have h3 := sq_nonneg ‖D a.1‖
        intro s hs
        rcases List.mem_cons.1 hs with rfl | hs
        · exact norm_eq_zero.1 (pow_eq_zero_iff (two_ne_zero) |>.1 (by linarith))
        · exact ih (by linarith) s hs
    rw [List.map_congr_left (g := fun _ => (0 : ℂ)) fun s hs => by rw [hz s hs, map_zero, zero_mul]]
    simp

section

variable {E : Env} {lat : Option ℝ} {opts : Dict PyVal} {sp : Option InferSpec} {t : TimeArg} {u : Series}
  {v : Option Series} {tn : List Fl} {c : Coef}

/-- **C160.** Ordinary least squares, with or without inference, scalar or vector series, where the constituents average out
over the samples: mean and trend solve the normal equations of a straight line (a constant, with `trend=False`) through the
data as they are. -/
theorem C160_normal (H : OlsRun E lat opts sp t u v tn c) (B : Balanced c tn u v) :
    ((usable tn u.data (v.map Series.data)).map fun s => s.2 - level c s.1).sum = 0 ∧
    (c.opt.notrend = false →
      ((usable tn u.data (v.map Series.data)).map fun s => (s.1 : ℂ) * (s.2 - level c s.1)).sum = 0) := by
  have hus : samples tn (sampleValues u.data (v.map Series.data)) = usable tn u.data (v.map Series.data) := by
    obtain ⟨p, constit, m, W, rf, full, o, ind, F, -⟩ := run_facts H.ready H.keys H.ols H.returned sp
      H.infer H.exact tn H.time
    exact (usable_samples _ _ _ (F.samples H.ready).1).symm
  obtain ⟨P, M, mean, slope, hT, hs, -, -, hlev, -, hb⟩ := H.best
  obtain ⟨L, hL⟩ : ∃ L, L = usable tn u.data (v.map Series.data) := ⟨_, rfl⟩
  have hLt : sampleTimes tn u v = L.map Prod.fst := by rw [hL]; rfl
  rw [← hL]
  have hsplit : ∀ τ, rotaryCurve c P M mean slope τ = rotaryCurve c P M 0 0 τ + level c τ := by
    intro τ
    rw [hlev]
    unfold rotaryCurve
    ring
  have hadd : ∀ (a b : ℂ) (τ : ℝ), rotaryCurve c P M (mean + a) (slope + b) τ =
      rotaryCurve c P M mean slope τ + (a + b * ((τ - c.reftime : ℝ) : ℂ)) := by
    intro a b τ
    unfold rotaryCurve
    ring
  have best : ∀ a b : ℂ, (c.opt.notrend = true → b = 0) →
      (L.map fun s => ‖s.2 - rotaryCurve c P M mean slope s.1‖ ^ 2).sum ≤
      (L.map fun s => ‖s.2 - (rotaryCurve c P M mean slope s.1 + (a + b * ((s.1 - c.reftime : ℝ) : ℂ)))‖ ^ 2).sum := by
    intro a b hbt
    have := hb P M (mean + a) (slope + b) hT fun h => by rw [hs h, hbt h, add_zero]
    unfold away at this
    rw [hus, ← hL] at this
    simp only [hadd] at this
    exact this
  have tideperp : ∀ D : ℝ → ℂ, (∀ n ∈ c.name, Perp (L.map Prod.fst) D (harmonic c n)) →
      (∀ n ∈ c.name, Perp (L.map Prod.fst) D fun τ => conj (harmonic c n τ)) →
      ((L.map Prod.fst).map fun τ => conj (D τ) * rotaryCurve c P M 0 0 τ).sum = 0 := by
    intro D h1 h2
    unfold rotaryCurve
    simp only [add_zero, zero_mul]
    generalize c.name = l at h1 h2
    induction l with
    | nil =>
      simp only [List.map_nil, List.sum_nil, mul_zero, List.map_const', List.sum_replicate, smul_zero]
    | cons n l ih =>
      simp only [List.map_cons, List.sum_cons, mul_add]
      rw [list_sum_add, ih (fun k hk => h1 k (by simp [hk])) (fun k hk => h2 k (by simp [hk])), add_zero, list_sum_add]
      have a1 := h1 n (by simp)
      have a2 := h2 n (by simp)
      unfold Perp at a1 a2
      have e1 : (fun τ => conj (D τ) * (harmonic c n τ * P n)) = fun τ => P n * (conj (D τ) * harmonic c n τ) := by
        funext τ; ring
      have e2 : (fun τ => conj (D τ) * (conj (harmonic c n τ) * M n)) = fun τ => M n * (conj (D τ) * conj (harmonic c n τ)) := by
        funext τ; ring
      rw [e1, e2, list_sum_mul, list_sum_mul, a1, a2]
      simp
  have finish : ∀ D : ℝ → ℂ, (∀ n ∈ c.name, Perp (L.map Prod.fst) D (harmonic c n)) →
      (∀ n ∈ c.name, Perp (L.map Prod.fst) D fun τ => conj (harmonic c n τ)) →
      (L.map fun s => conj (D s.1) * (s.2 - rotaryCurve c P M mean slope s.1)).sum = 0 →
      (L.map fun s => conj (D s.1) * (s.2 - level c s.1)).sum = 0 := by
    intro D h1 h2 h3
    have h4 := tideperp D h1 h2
    rw [List.map_map] at h4
    have e : (fun s : ℝ × ℂ => conj (D s.1) * (s.2 - level c s.1)) = fun s =>
        conj (D s.1) * (s.2 - rotaryCurve c P M mean slope s.1) + conj (D s.1) * rotaryCurve c P M 0 0 s.1 := by
      funext s
      rw [hsplit]
      ring
    rw [e, list_sum_add, h3, zero_add]
    exact h4
  have b1 := B.constant
  rw [hLt] at b1
  have p1 : ∀ n ∈ c.name, Perp (L.map Prod.fst) (fun _ => 1) (harmonic c n) := by
    intro n hn
    unfold Perp
    simpa using b1 n hn
  have p1' : ∀ n ∈ c.name, Perp (L.map Prod.fst) (fun _ => 1) fun τ => conj (harmonic c n τ) := by
    intro n hn
    have := list_sum_conj_mul (p1 n hn)
    simpa using this
  have r1 : (L.map fun s => conj ((fun _ : ℝ => (1 : ℂ)) s.1) * (s.2 - rotaryCurve c P M mean slope s.1)).sum = 0 := by
    refine perp_of_best' L _ (fun _ => 1) fun ε => ?_
    have := best ε 0 (fun _ => rfl)
    simpa using this
  have q1 := finish (fun _ => 1) p1 p1' r1
  simp only [map_one, one_mul] at q1
  refine ⟨q1, fun htr => ?_⟩
  have b2 := B.trend htr
  rw [hLt] at b2
  have hre : ∀ τ : ℝ, conj (((τ - c.reftime : ℝ) : ℂ)) = (τ : ℂ) - (c.reftime : ℂ) := by
    intro τ
    rw [Complex.conj_ofReal]
    push_cast
    rfl
  have p2 : ∀ n ∈ c.name, Perp (L.map Prod.fst) (fun τ => ((τ - c.reftime : ℝ) : ℂ)) (harmonic c n) := by
    intro n hn
    unfold Perp
    simp only [hre, sub_mul]
    rw [list_sum_sub, b2 n hn, list_sum_mul, b1 n hn]
    simp
  have p2' : ∀ n ∈ c.name, Perp (L.map Prod.fst) (fun τ => ((τ - c.reftime : ℝ) : ℂ)) fun τ => conj (harmonic c n τ) := by
    intro n hn
    have := list_sum_conj_mul (p2 n hn)
    simpa only [Complex.conj_ofReal] using this
  have r2 := perp_of_best' L (rotaryCurve c P M mean slope) (fun τ => ((τ - c.reftime : ℝ) : ℂ)) fun ε => by
    have := best 0 ε (fun h => by rw [htr] at h; cases h)
    simpa only [zero_add] using this
  have q2 := finish (fun τ => ((τ - c.reftime : ℝ) : ℂ)) p2 p2' r2
  simp only [hre, sub_mul] at q2
  rw [list_sum_sub, list_sum_mul, q1, mul_zero, sub_zero] at q2
  exact q2

/-- **C160**: with `trend=False` the mean is the average of the data. -/
theorem C160_mean (H : OlsRun E lat opts sp t u v tn c) (B : Balanced c tn u v) (hno : c.opt.notrend = true) (τ : ℝ)
    (hpos : usable tn u.data (v.map Series.data) ≠ []) :
    level c τ = ((usable tn u.data (v.map Series.data)).map Prod.snd).sum /
      ((usable tn u.data (v.map Series.data)).length : ℂ) := by
  obtain ⟨h1, -⟩ := C160_normal H B
  obtain ⟨P, M, mean, slope, hT, hs, -, -, hlev, -, hb⟩ := H.best
  have hc : ∀ τ', level c τ' = level c τ := by
    intro τ'
    rw [hlev, hlev, hs hno, zero_mul, zero_mul]
  simp only [hc] at h1
  rw [list_sum_sub, sub_eq_zero] at h1
  have hl : ((usable tn u.data (v.map Series.data)).length : ℂ) ≠ 0 := by
    exact_mod_cast (List.length_pos_iff.2 hpos).ne'
  rw [eq_div_iff hl]
  rw [show (usable tn u.data (v.map Series.data)).map Prod.snd = (usable tn u.data (v.map Series.data)).map fun s => s.2 from rfl, h1]
  simp [mul_comm]

/-- **C160**: no straight line (no constant, with `trend=False`) is nearer to the data than mean and trend. -/
theorem C160_line (H : OlsRun E lat opts sp t u v tn c) (B : Balanced c tn u v) (a b : ℂ) (hb : c.opt.notrend = true → b = 0) :
    ((usable tn u.data (v.map Series.data)).map fun s => ‖s.2 - level c s.1‖ ^ 2).sum ≤
      ((usable tn u.data (v.map Series.data)).map fun s => ‖s.2 - (a + b * (s.1 : ℂ))‖ ^ 2).sum := by
  obtain ⟨h1, h2⟩ := C160_normal H B
  obtain ⟨P, M, mean, slope, hT, hs, -, -, hlev, -, -⟩ := H.best
  obtain ⟨α, β, hd, hβ⟩ : ∃ α β : ℂ, (∀ τ : ℝ, level c τ - (a + b * (τ : ℂ)) = α + β * (τ : ℂ)) ∧
      (c.opt.notrend = true → β = 0) := by
    refine ⟨mean - slope * (c.reftime : ℂ) - a, slope - b, fun τ => ?_, fun h => by rw [hs h, hb h, sub_zero]⟩
    rw [hlev]
    push_cast
    ring
  have cross : ((usable tn u.data (v.map Series.data)).map fun s =>
      conj (α + β * (s.1 : ℂ)) * (s.2 - level c s.1)).sum = 0 := by
    have e : (fun s : ℝ × ℂ => conj (α + β * (s.1 : ℂ)) * (s.2 - level c s.1)) = fun s =>
        conj α * (s.2 - level c s.1) + conj β * ((s.1 : ℂ) * (s.2 - level c s.1)) := by
      funext s
      rw [map_add, map_mul, Complex.conj_ofReal]
      ring
    rw [e, list_sum_add, list_sum_mul, list_sum_mul, h1]
    by_cases hno : c.opt.notrend = true
    · rw [hβ hno]
      simp
    · rw [h2 (by simpa using hno)]
      simp
  have key : ∀ L : List (ℝ × ℂ), (L.map fun s => ‖s.2 - (a + b * (s.1 : ℂ))‖ ^ 2).sum =
      (L.map fun s => ‖s.2 - level c s.1‖ ^ 2).sum +
        2 * ((L.map fun s => conj (α + β * (s.1 : ℂ)) * (s.2 - level c s.1)).sum).re +
        (L.map fun s => ‖α + β * (s.1 : ℂ)‖ ^ 2).sum := by
    intro L
    induction L with
    | nil => simp
    | cons s L ih =>
      simp only [List.map_cons, List.sum_cons, ih, Complex.add_re]
      have e : ‖s.2 - (a + b * (s.1 : ℂ))‖ ^ 2 = ‖s.2 - level c s.1‖ ^ 2 +
          2 * (conj (α + β * (s.1 : ℂ)) * (s.2 - level c s.1)).re + ‖α + β * (s.1 : ℂ)‖ ^ 2 := by
        rw [show s.2 - (a + b * (s.1 : ℂ)) = (s.2 - level c s.1) + (α + β * (s.1 : ℂ)) by rw [← hd]; ring]
        generalize s.2 - level c s.1 = x
        generalize α + β * (s.1 : ℂ) = y
        simp only [← Complex.normSq_eq_norm_sq, Complex.normSq_apply, Complex.mul_re, Complex.conj_re, Complex.conj_im,
          Complex.add_re, Complex.add_im]
        ring
      rw [e]
      ring
  rw [key, cross, Complex.zero_re, mul_zero, add_zero]
  refine le_add_of_nonneg_right (List.sum_nonneg fun y hy => ?_)
  obtain ⟨s, -, rfl⟩ := List.mem_map.1 hy
  positivity

end

/-! ## Example -/

/-- Non-vacuity: eight values over half a day, analysed for S2 and S4 without a trend: the mean is their average. -/
example (ys : Fin 8 → ℝ) : ∃ c : Coef,
    solve idealEnv octT (octSeries ys) none (some 45) (listCiOpts ["S2", "S4"]) = .ok c ∧
    level c 0 = (((ys 0 + ys 1 + ys 2 + ys 3 + ys 4 + ys 5 + ys 6 + ys 7) / 8 : ℝ) : ℂ) := by
  obtain ⟨c, H, hn, hA⟩ := octS_white ys
  have R := octS_ready ys
  have hc := H.returned
  have hO : OlsRun idealEnv (some 45) (listCiOpts ["S2", "S4"]) none octT (octSeries ys) none octTn c :=
    ⟨R, H.keys, H.ols, hc, H.kept, H.infer, by simp, H.time, hn.nodup_iff.2 (by simp)⟩
  obtain ⟨q, hq, hcq⟩ := solve_opt _ _ _ _ _ _ _ hc
  have hno : c.opt.notrend = true := by
    rw [listCi_opt] at hq
    cases hq
    rw [hcq]
    rfl
  refine ⟨c, hc, ?_⟩
  rw [C160_mean hO ⟨fun n h => (hA n h).others.constant, fun h n hm => (hA n hm).others.trend h⟩ hno 0
    (by simp [usable, octSeries, octTn, goodSamples, Fl.toReal?, Cell.value?, List.ofFn_succ])]
  simp [usable, octSeries, octTn, goodSamples, Fl.toReal?, Cell.value?, List.ofFn_succ]
  ring

end

end UTide.Props
