import Verif.Props.PeriodProps

/-!
# C159: springs and neaps
-/

namespace UTide.Props

noncomputable section

open Classical

local notation "conj" => starRingEnd ℂ

/-- Specification: predicted together for the time `τ`, wherever in an array of times, the constituents `n` and `n'`
contribute the height `x` besides mean and trend. -/
def TwoTides (c : Coef) (n n' : String) (τ x : ℝ) : Prop :=
  ∀ (E : Env) (t : TimeArr) (a : RecArgs) (tn : List Fl) (j : ℕ), normalizeTime E.dt64 t a.epoch = .ok tn →
    tn[j]? = some (.fin τ) → Predicts E t c a [n, n'] j (level c τ + (x : ℂ))

theorem re_cyc (x : ℝ) : (cyc x).re = Real.cos (2 * Real.pi * x) := by
  unfold cyc
  rw [mul_comm, Complex.exp_ofReal_mul_I_re]

theorem cyc_of_norm {z : ℂ} (h : ‖z‖ = 1) : ∃ y, z = cyc y := by
  refine ⟨Complex.arg z / (2 * Real.pi), ?_⟩
  conv_lhs => rw [← Complex.norm_mul_exp_arg_mul_I z, h]
  unfold cyc
  have := Real.pi_pos.ne'
  rw [Complex.ofReal_one, one_mul, mul_comm Complex.I]
  congr 3
  field_simp

section

variable {E : Env} {t : TimeArg} {u : Series} {v : Option Series} {lat : Option ℝ} {opts : Dict PyVal} {c : Coef}

/-- The contribution of two constituents. -/
theorem part_two (hnn : c.name.Nodup) (i i' : ℕ) (n n' : String) (hn : c.name[i]? = some n) (hn' : c.name[i']? = some n')
    (hne : n ≠ n') (τ : ℝ) : partOf c [n, n'] τ = tide c τ i + tide c τ i' := by
  have hi := (List.getElem?_eq_some_iff.1 hn).1
  have hi' := (List.getElem?_eq_some_iff.1 hn').1
  have idx : ∀ (k i : ℕ) (n : String), k < c.name.length → c.name[i]? = some n → (c.name.getD k "" = n ↔ k = i) := by
    intro k i n hk hn
    constructor
    · intro h
      refine (List.getElem?_inj hk hnn).1 ?_
      rw [hn, List.getElem?_eq_getElem hk]
      rw [List.getD_eq_getElem _ _ hk] at h
      rw [h]
    · rintro rfl
      rw [List.getD_eq_getElem?_getD, hn]
      rfl
  unfold partOf
  rw [← List.sum_toFinset _ List.nodup_range, List.toFinset_range]
  have e : ∀ k ∈ Finset.range c.name.length, (if c.name.getD k "" ∈ [n, n'] then tide c τ k else 0) =
      (if k = i then tide c τ k else 0) + (if k = i' then tide c τ k else 0) := by
    intro k hk
    have hk := Finset.mem_range.1 hk
    have h1 := idx k i n hk hn
    have h2 := idx k i' n' hk hn'
    have hii : i ≠ i' := by
      rintro rfl
      rw [hn] at hn'
      exact hne (Option.some.inj hn')
    simp only [List.mem_cons, List.not_mem_nil, or_false, h1, h2]
    by_cases a : k = i
    · subst a
      simp [hii]
    · simp [a]
  rw [Finset.sum_congr rfl e, Finset.sum_add_distrib, Finset.sum_ite_eq', Finset.sum_ite_eq', if_pos (Finset.mem_range.2 hi),
    if_pos (Finset.mem_range.2 hi')]

/-- The contribution of one constituent to an elevation. -/
theorem elevation_tide (hnd : opts.keys.Nodup) (h : solve E t u none lat opts = .ok c) (i : ℕ) (n : String) (e : Ell)
    (hn : c.name[i]? = some n) (he : ellipseAt c.ell i = some e) (τ : ℝ) :
    tide c τ i = ((e.Lsmaj * (harmonic c n τ * cisd (-e.g)).re : ℝ) : ℂ) := by
  have hz : e.theta = 0 ∧ e.Lsmin = 0 := by
    have hsh := (C09_ranges E t u none _ _ hnd c h).2
    cases hell : c.ell with
    | one A g =>
      rw [hell] at he
      simp only [ellipseAt, Option.bind_eq_some_iff, Option.map_eq_some_iff] at he
      obtain ⟨a, ha, b, hb, rfl⟩ := he
      exact ⟨rfl, rfl⟩
    | two M m th g => rw [hell] at hsh; simp [Shaped] at hsh
  rw [tide_rotary h τ i n e hn he]
  unfold ccw cw
  rw [hz.1, hz.2]
  have hc : cisd (0 + e.g) = conj (cisd (-e.g)) := by rw [conj_cisd, zero_add, neg_neg]
  rw [hc, zero_sub]
  generalize harmonic c n τ = H
  generalize cisd (-e.g) = G
  apply Complex.ext <;> simp <;> ring

/-- **C159.** Two constituents of different frequencies of an elevation, predicted together, with harmonics of constant
amplitude and without nodal corrections. In every beat period there is a time of springs `σ` such that at all times the
height stays within the envelope `√(A² + A'² + 2AA' cos 2π(f - f')(τ - σ))`, which is `A + A'` at springs and `|A - A'|` at
neaps half a beat later; and within a period of the first constituent after springs the height is `A + A' cos 2π(f - f')(τ - σ)`. -/
theorem C159_envelope (R : Ready E t u none) (hnd : opts.keys.Nodup) (h : solve E t u none lat opts = .ok c)
    (hk : AllKept c) (hst : Steady opts) (hoff : (requested opts "nodal").bind nodalMode = some .off) (hnn : c.name.Nodup)
    (i i' : ℕ) (n n' : String) (f f' : ℝ) (e e' : Ell) (hn : c.name[i]? = some n) (hn' : c.name[i']? = some n')
    (hf : c.frq[i]? = some f) (hf' : c.frq[i']? = some f') (hpos : 0 < f) (hff : f ≠ f')
    (he : ellipseAt c.ell i = some e) (he' : ellipseAt c.ell i' = some e') (τ₀ : ℝ) :
    ∃ σ, τ₀ ≤ σ ∧ σ < τ₀ + 1 / (24 * |f - f'|) ∧
      (∀ τ, ∃ x, TwoTides c n n' τ x ∧ x ^ 2 ≤ e.Lsmaj ^ 2 + e'.Lsmaj ^ 2 +
        2 * e.Lsmaj * e'.Lsmaj * Real.cos (2 * Real.pi * (24 * (f - f') * (τ - σ)))) ∧
      ∃ τ, σ ≤ τ ∧ τ < σ + 1 / (24 * f) ∧
        TwoTides c n n' τ (e.Lsmaj + e'.Lsmaj * Real.cos (2 * Real.pi * (24 * (f - f') * (τ - σ)))) := by
  have hne : n ≠ n' := by
    rintro rfl
    have hi := (List.getElem?_eq_some_iff.1 hn).1
    have := (List.getElem?_inj hi hnn).1 (hn.trans hn'.symm)
    subst this
    rw [hf] at hf'
    exact hff (Option.some.inj hf')
  obtain ⟨W, hW⟩ : ∃ W : ℝ → ℂ, W = fun τ => harmonic c n τ * cisd (-e.g) := ⟨_, rfl⟩
  obtain ⟨W', hW'⟩ : ∃ W' : ℝ → ℂ, W' = fun τ => harmonic c n' τ * cisd (-e'.g) := ⟨_, rfl⟩
  have two : ∀ τ, TwoTides c n n' τ (e.Lsmaj * (W τ).re + e'.Lsmaj * (W' τ).re) := by
    intro τ E' t' a tn j htn hj
    rw [predicts_iff R hnd h hk]
    refine ⟨tn, τ, htn, hj, ?_⟩
    rw [part_two hnn i i' n n' hn hn' hne, elevation_tide hnd h i n e hn he, elevation_tide hnd h i' n' e' hn' he', hW, hW']
    push_cast
    rfl
  have step : ∀ τ d, W (τ + d) = W τ * cyc (24 * f * d) := by
    intro τ d
    have h1 := steady_turn R hnd h hst d τ i n f hn hf 1
    rw [Nat.cast_one, one_mul, pow_one, mul_right_comm] at h1
    rw [hW]
    show harmonic c n (τ + d) * _ = harmonic c n τ * _ * _
    rw [h1]
    ring
  have step' : ∀ τ d, W' (τ + d) = W' τ * cyc (24 * f' * d) := by
    intro τ d
    have h1 := steady_turn R hnd h hst d τ i' n' f' hn' hf' 1
    rw [Nat.cast_one, one_mul, pow_one, mul_right_comm] at h1
    rw [hW']
    show harmonic c n' (τ + d) * _ = harmonic c n' τ * _ * _
    rw [h1]
    ring
  have unit : ∀ τ, ‖W τ‖ = 1 := by
    intro τ
    rw [hW]
    show ‖harmonic c n τ * _‖ = 1
    rw [norm_mul, norm_cisd, norm_harmonic_off hnd h R hoff n (List.mem_of_getElem? hn), one_mul]
  have unit' : ∀ τ, ‖W' τ‖ = 1 := by
    intro τ
    rw [hW']
    show ‖harmonic c n' τ * _‖ = 1
    rw [norm_mul, norm_cisd, norm_harmonic_off hnd h R hoff n' (List.mem_of_getElem? hn'), one_mul]
  have hδ : 0 < |f - f'| := abs_pos.2 (sub_ne_zero.2 hff)
  obtain ⟨s, hs, hsδ⟩ : ∃ s : ℤ, (s = 1 ∨ s = -1) ∧ f - f' = s * |f - f'| := by
    rcases le_total 0 (f - f') with h | h
    · exact ⟨1, .inl rfl, by rw [abs_of_nonneg h]; simp⟩
    · exact ⟨-1, .inr rfl, by rw [abs_of_nonpos h]; simp⟩
  have hss : (s : ℝ) * s = 1 := by rcases hs with rfl | rfl <;> norm_num
  obtain ⟨y, hy⟩ := cyc_of_norm (z := W τ₀ * conj (W' τ₀)) (by rw [norm_mul, RCLike.norm_conj, unit, unit', one_mul])
  have beat : ∀ τ d, W (τ + d) * conj (W' (τ + d)) = W τ * conj (W' τ) * cyc (24 * (f - f') * d) := by
    intro τ d
    rw [step, step', map_mul, conj_cyc, show 24 * (f - f') * d = 24 * f * d + -(24 * f' * d) by ring, cyc_add]
    ring
  obtain ⟨w, hw⟩ : ∃ w, w = Int.fract (-(s * y)) := ⟨_, rfl⟩
  have hw0 : 0 ≤ w := hw ▸ Int.fract_nonneg _
  have hw1 : w < 1 := hw ▸ Int.fract_lt_one _
  obtain ⟨σ, hσ⟩ : ∃ σ, σ = τ₀ + w / (24 * |f - f'|) := ⟨_, rfl⟩
  have spring : W σ * conj (W' σ) = 1 := by
    rw [hσ, beat, hy, ← cyc_add]
    have : y + 24 * (f - f') * (w / (24 * |f - f'|)) = ((-(s * ⌊-(s * y)⌋) : ℤ) : ℝ) := by
      rw [show 24 * (f - f') * (w / (24 * |f - f'|)) = s * w by rw [hsδ, abs_mul, abs_abs]; rcases hs with rfl | rfl <;> simp <;> field_simp,
        hw, Int.fract]
      push_cast
      linear_combination (-y) * hss
    rw [this, cyc_int]
  have phase : ∀ τ, W τ * conj (W' τ) = cyc (24 * (f - f') * (τ - σ)) := by
    intro τ
    have := beat σ (τ - σ)
    rwa [spring, one_mul, add_sub_cancel] at this
  refine ⟨σ, ?_, ?_, fun τ => ⟨_, two τ, ?_⟩, ?_⟩
  · have := div_nonneg hw0 (by positivity : 0 ≤ 24 * |f - f'|)
    linarith
  · have := div_lt_div_of_pos_right hw1 (by positivity : 0 < 24 * |f - f'|)
    linarith
  · have hp := congrArg Complex.re (phase τ)
    rw [re_cyc] at hp
    rw [← hp]
    have u1 := unit τ
    have u2 := unit' τ
    have u1 : (W τ).re ^ 2 + (W τ).im ^ 2 = 1 := by
      have := Complex.normSq_eq_norm_sq (W τ)
      rw [u1, Complex.normSq_apply] at this
      linarith
    have u2 : (W' τ).re ^ 2 + (W' τ).im ^ 2 = 1 := by
      have := Complex.normSq_eq_norm_sq (W' τ)
      rw [u2, Complex.normSq_apply] at this
      linarith
    simp only [Complex.mul_re, Complex.conj_re, Complex.conj_im]
    have := sq_nonneg (e.Lsmaj * (W τ).im + e'.Lsmaj * (W' τ).im)
    linear_combination this + e.Lsmaj ^ 2 * u1 + e'.Lsmaj ^ 2 * u2
  · obtain ⟨z, hz⟩ := cyc_of_norm (unit σ)
    obtain ⟨r, hr⟩ : ∃ r, r = Int.fract (-z) := ⟨_, rfl⟩
    have hr0 : 0 ≤ r := hr ▸ Int.fract_nonneg _
    have hr1 : r < 1 := hr ▸ Int.fract_lt_one _
    have top : W (σ + r / (24 * f)) = 1 := by
      rw [step, hz, ← cyc_add]
      have : z + 24 * f * (r / (24 * f)) = ((-⌊-z⌋ : ℤ) : ℝ) := by
        rw [show 24 * f * (r / (24 * f)) = r by field_simp, hr, Int.fract]
        push_cast
        ring
      rw [this, cyc_int]
    refine ⟨σ + r / (24 * f), ?_, ?_, ?_⟩
    · have := div_nonneg hr0 (by positivity : 0 ≤ 24 * f)
      linarith
    · have := div_lt_div_of_pos_right hr1 (by positivity : 0 < 24 * f)
      linarith
    · have h1 := two (σ + r / (24 * f))
      have hp := phase (σ + r / (24 * f))
      rw [top, one_mul] at hp
      have hp := congrArg Complex.re hp
      rw [re_cyc, Complex.conj_re] at hp
      rw [top, hp, Complex.one_re, mul_one] at h1
      exact h1

/-- **C159** at springs and neaps: the height stays within the sum of the amplitudes at all times, and at neaps, half a
beat after springs, within their difference. -/
theorem C159_neaps (R : Ready E t u none) (hnd : opts.keys.Nodup) (h : solve E t u none lat opts = .ok c)
    (hk : AllKept c) (hst : Steady opts) (hoff : (requested opts "nodal").bind nodalMode = some .off) (hnn : c.name.Nodup)
    (i i' : ℕ) (n n' : String) (f f' : ℝ) (e e' : Ell) (hn : c.name[i]? = some n) (hn' : c.name[i']? = some n')
    (hf : c.frq[i]? = some f) (hf' : c.frq[i']? = some f') (hpos : 0 < f) (hff : f ≠ f')
    (he : ellipseAt c.ell i = some e) (he' : ellipseAt c.ell i' = some e') (τ₀ : ℝ) :
    ∃ σ, τ₀ ≤ σ ∧ σ < τ₀ + 1 / (24 * |f - f'|) ∧
      ∃ x, TwoTides c n n' (σ + 1 / 2 / (24 * |f - f'|)) x ∧ |x| ≤ |e.Lsmaj - e'.Lsmaj| := by
  obtain ⟨σ, h1, h2, h3, -⟩ := C159_envelope R hnd h hk hst hoff hnn i i' n n' f f' e e' hn hn' hf hf' hpos hff he he' τ₀
  obtain ⟨x, hx, hle⟩ := h3 (σ + 1 / 2 / (24 * |f - f'|))
  refine ⟨σ, h1, h2, x, hx, ?_⟩
  have hδ : 0 < |f - f'| := abs_pos.2 (sub_ne_zero.2 hff)
  have hcos : Real.cos (2 * Real.pi * (24 * (f - f') * (σ + 1 / 2 / (24 * |f - f'|) - σ))) = -1 := by
    rcases le_total 0 (f - f') with h | h
    · rw [abs_of_nonneg h] at hδ ⊢
      rw [show 2 * Real.pi * (24 * (f - f') * (σ + 1 / 2 / (24 * (f - f')) - σ)) = Real.pi by field_simp; ring, Real.cos_pi]
    · rw [abs_of_nonpos h] at hδ ⊢
      have : f - f' ≠ 0 := by linarith
      rw [show 2 * Real.pi * (24 * (f - f') * (σ + 1 / 2 / (24 * -(f - f')) - σ)) = -Real.pi by field_simp; ring,
        Real.cos_neg, Real.cos_pi]
  rw [hcos] at hle
  exact sq_le_sq.1 (by linarith [sub_sq e.Lsmaj e'.Lsmaj])

end

/-! ## Example -/

/-- Non-vacuity: a spike in eight samples over half a day, analysed for S2 and S4: there are times of neaps at which the two
stay within the difference of their amplitudes. -/
example : ∃ (c : Coef) (A A' : ℝ), solve idealEnv octT (octSeries spike) none (some 45) (listCiOpts ["S2", "S4"]) = .ok c ∧
    ∀ τ₀, ∃ τ x, τ₀ ≤ τ ∧ TwoTides c "S2" "S4" τ x ∧ |x| ≤ |A - A'| := by
  obtain ⟨c, i, l, p, H, hn, hi, hl, hlp, hnz, hr⟩ := spike_run
  have R := octS_ready spike
  have hc := H.returned
  obtain ⟨h1, h2, h3⟩ := S2S4_nyquist (S2S4_frq hc hn)
  obtain ⟨hlen, hlf⟩ := ell_len R hc
  have hnn : c.name.Nodup := hn.nodup_iff.2 (by simp)
  have hm : "S4" ∈ c.name := hn.mem_iff.2 (by simp)
  obtain ⟨i', hi'⟩ := List.getElem?_of_mem hm
  have hlt := (List.getElem?_eq_some_iff.1 hi).1
  have hlt' := (List.getElem?_eq_some_iff.1 hi').1
  obtain ⟨e, he, -⟩ := ellipse_energy c.ell _ i hlen hlt
  obtain ⟨e', he', -⟩ := ellipse_energy c.ell _ i' hlen hlt'
  have hf : c.frq[i]? = some (c.frq.getD i 0) := by simp [List.getD_eq_getElem?_getD, hlf, hlt]
  have hf' : c.frq[i']? = some (c.frq.getD i' 0) := by simp [List.getD_eq_getElem?_getD, hlf, hlt']
  have hff : c.frq.getD i 0 ≠ c.frq.getD i' 0 := by
    intro h
    have hlt2 : i < c.frq.length := (List.getElem?_eq_some_iff.1 hf).1
    have hii : i = i' := (List.getElem?_inj hlt2 h1).1 ((hf.trans (congrArg some h)).trans hf'.symm)
    rw [← hii, hi] at hi'
    exact absurd (Option.some.inj hi') (by decide)
  refine ⟨c, e.Lsmaj, e'.Lsmaj, hc, fun τ₀ => ?_⟩
  obtain ⟨σ, a1, -, x, a2, a3⟩ := C159_neaps R H.keys hc H.kept ⟨.inl rfl, .inl rfl⟩ rfl hnn i i' "S2" "S4" _ _ e e' hi hi' hf hf'
    (h2 _ (List.mem_of_getElem? hf)) hff he he' τ₀
  exact ⟨_, x, a1.trans (le_add_of_nonneg_right (by positivity)), a2, a3⟩

end

end UTide.Props
