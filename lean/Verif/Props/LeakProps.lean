import Verif.Props.AverageProps
import Verif.Props.AliasProps

/-!
# C158: what a tide outside the model leaks into a constituent
-/

namespace UTide.Props

noncomputable section

open Classical

local notation "conj" => starRingEnd ℂ

/-- Specification: the usable samples are those of a steady rotation with `y` cycles from one sample to the next, `p`
counter-clockwise and `q` clockwise, at `m` regular times. For an elevation of amplitude `B` both have modulus `B/2`. -/
def ForeignTide (tn : List Fl) (u : Series) (v : Option Series) (t₀ Δ y : ℝ) (p q : ℂ) (m : ℕ) : Prop :=
  usable tn u.data (v.map Series.data) =
    (List.range m).map fun j : ℕ => (t₀ + (j : ℝ) * Δ, p * cyc (j * y) + q * cyc (-(j * y)))

theorem cyc_sum_bound (y : ℝ) (hy : Real.sin (Real.pi * y) ≠ 0) (m : ℕ) :
    ‖∑ j ∈ Finset.range m, cyc y ^ j‖ ≤ 1 / |Real.sin (Real.pi * y)| := by
  have hne : cyc y ≠ 1 := by
    intro h1
    have := cyc_sub_one y
    rw [h1, sub_self, norm_zero] at this
    have := abs_pos.2 hy
    linarith
  refine (powers_bound (norm_cyc y) hne m).trans (le_of_eq ?_)
  rw [cyc_sub_one]
  have := (abs_pos.2 hy).ne'
  field_simp

/-- **C158.** A record that is nothing but a tide of another frequency, analysed by ordinary least squares without
inference: in a constituent whose harmonic averages out against the rest of the model it shows up with at most its own
amplitude, divided by the number of samples, times `1/|sin π(y - x)| + 1/|sin π(y + x)|`, where `x` and `y` are the cycles of
the constituent and of the foreign tide from one sample to the next. -/
theorem C158_leak {E : Env} {lat : Option ℝ} {opts : Dict PyVal} {t : TimeArg} {u : Series}
    {v : Option Series} {tn : List Fl} {c : Coef} (H : OlsRun E lat opts none t u v tn c) (hst : Steady opts)
    {i : ℕ} {n : String} {f N : ℝ} (hi : c.name[i]? = some n) (hf : c.frq[i]? = some f) (A : AveragesOut c tn u v n N)
    (t₀ Δ y : ℝ) (p q : ℂ) (m : ℕ) (hu : ForeignTide tn u v t₀ Δ y p q m)
    (h1 : Real.sin (Real.pi * (y - 24 * Δ * f)) ≠ 0) (h2 : Real.sin (Real.pi * (y + 24 * Δ * f)) ≠ 0) :
    ∃ e, ellipseAt c.ell i = some e ∧ e.Lsmaj * ‖harmonic c n t₀‖ ≤ (‖p‖ + ‖q‖) / m *
      (1 / |Real.sin (Real.pi * (y - 24 * Δ * f))| + 1 / |Real.sin (Real.pi * (y + 24 * Δ * f))|) := by
  obtain ⟨e, he, hp, hm⟩ := C127_average H hi A
  refine ⟨e, he, ?_⟩
  obtain ⟨hmin, -⟩ := amplitude_ell (C09_ranges E t u v lat opts H.keys c H.returned).1 he c rfl
  obtain ⟨x, hx⟩ : ∃ x, x = 24 * Δ * f := ⟨_, rfl⟩
  obtain ⟨z, hz⟩ : ∃ z, z = harmonic c n t₀ := ⟨_, rfl⟩
  rw [← hx] at h1 h2 ⊢
  rw [← hz]
  have hturn : ∀ j : ℕ, harmonic c n (t₀ + (j : ℝ) * Δ) = z * cyc x ^ j := by
    intro j
    rw [steady_turn H.ready H.keys H.returned hst Δ t₀ i n f hi hf j, ← hx, ← hz]
  have hN : N = m * ‖z‖ ^ 2 := by
    have := A.size
    unfold sampleTimes at this
    rw [hu, List.map_map, List.map_map] at this
    rw [← this]
    have : (((fun τ => ‖harmonic c n τ‖ ^ 2) ∘ Prod.fst) ∘ fun j : ℕ => (t₀ + (j : ℝ) * Δ, p * cyc (j * y) + q * cyc (-(j * y)))) =
        fun _ => ‖z‖ ^ 2 := by
      funext j
      show ‖harmonic c n (t₀ + (j : ℝ) * Δ)‖ ^ 2 = _
      rw [hturn, norm_mul, norm_pow, norm_cyc, one_pow, mul_one]
    rw [this]
    simp
  have hN0 := A.pos
  have hm0 : (0 : ℝ) < m := by
    rcases (Nat.cast_nonneg (α := ℝ) m).lt_or_eq with h | h
    · exact h
    · rw [hN, ← h, zero_mul] at hN0
      exact absurd hN0 (lt_irrefl _)
  have hz0 : 0 < ‖z‖ := by
    rcases (norm_nonneg z).lt_or_eq with h | h
    · exact h
    · rw [hN, ← h] at hN0
      norm_num at hN0
  have cj : ∀ (y : ℝ) (j : ℕ), cyc (j * y) = cyc y ^ j := fun y j => (cyc_pow y j).symm
  have cn : ∀ (y : ℝ) (j : ℕ), cyc (-(j * y)) = cyc (-y) ^ j := fun y j => by rw [cyc_pow, mul_neg]
  have hsum : ∀ g : ℕ → ℂ, ((List.range m).map g).sum = ∑ j ∈ Finset.range m, g j := by
    intro g
    rw [← List.sum_toFinset _ List.nodup_range, List.toFinset_range]
  have s1 : Real.sin (Real.pi * (y + -x)) ≠ 0 := by rwa [← sub_eq_add_neg]
  have neg : ∀ w, |Real.sin (Real.pi * -w)| = |Real.sin (Real.pi * w)| := fun w => by
    rw [mul_neg, Real.sin_neg, abs_neg]
  have bd : ∀ w w', |Real.sin (Real.pi * w)| = |Real.sin (Real.pi * w')| → Real.sin (Real.pi * w') ≠ 0 →
      ‖∑ j ∈ Finset.range m, cyc w ^ j‖ ≤ 1 / |Real.sin (Real.pi * w')| := by
    intro w w' hw h
    rw [← hw]
    exact cyc_sum_bound w (by rw [← abs_ne_zero, hw]; exact abs_ne_zero.2 h) m
  have b1 := bd (-x + y) (y - x) (by rw [show -x + y = y - x by ring]) h1
  have b2 := bd (-x + -y) (y + x) (by rw [show -x + -y = -(y + x) by ring, neg]) h2
  have b3 := bd (x + y) (y + x) (by rw [add_comm]) h2
  have b4 := bd (x + -y) (y - x) (by rw [show x + -y = -(y - x) by ring, neg]) h1
  rw [hu, List.map_map, hsum] at hp hm
  have e1 : ∀ j ∈ Finset.range m, ((fun s : ℝ × ℂ => conj (harmonic c n s.1) * s.2) ∘ fun j : ℕ =>
      (t₀ + (j : ℝ) * Δ, p * cyc (j * y) + q * cyc (-(j * y)))) j =
      conj z * p * cyc (-x + y) ^ j + conj z * q * cyc (-x + -y) ^ j := by
    intro j _
    show conj (harmonic c n (t₀ + (j : ℝ) * Δ)) * (p * cyc (j * y) + q * cyc (-(j * y))) = _
    rw [hturn, map_mul, map_pow, conj_cyc, cj, cn, cyc_add, cyc_add, mul_pow, mul_pow]
    ring
  have e2 : ∀ j ∈ Finset.range m, ((fun s : ℝ × ℂ => harmonic c n s.1 * s.2) ∘ fun j : ℕ =>
      (t₀ + (j : ℝ) * Δ, p * cyc (j * y) + q * cyc (-(j * y)))) j =
      z * p * cyc (x + y) ^ j + z * q * cyc (x + -y) ^ j := by
    intro j _
    show harmonic c n (t₀ + (j : ℝ) * Δ) * (p * cyc (j * y) + q * cyc (-(j * y))) = _
    rw [hturn, cj, cn, cyc_add, cyc_add, mul_pow, mul_pow]
    ring
  rw [Finset.sum_congr rfl e1, Finset.sum_add_distrib, ← Finset.mul_sum, ← Finset.mul_sum] at hp
  rw [Finset.sum_congr rfl e2, Finset.sum_add_distrib, ← Finset.mul_sum, ← Finset.mul_sum] at hm
  obtain ⟨a, ha⟩ : ∃ a, a = 1 / |Real.sin (Real.pi * (y - x))| := ⟨_, rfl⟩
  obtain ⟨b, hb⟩ : ∃ b, b = 1 / |Real.sin (Real.pi * (y + x))| := ⟨_, rfl⟩
  rw [← ha] at b1 b4
  rw [← hb] at b2 b3
  rw [← ha, ← hb]
  have n1 : ‖ccw e‖ ≤ 1 / N * (‖z‖ * ‖p‖ * a + ‖z‖ * ‖q‖ * b) := by
    rw [hp, norm_mul, Complex.norm_real, Real.norm_eq_abs, abs_of_pos (by positivity)]
    refine mul_le_mul_of_nonneg_left ((norm_add_le _ _).trans (add_le_add ?_ ?_)) (by positivity)
    · rw [norm_mul, norm_mul, RCLike.norm_conj]
      exact mul_le_mul_of_nonneg_left b1 (by positivity)
    · rw [norm_mul, norm_mul, RCLike.norm_conj]
      exact mul_le_mul_of_nonneg_left b2 (by positivity)
  have n2 : ‖cw e‖ ≤ 1 / N * (‖z‖ * ‖p‖ * b + ‖z‖ * ‖q‖ * a) := by
    rw [hm, norm_mul, Complex.norm_real, Real.norm_eq_abs, abs_of_pos (by positivity)]
    refine mul_le_mul_of_nonneg_left ((norm_add_le _ _).trans (add_le_add ?_ ?_)) (by positivity)
    · rw [norm_mul, norm_mul]
      exact mul_le_mul_of_nonneg_left b3 (by positivity)
    · rw [norm_mul, norm_mul]
      exact mul_le_mul_of_nonneg_left b4 (by positivity)
  rw [← rotary_length e hmin]
  refine (mul_le_mul_of_nonneg_right (add_le_add n1 n2) hz0.le).trans (le_of_eq ?_)
  rw [hN]
  field_simp
  ring

/-! ## Example -/

/-- Non-vacuity: eight samples of alternating sign over half a day, analysed for S2 and S4: what S2 gets is at most an
eighth of `2/cos(π/8)`. -/
example : ∃ (c : Coef) (i : ℕ) (f : ℝ) (e : Ell),
    solve idealEnv octT (octSeries fun j : Fin 8 => (-1) ^ (j : ℕ)) none (some 45) (listCiOpts ["S2", "S4"]) = .ok c ∧
    c.name[i]? = some "S2" ∧ c.frq[i]? = some f ∧ ellipseAt c.ell i = some e ∧
    e.Lsmaj ≤ 1 / 8 * (1 / |Real.sin (Real.pi * (1 / 2 - 24 * (1 / 16) * f))| +
      1 / |Real.sin (Real.pi * (1 / 2 + 24 * (1 / 16) * f))|) := by
  obtain ⟨ys, hys⟩ : ∃ ys : Fin 8 → ℝ, ys = fun j : Fin 8 => (-1) ^ (j : ℕ) :=
    ⟨fun j : Fin 8 => (-1) ^ (j : ℕ), rfl⟩
  rw [← hys]
  obtain ⟨c, H, hn, hA⟩ := octS_white ys
  have R := octS_ready ys
  have hc := H.returned
  obtain ⟨-, h2, h3⟩ := S2S4_nyquist (S2S4_frq hc hn)
  have hm : "S2" ∈ c.name := hn.mem_iff.2 (by simp)
  obtain ⟨i, hi⟩ := List.getElem?_of_mem hm
  have hO : OlsRun idealEnv (some 45) (listCiOpts ["S2", "S4"]) none octT (octSeries ys) none octTn c :=
    ⟨R, H.keys, H.ols, hc, H.kept, H.infer, by simp, H.time, hn.nodup_iff.2 (by simp)⟩
  obtain ⟨hlen, hlf⟩ := ell_len R hc
  have hf : c.frq[i]? = some (c.frq.getD i 0) := by
    simp [List.getD_eq_getElem?_getD, hlf, (List.getElem?_eq_some_iff.1 hi).1]
  obtain ⟨f, hfd⟩ : ∃ f, f = c.frq.getD i 0 := ⟨_, rfl⟩
  rw [← hfd] at hf
  have g1 := h2 f (List.mem_of_getElem? hf)
  have g2 := h3 f (List.mem_of_getElem? hf)
  norm_num at g2
  have half : cyc (1 / 2) = -1 := by
    rw [← Complex.exp_pi_mul_I]
    unfold cyc
    congr 1
    push_cast
    ring
  have hu : ForeignTide octTn (octSeries ys) none 0 (1 / 16) (1 / 2) 1 0 8 := by
    unfold ForeignTide
    have : ∀ j : ℕ, (1 : ℂ) * cyc (j * (1 / 2)) + 0 * cyc (-(j * (1 / 2))) = (-1) ^ j := by
      intro j
      rw [← cyc_pow, half]
      simp
    simp only [this]
    rw [hys]
    simp [usable, octSeries, octTn, goodSamples, Fl.toReal?, Cell.value?, List.ofFn_succ, List.range_succ]
    norm_num
  have pos1 : Real.sin (Real.pi * (1 / 2 - 24 * (1 / 16) * f)) ≠ 0 :=
    (Real.sin_pos_of_pos_of_lt_pi (mul_pos Real.pi_pos (by linarith)) (by nlinarith [Real.pi_pos])).ne'
  have pos2 : Real.sin (Real.pi * (1 / 2 + 24 * (1 / 16) * f)) ≠ 0 :=
    (Real.sin_pos_of_pos_of_lt_pi (mul_pos Real.pi_pos (by linarith)) (by nlinarith [Real.pi_pos])).ne'
  obtain ⟨e, he, hle⟩ := C158_leak hO ⟨.inl rfl, .inl rfl⟩ hi hf (hA _ hm) 0 (1 / 16) (1 / 2) 1 0 8 hu pos1 pos2
  rw [norm_harmonic_off H.keys hc R rfl "S2" hm 0] at hle
  refine ⟨c, i, f, e, hc, hi, hf, he, ?_⟩
  simpa using hle

end

end UTide.Props
