import Verif.Props.LeakProps
import Verif.Props.ErrorProps

/-!
# The error of a constituent is the average of what the data depart from the tide: C141, C158
-/

namespace UTide.Props

noncomputable section

open Classical

local notation "conj" => starRingEnd ℂ

/-- **C141**, exactly: where a harmonic averages out against the rest of the model, the two rotating parts of its ellipse
are wrong by the averages of the noise against the harmonic and against its conjugate, whatever the tide is and whatever
the noise is. -/
theorem C141_error {E : Env} {lat : Option ℝ} {opts : Dict PyVal} {t : TimeArg} {u : Series}
    {v : Option Series} {tn : List Fl} {c : Coef} (H : OlsRun E lat opts none t u v tn c) {i : ℕ} {n : String} {N : ℝ}
    (hi : c.name[i]? = some n) (A : AveragesOut c tn u v n N) (P M : String → ℂ) (mean slope : ℂ)
    (hs : c.opt.notrend = true → slope = 0) :
    ∃ e, ellipseAt c.ell i = some e ∧
      ccw e - P n = (1 / N : ℝ) * ((usable tn u.data (v.map Series.data)).map fun s =>
        conj (harmonic c n s.1) * (s.2 - rotaryCurve c P M mean slope s.1)).sum ∧
      cw e - M n = (1 / N : ℝ) * ((usable tn u.data (v.map Series.data)).map fun s =>
        harmonic c n s.1 * (s.2 - rotaryCurve c P M mean slope s.1)).sum := by
  obtain ⟨e, he, hp, hm⟩ := C127_average H hi A
  obtain ⟨k1, k2⟩ := A.curve H.distinct (List.mem_of_getElem? hi) P M mean slope hs
  unfold sampleTimes at k1 k2
  rw [List.map_map] at k1 k2
  simp only [Function.comp_def] at k1 k2
  have hN : (N : ℂ) ≠ 0 := by exact_mod_cast A.pos.ne'
  refine ⟨e, he, ?_, ?_⟩
  · simp only [mul_sub]
    rw [list_sum_sub, k1, hp]
    push_cast
    field_simp
  · simp only [mul_sub]
    rw [list_sum_sub, k2, hm]
    push_cast
    field_simp

/-- Specification: at `m` regular times, the usable samples are those of the tide `K` and, on top of it, those of a steady
rotation with `y` cycles from one sample to the next. -/
def TideAndForeign (tn : List Fl) (u : Series) (v : Option Series) (K : ℝ → ℂ) (t₀ Δ y : ℝ) (p q : ℂ) (m : ℕ) : Prop :=
  usable tn u.data (v.map Series.data) =
    (List.range m).map fun j : ℕ =>
      (t₀ + (j : ℝ) * Δ, K (t₀ + (j : ℝ) * Δ) + (p * cyc (j * y) + q * cyc (-(j * y))))

/-- **C158**, beside the tide of the model: a tide of another frequency on top of any tide of the model puts the two rotating
parts of a constituent wrong by no more than it would show up with alone. -/
theorem C158_beside {E : Env} {lat : Option ℝ} {opts : Dict PyVal} {t : TimeArg} {u : Series}
    {v : Option Series} {tn : List Fl} {c : Coef} (H : OlsRun E lat opts none t u v tn c) (hst : Steady opts)
    {i : ℕ} {n : String} {f N : ℝ} (hi : c.name[i]? = some n) (hf : c.frq[i]? = some f) (A : AveragesOut c tn u v n N)
    (P M : String → ℂ) (mean slope : ℂ) (hs : c.opt.notrend = true → slope = 0)
    (t₀ Δ y : ℝ) (p q : ℂ) (m : ℕ) (hu : TideAndForeign tn u v (rotaryCurve c P M mean slope) t₀ Δ y p q m)
    (h1 : Real.sin (Real.pi * (y - 24 * Δ * f)) ≠ 0) (h2 : Real.sin (Real.pi * (y + 24 * Δ * f)) ≠ 0) :
    ∃ e, ellipseAt c.ell i = some e ∧ (‖ccw e - P n‖ + ‖cw e - M n‖) * ‖harmonic c n t₀‖ ≤ (‖p‖ + ‖q‖) / m *
      (1 / |Real.sin (Real.pi * (y - 24 * Δ * f))| + 1 / |Real.sin (Real.pi * (y + 24 * Δ * f))|) := by
  obtain ⟨e, he, hp, hm⟩ := C141_error H hi A P M mean slope hs
  refine ⟨e, he, ?_⟩
  obtain ⟨x, hx⟩ : ∃ x, x = 24 * Δ * f := ⟨_, rfl⟩
  obtain ⟨z, hz⟩ : ∃ z, z = harmonic c n t₀ := ⟨_, rfl⟩
  rw [← hx] at h1 h2 ⊢
  rw [← hz]
  have hturn : ∀ j : ℕ, harmonic c n (t₀ + (j : ℝ) * Δ) = z * cyc x ^ j := by
    intro j
    rw [steady_turn H.ready H.keys H.returned hst Δ t₀ i n f hi hf j, ← hx, ← hz]
  unfold TideAndForeign at hu
  have hN : N = m * ‖z‖ ^ 2 := by
    have := A.size
    unfold sampleTimes at this
    rw [hu, List.map_map, List.map_map] at this
    rw [← this]
    have e : ∀ j ∈ List.range m, (((fun τ => ‖harmonic c n τ‖ ^ 2) ∘ Prod.fst) ∘ fun j : ℕ => (t₀ + (j : ℝ) * Δ,
        rotaryCurve c P M mean slope (t₀ + (j : ℝ) * Δ) + (p * cyc (j * y) + q * cyc (-(j * y))))) j = ‖z‖ ^ 2 := by
      intro j _
      show ‖harmonic c n (t₀ + (j : ℝ) * Δ)‖ ^ 2 = _
      rw [hturn, norm_mul, norm_pow, norm_cyc, one_pow, mul_one]
    rw [List.map_congr_left e]
    simp
  have hN0 := A.pos
  have hm0 : (0 : ℝ) < m := by
    rcases (Nat.cast_nonneg (α := ℝ) m).lt_or_eq with h | h
    · exact h
    · rw [hN, ← h, zero_mul] at hN0
      exact absurd hN0 (lt_irrefl _)
  have hz0 : 0 < ‖z‖ := by
    rcases (norm_nonneg z).lt_or_eq with h | h
    · exact h
    · rw [hN, ← h] at hN0
      norm_num at hN0
  have cj : ∀ (y : ℝ) (j : ℕ), cyc (j * y) = cyc y ^ j := fun y j => (cyc_pow y j).symm
  have cn : ∀ (y : ℝ) (j : ℕ), cyc (-(j * y)) = cyc (-y) ^ j := fun y j => by rw [cyc_pow, mul_neg]
  have hsum : ∀ g : ℕ → ℂ, ((List.range m).map g).sum = ∑ j ∈ Finset.range m, g j := by
    intro g
    rw [← List.sum_toFinset _ List.nodup_range, List.toFinset_range]
  have neg : ∀ w, |Real.sin (Real.pi * -w)| = |Real.sin (Real.pi * w)| := fun w => by
    rw [mul_neg, Real.sin_neg, abs_neg]
  have bd : ∀ w w', |Real.sin (Real.pi * w)| = |Real.sin (Real.pi * w')| → Real.sin (Real.pi * w') ≠ 0 →
      ‖∑ j ∈ Finset.range m, cyc w ^ j‖ ≤ 1 / |Real.sin (Real.pi * w')| := by
    intro w w' hw h
    rw [← hw]
    exact cyc_sum_bound w (by rw [← abs_ne_zero, hw]; exact abs_ne_zero.2 h) m
  have b1 := bd (-x + y) (y - x) (by rw [show -x + y = y - x by ring]) h1
  have b2 := bd (-x + -y) (y + x) (by rw [show -x + -y = -(y + x) by ring, neg]) h2
  have b3 := bd (x + y) (y + x) (by rw [add_comm]) h2
  have b4 := bd (x + -y) (y - x) (by rw [show x + -y = -(y - x) by ring, neg]) h1
  rw [hu, List.map_map, hsum] at hp hm
  have e1 : ∀ j ∈ Finset.range m, ((fun s : ℝ × ℂ => conj (harmonic c n s.1) *
      (s.2 - rotaryCurve c P M mean slope s.1)) ∘ fun j : ℕ => (t₀ + (j : ℝ) * Δ,
        rotaryCurve c P M mean slope (t₀ + (j : ℝ) * Δ) + (p * cyc (j * y) + q * cyc (-(j * y))))) j =
      conj z * p * cyc (-x + y) ^ j + conj z * q * cyc (-x + -y) ^ j := by
    intro j _
    show conj (harmonic c n (t₀ + (j : ℝ) * Δ)) * (rotaryCurve c P M mean slope (t₀ + (j : ℝ) * Δ) +
      (p * cyc (j * y) + q * cyc (-(j * y))) - rotaryCurve c P M mean slope (t₀ + (j : ℝ) * Δ)) = _
    rw [add_sub_cancel_left, hturn, map_mul, map_pow, conj_cyc, cj, cn, cyc_add, cyc_add, mul_pow, mul_pow]
    ring
  have e2 : ∀ j ∈ Finset.range m, ((fun s : ℝ × ℂ => harmonic c n s.1 *
      (s.2 - rotaryCurve c P M mean slope s.1)) ∘ fun j : ℕ => (t₀ + (j : ℝ) * Δ,
        rotaryCurve c P M mean slope (t₀ + (j : ℝ) * Δ) + (p * cyc (j * y) + q * cyc (-(j * y))))) j =
      z * p * cyc (x + y) ^ j + z * q * cyc (x + -y) ^ j := by
    intro j _
    show harmonic c n (t₀ + (j : ℝ) * Δ) * (rotaryCurve c P M mean slope (t₀ + (j : ℝ) * Δ) +
      (p * cyc (j * y) + q * cyc (-(j * y))) - rotaryCurve c P M mean slope (t₀ + (j : ℝ) * Δ)) = _
    rw [add_sub_cancel_left, hturn, cj, cn, cyc_add, cyc_add, mul_pow, mul_pow]
    ring
  rw [Finset.sum_congr rfl e1, Finset.sum_add_distrib, ← Finset.mul_sum, ← Finset.mul_sum] at hp
  rw [Finset.sum_congr rfl e2, Finset.sum_add_distrib, ← Finset.mul_sum, ← Finset.mul_sum] at hm
  obtain ⟨a, ha⟩ : ∃ a, a = 1 / |Real.sin (Real.pi * (y - x))| := ⟨_, rfl⟩
  obtain ⟨b, hb⟩ : ∃ b, b = 1 / |Real.sin (Real.pi * (y + x))| := ⟨_, rfl⟩
  rw [← ha] at b1 b4
  rw [← hb] at b2 b3
  rw [← ha, ← hb]
  have n1 : ‖ccw e - P n‖ ≤ 1 / N * (‖z‖ * ‖p‖ * a + ‖z‖ * ‖q‖ * b) := by
    rw [hp, norm_mul, Complex.norm_real, Real.norm_eq_abs, abs_of_pos (by positivity)]
    refine mul_le_mul_of_nonneg_left ((norm_add_le _ _).trans (add_le_add ?_ ?_)) (by positivity)
    · rw [norm_mul, norm_mul, RCLike.norm_conj]
      exact mul_le_mul_of_nonneg_left b1 (by positivity)
    · rw [norm_mul, norm_mul, RCLike.norm_conj]
      exact mul_le_mul_of_nonneg_left b2 (by positivity)
  have n2 : ‖cw e - M n‖ ≤ 1 / N * (‖z‖ * ‖p‖ * b + ‖z‖ * ‖q‖ * a) := by
    rw [hm, norm_mul, Complex.norm_real, Real.norm_eq_abs, abs_of_pos (by positivity)]
    refine mul_le_mul_of_nonneg_left ((norm_add_le _ _).trans (add_le_add ?_ ?_)) (by positivity)
    · rw [norm_mul, norm_mul]
      exact mul_le_mul_of_nonneg_left b3 (by positivity)
    · rw [norm_mul, norm_mul]
      exact mul_le_mul_of_nonneg_left b4 (by positivity)
  refine (mul_le_mul_of_nonneg_right (add_le_add n1 n2) hz0.le).trans (le_of_eq ?_)
  rw [hN]
  field_simp
  ring

/-! ## Examples -/

/-- Non-vacuity of `C141_error`: a single spike of one in eight samples for S2 and S4, seen as noise on no tide at all, gives
S2 rotating parts of an eighth of a harmonic. -/
example : ∃ (c : Coef) (i : ℕ) (e : Ell) (N : ℝ),
    solve idealEnv octT (octSeries fun j : Fin 8 => if j = 0 then 1 else 0) none (some 45) (listCiOpts ["S2", "S4"]) = .ok c ∧
    c.name[i]? = some "S2" ∧ ellipseAt c.ell i = some e ∧ 0 < N ∧
    ccw e = (1 / N : ℝ) * conj (harmonic c "S2" 0) := by
  obtain ⟨ys, hys⟩ : ∃ ys : Fin 8 → ℝ, ys = fun j : Fin 8 => if j = 0 then 1 else 0 :=
    ⟨fun j : Fin 8 => if j = 0 then 1 else 0, rfl⟩
  rw [← hys]
  obtain ⟨c, H, hn, hA⟩ := octS_white ys
  have R := octS_ready ys
  have hc := H.returned
  have hm : "S2" ∈ c.name := hn.mem_iff.2 (by simp)
  obtain ⟨i, hi⟩ := List.getElem?_of_mem hm
  have hO : OlsRun idealEnv (some 45) (listCiOpts ["S2", "S4"]) none octT (octSeries ys) none octTn c :=
    ⟨R, H.keys, H.ols, hc, H.kept, H.infer, by simp, H.time, hn.nodup_iff.2 (by simp)⟩
  obtain ⟨e, he, hp, -⟩ := C141_error hO hi (hA _ hm) (fun _ => 0) (fun _ => 0) 0 0 (fun _ => rfl)
  refine ⟨c, i, e, _, hc, hi, he, (hA _ hm).pos, ?_⟩
  rw [sub_zero] at hp
  rw [hp]
  congr 1
  rw [hys]
  simp [usable, octSeries, octTn, goodSamples, Fl.toReal?, Cell.value?, List.ofFn_succ, rotaryCurve]

/-- Non-vacuity: eight samples of alternating sign around a mean of three: what S2 gets is bounded in the same way. -/
example : ∃ (c : Coef) (i : ℕ) (f : ℝ) (e : Ell),
    solve idealEnv octT (octSeries fun j : Fin 8 => 3 + (-1) ^ (j : ℕ)) none (some 45) (listCiOpts ["S2", "S4"]) = .ok c ∧
    c.name[i]? = some "S2" ∧ c.frq[i]? = some f ∧ ellipseAt c.ell i = some e ∧
    ‖ccw e‖ + ‖cw e‖ ≤ 1 / 8 * (1 / |Real.sin (Real.pi * (1 / 2 - 24 * (1 / 16) * f))| +
      1 / |Real.sin (Real.pi * (1 / 2 + 24 * (1 / 16) * f))|) := by
  obtain ⟨ys, hys⟩ : ∃ ys : Fin 8 → ℝ, ys = fun j : Fin 8 => 3 + (-1) ^ (j : ℕ) :=
    ⟨fun j : Fin 8 => 3 + (-1) ^ (j : ℕ), rfl⟩
  rw [← hys]
  obtain ⟨c, H, hn, hA⟩ := octS_white ys
  have R := octS_ready ys
  have hc := H.returned
  obtain ⟨-, h2, h3⟩ := S2S4_nyquist (S2S4_frq hc hn)
  have hm : "S2" ∈ c.name := hn.mem_iff.2 (by simp)
  obtain ⟨i, hi⟩ := List.getElem?_of_mem hm
  have hO : OlsRun idealEnv (some 45) (listCiOpts ["S2", "S4"]) none octT (octSeries ys) none octTn c :=
    ⟨R, H.keys, H.ols, hc, H.kept, H.infer, by simp, H.time, hn.nodup_iff.2 (by simp)⟩
  obtain ⟨hlen, hlf⟩ := ell_len R hc
  have hf : c.frq[i]? = some (c.frq.getD i 0) := by
    simp [List.getD_eq_getElem?_getD, hlf, (List.getElem?_eq_some_iff.1 hi).1]
  obtain ⟨f, hfd⟩ : ∃ f, f = c.frq.getD i 0 := ⟨_, rfl⟩
  rw [← hfd] at hf
  have g1 := h2 f (List.mem_of_getElem? hf)
  have g2 := h3 f (List.mem_of_getElem? hf)
  norm_num at g2
  have half : cyc (1 / 2) = -1 := by
    rw [← Complex.exp_pi_mul_I]
    unfold cyc
    congr 1
    push_cast
    ring
  have hu : TideAndForeign octTn (octSeries ys) none (rotaryCurve c (fun _ => 0) (fun _ => 0) 3 0) 0 (1 / 16) (1 / 2) 1 0 8 := by
    unfold TideAndForeign
    have : ∀ j : ℕ, (1 : ℂ) * cyc (j * (1 / 2)) + 0 * cyc (-(j * (1 / 2))) = (-1) ^ j := by
      intro j
      rw [← cyc_pow, half]
      simp
    simp only [this]
    rw [hys]
    simp [usable, octSeries, octTn, goodSamples, Fl.toReal?, Cell.value?, List.ofFn_succ, List.range_succ, rotaryCurve]
    norm_num
  have pos1 : Real.sin (Real.pi * (1 / 2 - 24 * (1 / 16) * f)) ≠ 0 :=
    (Real.sin_pos_of_pos_of_lt_pi (mul_pos Real.pi_pos (by linarith)) (by nlinarith [Real.pi_pos])).ne'
  have pos2 : Real.sin (Real.pi * (1 / 2 + 24 * (1 / 16) * f)) ≠ 0 :=
    (Real.sin_pos_of_pos_of_lt_pi (mul_pos Real.pi_pos (by linarith)) (by nlinarith [Real.pi_pos])).ne'
  obtain ⟨e, he, hle⟩ := C158_beside hO ⟨.inl rfl, .inl rfl⟩ hi hf (hA _ hm)
    (fun _ => 0) (fun _ => 0) 3 0 (fun _ => rfl) 0 (1 / 16) (1 / 2) 1 0 8 hu pos1 pos2
  rw [norm_harmonic_off H.keys hc R rfl "S2" hm 0] at hle
  refine ⟨c, i, f, e, hc, hi, hf, he, ?_⟩
  simpa using hle

end

end UTide.Props
