import Mathlib.Analysis.SpecialFunctions.Trigonometric.Bounds
import Verif.Props.BoundProps
import Verif.Props.EnergyExample

/-!
# C156: the tide averages out
-/

namespace UTide.Props

noncomputable section

open Classical Filter Topology

local notation "conj" => starRingEnd ℂ

/-- Specification: `d` is the mean, over `m` regular times starting at `t₀` with spacing `Δ` (days), of what
`reconstruct` with arguments `a` returns, less mean and trend. -/
def MeanTide (E : Env) (c : Coef) (a : RecArgs) (t₀ Δ : ℝ) (m : ℕ) (d : ℂ) : Prop :=
  ∃ (t : TimeArr) (r : List (Option ℂ)) (z : ℕ → ℂ),
    normalizeTime E.dt64 t a.epoch = .ok ((List.range m).map fun j : ℕ => Fl.fin (t₀ + (j : ℝ) * Δ)) ∧
    reconstruct E t c a = .ok r ∧ (∀ j, j < m → r[j]? = some (some (z j))) ∧
    d = (∑ j ∈ Finset.range m, (z j - level c (t₀ + (j : ℝ) * Δ))) / (m : ℂ)

theorem powers_bound {w : ℂ} (h : ‖w‖ = 1) (h1 : w ≠ 1) (m : ℕ) : ‖∑ j ∈ Finset.range m, w ^ j‖ ≤ 2 / ‖w - 1‖ := by
  rw [geom_sum_eq h1, norm_div]
  refine div_le_div_of_nonneg_right ((norm_sub_le _ _).trans ?_) (norm_nonneg _)
  rw [norm_pow, h, one_pow, norm_one]
  norm_num

theorem cyc_sub_one (x : ℝ) : ‖cyc x - 1‖ = 2 * |Real.sin (Real.pi * x)| := by
  have h : cyc x - 1 = cyc (x / 2) * (2 * Complex.I * (Real.sin (Real.pi * x) : ℂ)) := by
    have h1 : cyc x = cyc (x / 2) * cyc (x / 2) := by
      unfold cyc
      rw [← Complex.exp_add]
      congr 1
      push_cast
      ring
    have h2 : (1 : ℂ) = cyc (x / 2) * cyc (-(x / 2)) := by
      unfold cyc
      rw [← Complex.exp_add, ← Complex.exp_zero]
      congr 1
      push_cast
      ring
    have h3 : cyc (x / 2) - cyc (-(x / 2)) = 2 * Complex.I * (Real.sin (Real.pi * x) : ℂ) := by
      unfold cyc
      rw [mul_comm Complex.I, mul_comm Complex.I, Complex.exp_mul_I, Complex.exp_mul_I, ← Complex.ofReal_cos,
        ← Complex.ofReal_sin, ← Complex.ofReal_cos, ← Complex.ofReal_sin,
        show 2 * Real.pi * (x / 2) = Real.pi * x by ring, show 2 * Real.pi * -(x / 2) = -(Real.pi * x) by ring,
        Real.cos_neg, Real.sin_neg]
      push_cast
      ring
    rw [← h3, mul_sub, ← h1, ← h2]
  rw [h, norm_mul, norm_cyc, one_mul, norm_mul, norm_mul, Complex.norm_I, Complex.norm_real, Real.norm_eq_abs]
  norm_num

/-- The rotating parts of an ellipse have the sum of their radii equal to the major semi-axis. -/
theorem rotary_length (e : Ell) (h : |e.Lsmin| ≤ e.Lsmaj) : ‖ccw e‖ + ‖cw e‖ = e.Lsmaj := by
  obtain ⟨h1, h2⟩ := abs_le.1 h
  unfold ccw cw
  rw [norm_mul, norm_mul, norm_cisd, norm_cisd, mul_one, mul_one, Complex.norm_real, Complex.norm_real, Real.norm_eq_abs,
    Real.norm_eq_abs, abs_of_nonneg (by linarith), abs_of_nonneg (by linarith)]
  ring

theorem amplitude_ell {ell : EllArr} (hr : InRanges ell) {i : ℕ} {e : Ell} (he : ellipseAt ell i = some e) (c : Coef)
    (hc : c.ell = ell) : |e.Lsmin| ≤ e.Lsmaj ∧ amplitude c i = e.Lsmaj := by
  unfold amplitude
  rw [hc]
  cases ell with
  | one A g =>
    simp only [ellipseAt, Option.bind_eq_some_iff, Option.map_eq_some_iff] at he
    obtain ⟨a, ha, b, hb, rfl⟩ := he
    exact ⟨by simpa using hr.1 a (List.mem_of_getElem? ha), by simp [List.getD_eq_getElem?_getD, ha]⟩
  | two M m th g =>
    simp only [ellipseAt, Option.bind_eq_some_iff, Option.map_eq_some_iff] at he
    obtain ⟨a, ha, b, hb, d, hd, f, hf, rfl⟩ := he
    exact ⟨hr.1 i a b ha hb, by simp [List.getD_eq_getElem?_getD, ha]⟩

section

variable {E : Env} {t : TimeArg} {u : Series} {v : Option Series} {lat : Option ℝ} {opts : Dict PyVal} {c : Coef}

/-- **C156.** Harmonics of constant amplitude predicted at `m` regular times: the mean of the predicted tide is at most
the sum, over the constituents asked for, of amplitude (major semi-axis) times nodal factor, divided by
`m |sin (π f Δ)|` with `f Δ` the cycles from one time to the next. For every method, confidence setting, inference and
selection; any times, steps and durations. -/
theorem C156_mean (R : Ready E t u v) (hnd : opts.keys.Nodup) (h : solve E t u v lat opts = .ok c) (hk : AllKept c)
    (hst : Steady opts) (t₀ Δ : ℝ) (hs0 : ∀ f ∈ c.frq, Real.sin (Real.pi * (24 * Δ * f)) ≠ 0) (E' : Env) (a : RecArgs)
    (m : ℕ) (d : ℂ) (hd : MeanTide E' c a t₀ Δ m d) :
    ‖d‖ ≤ (((List.range c.name.length).filter (Selected c a)).map fun i =>
      ‖harmonic c (c.name.getD i "") t₀‖ * amplitude c i / |Real.sin (Real.pi * (24 * Δ * c.frq.getD i 0))|).sum / m := by
  obtain ⟨hl, hlf⟩ := ell_len R h
  obtain ⟨s, hs⟩ : ∃ s, s = ((List.range c.name.length).filter (Selected c a)).toFinset := ⟨_, rfl⟩
  have hsum : ∀ {β : Type} [AddCommMonoid β] (f : ℕ → β),
      (((List.range c.name.length).filter (Selected c a)).map f).sum = ∑ i ∈ s, f i := by
    intro β _ f
    rw [hs, List.sum_toFinset _ (List.nodup_range.filter _)]
  have hmem : ∀ i ∈ s, i < c.name.length := fun i hi => by
    rw [hs, List.mem_toFinset, List.mem_filter, List.mem_range] at hi; exact hi.1
  obtain ⟨t', r, z, htn, hr, hz, rfl⟩ := hd
  rw [norm_div, Complex.norm_natCast]
  refine div_le_div_of_nonneg_right ?_ (Nat.cast_nonneg m)
  have hval : ∀ j ∈ Finset.range m, z j - level c (t₀ + (j : ℝ) * Δ) = ∑ i ∈ s, tide c (t₀ + (j : ℝ) * Δ) i := by
    intro j hj
    have hj := Finset.mem_range.1 hj
    rw [C36_selected E t u v lat opts R hnd c h hk, htn] at hr
    have hr := Except.ok.inj hr
    have := hz j hj
    rw [← hr, List.getElem?_map, List.getElem?_map, List.getElem?_range hj] at this
    have := Option.some.inj (Option.some.inj this)
    rw [← this, add_sub_cancel_left, hsum]
  rw [Finset.sum_congr rfl hval, Finset.sum_comm, hsum]
  refine (norm_sum_le _ _).trans (Finset.sum_le_sum fun i hi => ?_)
  have hi' := hmem i hi
  have hn : c.name[i]? = some (c.name.getD i "") := by simp [List.getD_eq_getElem?_getD, hi']
  have hf : c.frq[i]? = some (c.frq.getD i 0) := by simp [List.getD_eq_getElem?_getD, hlf, hi']
  obtain ⟨e, he, -⟩ := ellipse_energy c.ell _ i hl hi'
  obtain ⟨hm, ha⟩ := amplitude_ell (C09_ranges E t u v lat opts hnd c h).1 he c rfl
  obtain ⟨x, hx⟩ : ∃ x, x = 24 * Δ * c.frq.getD i 0 := ⟨_, rfl⟩
  have hsx : Real.sin (Real.pi * x) ≠ 0 := by rw [hx]; exact hs0 _ (List.mem_of_getElem? hf)
  have htide : ∀ j ∈ Finset.range m, tide c (t₀ + (j : ℝ) * Δ) i = harmonic c (c.name.getD i "") t₀ * ccw e * cyc x ^ j +
      conj (harmonic c (c.name.getD i "") t₀) * cw e * cyc (-x) ^ j := by
    intro j _
    rw [tide_rotary h _ i _ e hn he, steady_turn R hnd h hst Δ t₀ i _ _ hn hf j, map_mul, map_pow, conj_cyc, ← hx]
    ring
  have hb : ∀ y, |Real.sin (Real.pi * y)| = |Real.sin (Real.pi * x)| →
      ‖∑ j ∈ Finset.range m, cyc y ^ j‖ ≤ 1 / |Real.sin (Real.pi * x)| := by
    intro y hy
    have hne : cyc y ≠ 1 := by
      intro h1
      have := cyc_sub_one y
      rw [h1, sub_self, norm_zero, hy] at this
      have := abs_pos.2 hsx
      linarith
    refine (powers_bound (norm_cyc y) hne m).trans (le_of_eq ?_)
    rw [cyc_sub_one, hy]
    have := (abs_pos.2 hsx).ne'
    field_simp
  rw [Finset.sum_congr rfl htide, Finset.sum_add_distrib, ← Finset.mul_sum, ← Finset.mul_sum, ha, ← rotary_length e hm, ← hx]
  refine (norm_add_le _ _).trans ?_
  rw [norm_mul, norm_mul, norm_mul, norm_mul, RCLike.norm_conj]
  have b1 := hb x rfl
  have b2 := hb (-x) (by rw [mul_neg, Real.sin_neg, abs_neg])
  have c1 := mul_le_mul_of_nonneg_left b1 (mul_nonneg (norm_nonneg (harmonic c (c.name.getD i "") t₀)) (norm_nonneg (ccw e)))
  have c2 := mul_le_mul_of_nonneg_left b2 (mul_nonneg (norm_nonneg (harmonic c (c.name.getD i "") t₀)) (norm_nonneg (cw e)))
  refine (add_le_add c1 c2).trans (le_of_eq ?_)
  ring

/-- **C156**, hourly: without nodal corrections and Z0, for a record of the first ten thousand years. Over `m` hours the
mean of the predicted tide is at most the sum of the amplitudes, each times half the period (hours), divided by `m`. -/
theorem C156_hourly (R : Ready E t u v) (hnd : opts.keys.Nodup) (h : solve E t u v lat opts = .ok c) (hk : AllKept c)
    (hst : Steady opts) (hoff : (requested opts "nodal").bind nodalMode = some .off) (hera : InEra c.reftime)
    (hnn : c.name.Nodup) (hz0 : "Z0" ∉ c.name) (t₀ : ℝ) (E' : Env) (a : RecArgs) (m : ℕ) (d : ℂ)
    (hd : MeanTide E' c a t₀ (1 / 24) m d) :
    ‖d‖ ≤ (((List.range c.name.length).filter (Selected c a)).map fun i =>
      amplitude c i * (1 / c.frq.getD i 0) / 2).sum / m := by
  obtain ⟨-, hb⟩ := hourly_frequencies h hera hnn hz0
  obtain ⟨hl, hlf⟩ := ell_len R h
  have hlow : ∀ f ∈ c.frq, 2 * f ≤ Real.sin (Real.pi * (24 * (1 / 24) * f)) := by
    intro f hf
    obtain ⟨h1, h2⟩ := hb f hf
    have := Real.mul_le_sin (x := Real.pi * f) (by positivity) (by nlinarith [Real.pi_pos])
    rw [show (24 : ℝ) * (1 / 24) * f = f by ring]
    refine le_trans (le_of_eq ?_) this
    have := Real.pi_pos.ne'
    field_simp
  refine (C156_mean R hnd h hk hst t₀ (1 / 24) (fun f hf => ?_) E' a m d hd).trans ?_
  · have := hlow f hf
    have := (hb f hf).1
    exact ne_of_gt (by linarith)
  · refine div_le_div_of_nonneg_right (List.sum_le_sum fun i hi => ?_) (Nat.cast_nonneg m)
    have hi' : i < c.name.length := List.mem_range.1 (List.mem_filter.1 hi).1
    have hf : c.frq.getD i 0 ∈ c.frq := by
      rw [List.getD_eq_getElem _ _ (by rw [hlf]; exact hi')]
      exact List.getElem_mem _
    have hn : c.name.getD i "" ∈ c.name := by
      rw [List.getD_eq_getElem _ _ hi']
      exact List.getElem_mem _
    obtain ⟨e, he, -⟩ := ellipse_energy c.ell _ i hl hi'
    obtain ⟨hm, ha⟩ := amplitude_ell (C09_ranges E t u v lat opts hnd c h).1 he c rfl
    have hpos : 0 ≤ amplitude c i := by rw [ha]; exact (abs_nonneg _).trans hm
    have h1 := hlow _ hf
    have h2 := (hb _ hf).1
    rw [norm_harmonic_off hnd h R hoff _ hn, one_mul, abs_of_pos (by linarith)]
    refine (div_le_div_of_nonneg_left hpos (by linarith) h1).trans (le_of_eq ?_)
    field_simp

/-- **C156**, hourly, in the long run: the mean of the predicted tide tends to zero, so that the mean of the prediction is
that of mean and trend. -/
theorem C156_limit (R : Ready E t u v) (hnd : opts.keys.Nodup) (h : solve E t u v lat opts = .ok c) (hk : AllKept c)
    (hst : Steady opts) (hoff : (requested opts "nodal").bind nodalMode = some .off) (hera : InEra c.reftime)
    (hnn : c.name.Nodup) (hz0 : "Z0" ∉ c.name) (t₀ : ℝ) (E' : Env) (a : RecArgs) (d : ℕ → ℂ)
    (hd : ∀ m, MeanTide E' c a t₀ (1 / 24) m (d m)) : Tendsto d atTop (𝓝 0) :=
  squeeze_zero_norm (fun m => C156_hourly R hnd h hk hst hoff hera hnn hz0 t₀ E' a m (d m) (hd m))
    (tendsto_const_div_atTop_nhds_zero_nat _)

end

/-! ## Example -/

/-- Predictions at regular times are returned, and their mean exists. -/
theorem meanTide_exists {E : Env} {t : TimeArg} {u : Series} {v : Option Series} {lat : Option ℝ} {opts : Dict PyVal}
    {c : Coef} (R : Ready E t u v) (hnd : opts.keys.Nodup) (h : solve E t u v lat opts = .ok c) (hk : AllKept c)
    (a : RecArgs) (ha : a.epoch = .str "python") (t₀ Δ : ℝ) (m : ℕ) : ∃ d, MeanTide idealEnv c a t₀ Δ m d := by
  obtain ⟨-, t', r, z, h1, h2, h3, -⟩ := meanEnergy_exists R hnd h hk a ha t₀ Δ m
  exact ⟨_, t', r, z, h1, h2, h3, rfl⟩

/-- Non-vacuity: a spike in eight samples over half a day, analysed for S2 and S4 and predicted every hour. -/
example : ∃ c, solve idealEnv octT (octSeries spike) none (some 45) (listCiOpts ["S2", "S4"]) = .ok c ∧ Nonzero c.ell ∧
    ∃ d : ℕ → ℂ, (∀ m, MeanTide idealEnv c recAll 100 (1 / 24) m (d m)) ∧ Tendsto d atTop (𝓝 0) ∧
      ∀ m, ‖d m‖ ≤ (((List.range c.name.length).filter (Selected c recAll)).map fun i =>
        amplitude c i * (1 / c.frq.getD i 0) / 2).sum / m := by
  obtain ⟨c, i, l, p, H, hn, hi, hl, hlp, hnz, hr⟩ := spike_run
  have R := octS_ready spike
  have hc := H.returned
  have hera : InEra c.reftime := by rw [hr]; constructor <;> norm_num
  have hnn : c.name.Nodup := hn.nodup_iff.2 (by simp)
  have hz0 : "Z0" ∉ c.name := fun h0 => by have := hn.mem_iff.1 h0; simp at this
  choose d hd using meanTide_exists R H.keys hc H.kept recAll rfl 100 (1 / 24)
  exact ⟨c, hc, hnz, d, hd,
    C156_limit R H.keys hc H.kept ⟨.inl rfl, .inl rfl⟩ rfl hera hnn hz0 100 idealEnv recAll d hd,
    fun m => C156_hourly R H.keys hc H.kept ⟨.inl rfl, .inl rfl⟩ rfl hera hnn hz0 100 idealEnv recAll m _ (hd m)⟩

end

end UTide.Props
