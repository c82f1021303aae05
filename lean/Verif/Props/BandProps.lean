import Verif.Lemmas.Band
import Verif.Model.Confidence
import Verif.Model.Constants
import Mathlib.Tactic.NormNum
import Mathlib.Tactic.IntervalCases
import Mathlib.Algebra.Order.BigOperators.Group.Finset
import Mathlib.Algebra.BigOperators.Field

/-!
# C58, C59, C62, C63: noise bands, band averages and the Lomb-Scargle grid
-/

namespace UTide

namespace Props

noncomputable section

open Classical

/-- Specification: the nine noise bands in cycles per hour, lower and upper edge. -/
def noiseBands : List (ℝ × ℝ) :=
  [(0.0001, 0.00417), (0.03192, 0.04859), (0.07218, 0.08884), (0.11243, 0.1291), (0.15269, 0.16936),
   (0.19295, 0.20961), (0.2332, 0.251), (0.26, 0.29), (0.3, 0.5)]

theorem bands_eq : (freqBands.map fun b => ((b.1 : ℝ), (b.2 : ℝ))) = noiseBands := by
  unfold freqBands noiseBands
  simp only [List.map_cons, List.map_nil]
  norm_num

theorem bands_getElem (k : ℕ) (b : ℝ × ℝ) (h : noiseBands[k]? = some b) :
    ∃ q, freqBands[k]? = some q ∧ b = ((q.1 : ℝ), (q.2 : ℝ)) := by
  rw [← bands_eq, List.getElem?_map, Option.map_eq_some_iff] at h
  obtain ⟨q, h1, h2⟩ := h
  exact ⟨q, h1, h2.symm⟩

/-- Specification: position `i` is (one of) the nearest of the frequencies to `f`. -/
def Nearest (freq : List ℝ) (f : ℝ) (i : ℕ) : Prop :=
  i < freq.length ∧ ∀ j < freq.length, |freq.getD i 0 - f| ≤ |freq.getD j 0 - f|

/-- Specification: the positions a band reaches: from its lower edge up to and including the first frequency that
is not below its upper edge. -/
def reach (freq : List ℝ) (b : ℝ × ℝ) : Finset ℕ :=
  (Finset.range freq.length).filter fun i => b.1 ≤ freq.getD i 0 ∧ ∀ j < i, freq.getD j 0 < b.2

/-- Specification: the positions inside a band. -/
def inside (freq : List ℝ) (b : ℝ × ℝ) : Finset ℕ :=
  (Finset.range freq.length).filter fun i => b.1 ≤ freq.getD i 0 ∧ freq.getD i 0 ≤ b.2

/-- Specification: the mean over a set of positions; NaN if there are none. -/
def meanOver (P : List ℂ) (S : Finset ℕ) : Option ℂ :=
  if S = ∅ then none else some ((∑ i ∈ S, P.getD i 0) / S.card)

theorem meanOver_list (P : List ℂ) (l : List ℕ) (h : l.Nodup) :
    bandMean (l.map fun i => P.getD i 0) = meanOver P l.toFinset := by
  unfold bandMean meanOver
  rw [List.sum_toFinset _ h, List.toFinset_card_of_nodup h]
  by_cases hl : l = []
  · simp [hl]
  · rw [if_neg (by simpa using hl), if_neg (by simpa using hl)]
    simp

theorem used_eq (freq : List ℝ) (hs : freq.Pairwise (· ≤ ·)) (masked : List ℕ) (q : ℚ × ℚ) :
    (usedIdx freq masked q).toFinset = reach freq ((q.1 : ℝ), (q.2 : ℝ)) \ masked.toFinset := by
  ext i
  rw [List.mem_toFinset, mem_usedIdx, Finset.mem_sdiff, List.mem_toFinset]
  refine and_congr_left fun _ => ?_
  unfold reach
  rw [Finset.mem_filter, Finset.mem_range]
  constructor
  · rintro ⟨h1, h2, h3⟩
    refine ⟨h3, ?_, ?_⟩
    · rw [List.getD_eq_getElem _ _ h3]
      exact (searchsorted_le_iff freq hs _ i h3).1 h1
    · intro j hj
      rw [List.getD_eq_getElem _ _ (hj.trans h3)]
      exact (le_searchsorted freq hs _ i h3).1 h2 j hj
  · rintro ⟨h3, h1, h2⟩
    rw [List.getD_eq_getElem _ _ h3] at h1
    refine ⟨(searchsorted_le_iff freq hs _ i h3).2 h1, (le_searchsorted freq hs _ i h3).2 ?_, h3⟩
    intro j hj
    have := h2 j hj
    rwa [List.getD_eq_getElem _ _ (hj.trans h3)] at this

/-- Specification: what is excluded: for every constituent one nearest position, and nothing else. -/
structure Excluded (freq cfreq : List ℝ) (excl : Finset ℕ) : Prop where
  each : ∀ f ∈ cfreq, ∃ i ∈ excl, Nearest freq f i
  only : ∀ i ∈ excl, ∃ f ∈ cfreq, Nearest freq f i
  card : excl.card ≤ cfreq.length

/-- **C58.** For an ordered, non-empty frequency grid there is a set of excluded positions, depending on the grid
and the constituents only, such that for every periodogram each of the nine values is the mean of the periodogram
over the positions the band reaches without the excluded ones, NaN if there are none. -/
theorem C58_mean (freq cfreq : List ℝ) (hs : freq.Pairwise (· ≤ ·)) (hne : freq ≠ []) :
    ∃ excl, Excluded freq cfreq excl ∧ ∀ P : List ℂ, P.length = freq.length →
      ∃ avs, fbndavg P freq cfreq = .ok avs ∧ avs.length = noiseBands.length ∧
        ∀ (k : ℕ) b, noiseBands[k]? = some b → avs[k]? = some (meanOver P (reach freq b \ excl)) := by
  refine ⟨(cfreq.map (nearestIndex freq)).toFinset, ⟨?_, ?_, ?_⟩, ?_⟩
  · intro f hf
    refine ⟨nearestIndex freq f, by simpa using ⟨f, hf, rfl⟩, ?_⟩
    obtain ⟨h, h2⟩ := nearestIndex_spec freq hs f hne
    refine ⟨h, fun j hj => ?_⟩
    rw [List.getD_eq_getElem _ _ h, List.getD_eq_getElem _ _ hj]
    exact h2 j hj
  · intro i hi
    obtain ⟨f, hf, rfl⟩ : ∃ f ∈ cfreq, nearestIndex freq f = i := by simpa using hi
    refine ⟨f, hf, ?_⟩
    obtain ⟨h, h2⟩ := nearestIndex_spec freq hs f hne
    refine ⟨h, fun j hj => ?_⟩
    rw [List.getD_eq_getElem _ _ h, List.getD_eq_getElem _ _ hj]
    exact h2 j hj
  · exact (List.toFinset_card_le _).trans (by simp)
  · intro P hP
    refine ⟨_, by unfold fbndavg; rw [if_neg hne], ?_, ?_⟩
    · rw [← bands_eq]; simp
    · intro k b hb
      obtain ⟨q, hq, rfl⟩ := bands_getElem k b hb
      rw [List.getElem?_map, hq, Option.map_some, bandValues_eq _ _ _ _ hP,
        meanOver_list _ _ (usedIdx_nodup _ _ _), used_eq _ hs]

/-- A mean of real numbers lies between two of them. -/
theorem meanOver_between (P : List ℂ) (S : Finset ℕ) (v : ℂ) (h : meanOver P S = some v)
    (hreal : ∀ i ∈ S, (P.getD i 0).im = 0) :
    v.im = 0 ∧ ∃ i ∈ S, ∃ j ∈ S, (P.getD i 0).re ≤ v.re ∧ v.re ≤ (P.getD j 0).re := by
  unfold meanOver at h
  by_cases hS : S = ∅
  · simp [hS] at h
  rw [if_neg hS, Option.some.injEq] at h
  have hne : S.Nonempty := Finset.nonempty_iff_ne_empty.mpr hS
  have hcard : (0 : ℝ) < S.card := by exact_mod_cast Finset.card_pos.mpr hne
  have hv : v = (((∑ i ∈ S, (P.getD i 0).re) / S.card : ℝ) : ℂ) := by
    rw [← h]
    push_cast
    congr 1
    refine Finset.sum_congr rfl fun i hi => ?_
    apply Complex.ext
    · simp
    · simpa using hreal i hi
  refine ⟨by rw [hv]; simp, ?_⟩
  obtain ⟨i, hi, hmin⟩ := Finset.exists_min_image S (fun i => (P.getD i 0).re) hne
  obtain ⟨j, hj, hmax⟩ := Finset.exists_max_image S (fun i => (P.getD i 0).re) hne
  refine ⟨i, hi, j, hj, ?_, ?_⟩
  · rw [hv, Complex.ofReal_re, le_div_iff₀ hcard, mul_comm]
    simpa [nsmul_eq_mul] using Finset.card_nsmul_le_sum S _ _ hmin
  · rw [hv, Complex.ofReal_re, div_le_iff₀ hcard, mul_comm]
    simpa [nsmul_eq_mul] using Finset.sum_le_card_nsmul S _ _ hmax

theorem meanOver_linear (P Q : List ℂ) (a b : ℂ) (hl : P.length = Q.length) (S : Finset ℕ) :
    meanOver (List.zipWith (fun x y => a * x + b * y) P Q) S =
      (meanOver P S).bind fun x => (meanOver Q S).map fun y => a * x + b * y := by
  unfold meanOver
  by_cases hS : S = ∅
  · simp [hS]
  · rw [if_neg hS, if_neg hS, if_neg hS]
    simp only [Option.bind_some, Option.map_some, Option.some.injEq]
    rw [show a * ((∑ i ∈ S, P.getD i 0) / S.card) + b * ((∑ i ∈ S, Q.getD i 0) / S.card) =
      (a * (∑ i ∈ S, P.getD i 0) + b * (∑ i ∈ S, Q.getD i 0)) / S.card by ring]
    congr 1
    rw [Finset.mul_sum, Finset.mul_sum, ← Finset.sum_add_distrib]
    refine Finset.sum_congr rfl fun i _ => ?_
    by_cases hi : i < P.length
    · have hi' : i < Q.length := hl ▸ hi
      rw [List.getD_eq_getElem P _ hi, List.getD_eq_getElem Q _ hi',
        List.getD_eq_getElem _ _ (by simp [hi, hi'])]
      simp
    · have hi' : Q.length ≤ i := hl ▸ not_lt.mp hi
      rw [List.getD_eq_default P _ (not_lt.mp hi), List.getD_eq_default Q _ hi',
        List.getD_eq_default _ _ (by simp [hi'])]
      simp

/-- **C58, linearity.** The band averages of `a P + b Q` are the combinations of the band averages; NaN where they
are NaN. -/
theorem C58_linear (freq cfreq : List ℝ) (hs : freq.Pairwise (· ≤ ·)) (hne : freq ≠ []) (P Q : List ℂ) (a b : ℂ)
    (hP : P.length = freq.length) (hQ : Q.length = freq.length) :
    ∃ x y z, fbndavg P freq cfreq = .ok x ∧ fbndavg Q freq cfreq = .ok y ∧
      fbndavg (List.zipWith (fun p q => a * p + b * q) P Q) freq cfreq = .ok z ∧
      z.length = noiseBands.length ∧
      ∀ k < noiseBands.length, ∃ u v, x[k]? = some u ∧ y[k]? = some v ∧
        z[k]? = some (u.bind fun s => v.map fun t => a * s + b * t) := by
  obtain ⟨excl, -, hall⟩ := C58_mean freq cfreq hs hne
  obtain ⟨x, hx, -, hx2⟩ := hall P hP
  obtain ⟨y, hy, -, hy2⟩ := hall Q hQ
  obtain ⟨z, hz, hzl, hz2⟩ := hall (List.zipWith (fun p q => a * p + b * q) P Q) (by simp [hP, hQ])
  refine ⟨x, y, z, hx, hy, hz, hzl, fun k hk => ?_⟩
  have hb : noiseBands[k]? = some (noiseBands[k]) := List.getElem?_eq_getElem hk
  refine ⟨_, _, hx2 k _ hb, hy2 k _ hb, ?_⟩
  rw [hz2 k _ hb, meanOver_linear P Q a b (hP.trans hQ.symm)]

/-- **C58, bounds.** For a real periodogram every band value is real and lies between the values at two positions
reached by the band and not excluded; a band without usable positions is NaN. -/
theorem C58_between (freq cfreq : List ℝ) (hs : freq.Pairwise (· ≤ ·)) (hne : freq ≠ []) (P : List ℂ)
    (hP : P.length = freq.length) (hreal : ∀ z ∈ P, z.im = 0) :
    ∃ excl avs, Excluded freq cfreq excl ∧ fbndavg P freq cfreq = .ok avs ∧
      ∀ (k : ℕ) b, noiseBands[k]? = some b →
        (reach freq b \ excl = ∅ → avs[k]? = some none) ∧
        (reach freq b \ excl ≠ ∅ → ∃ v : ℝ, avs[k]? = some (some (v : ℂ)) ∧
          ∃ i ∈ reach freq b \ excl, ∃ j ∈ reach freq b \ excl, (P.getD i 0).re ≤ v ∧ v ≤ (P.getD j 0).re) := by
  obtain ⟨excl, hex, hall⟩ := C58_mean freq cfreq hs hne
  obtain ⟨avs, hx, -, hx2⟩ := hall P hP
  refine ⟨excl, avs, hex, hx, fun k b hb => ⟨fun he => ?_, fun he => ?_⟩⟩
  · rw [hx2 k b hb, he]; simp [meanOver]
  · have hm : ∃ v, meanOver P (reach freq b \ excl) = some v := ⟨_, if_neg he⟩
    obtain ⟨v, hv⟩ := hm
    have hr : ∀ i ∈ reach freq b \ excl, (P.getD i 0).im = 0 := by
      intro i hi
      have : i < P.length := by
        rw [hP]
        have := (Finset.mem_sdiff.1 hi).1
        unfold reach at this
        exact Finset.mem_range.1 (Finset.mem_filter.1 this).1
      rw [List.getD_eq_getElem _ _ this]
      exact hreal _ (List.getElem_mem _)
    obtain ⟨h0, i, hi, j, hj, h1, h2⟩ := meanOver_between P _ v hv hr
    refine ⟨v.re, ?_, i, hi, j, hj, h1, h2⟩
    rw [hx2 k b hb, hv]
    congr 2
    apply Complex.ext
    · simp
    · simpa using h0

/-! ## C59 -/

/-- **C59**, as stated: the band value is the mean over the frequencies inside the band (without the excluded
ones). -/
def C59_full : Prop :=
  ∀ (freq cfreq : List ℝ), freq.Pairwise (· < ·) → freq ≠ [] → ∃ excl, Excluded freq cfreq excl ∧
    ∀ P : List ℂ, P.length = freq.length → ∃ avs, fbndavg P freq cfreq = .ok avs ∧
      ∀ (k : ℕ) b, noiseBands[k]? = some b → avs[k]? = some (meanOver P (inside freq b \ excl))

/-- What the code does in addition: one frequency above the upper edge. -/
theorem reach_eq (freq : List ℝ) (hs : freq.Pairwise (· < ·)) (b : ℝ × ℝ) :
    ∃ extra : Finset ℕ, reach freq b = inside freq b ∪ extra ∧ extra.card ≤ 1 ∧
      (∀ i ∈ extra, i < freq.length ∧ b.2 < freq.getD i 0 ∧ ∀ j < freq.length, b.2 < freq.getD j 0 → i ≤ j) ∧
      ((∀ f ∈ freq, f ≤ b.2) → extra = ∅) := by
  have hmono : ∀ i j, i < j → j < freq.length → freq.getD i 0 < freq.getD j 0 := by
    intro i j hij hj
    rw [List.getD_eq_getElem _ _ (hij.trans hj), List.getD_eq_getElem _ _ hj]
    exact List.pairwise_iff_getElem.1 hs i j _ hj hij
  refine ⟨reach freq b \ inside freq b, ?_, ?_, ?_, ?_⟩
  · have hsub : inside freq b ⊆ reach freq b := by
      intro i hi
      unfold inside at hi
      unfold reach
      rw [Finset.mem_filter, Finset.mem_range] at hi ⊢
      exact ⟨hi.1, hi.2.1, fun j hj => lt_of_lt_of_le (hmono j i hj hi.1) hi.2.2⟩
    rw [Finset.union_sdiff_of_subset hsub]
  · rw [Finset.card_le_one]
    intro i hi j hj
    unfold reach inside at hi hj
    simp only [Finset.mem_sdiff, Finset.mem_filter, Finset.mem_range, not_and, not_le] at hi hj
    by_contra hne
    rcases Nat.lt_or_gt_of_ne hne with h | h
    · exact absurd (hj.1.2.2 i h) (not_lt.mpr (hi.2 hi.1.1 hi.1.2.1).le)
    · exact absurd (hi.1.2.2 j h) (not_lt.mpr (hj.2 hj.1.1 hj.1.2.1).le)
  · intro i hi
    unfold reach inside at hi
    simp only [Finset.mem_sdiff, Finset.mem_filter, Finset.mem_range, not_and, not_le] at hi
    refine ⟨hi.1.1, hi.2 hi.1.1 hi.1.2.1, fun j hj hjb => ?_⟩
    by_contra h
    exact absurd (hi.1.2.2 j (not_le.mp h)) (not_lt.mpr hjb.le)
  · intro hall
    rw [Finset.sdiff_eq_empty_iff_subset]
    intro i hi
    unfold reach at hi
    unfold inside
    rw [Finset.mem_filter, Finset.mem_range] at hi ⊢
    refine ⟨hi.1, hi.2.1, hall _ ?_⟩
    rw [List.getD_eq_getElem _ _ hi.1]
    exact List.getElem_mem _

/-- **C59, what holds.** The value is the mean over the frequencies inside the band and at most one more, the
first above the upper edge; if no frequency of the grid exceeds the upper edge, over the frequencies inside. -/
theorem C59_partial (freq cfreq : List ℝ) (hs : freq.Pairwise (· < ·)) (hne : freq ≠ []) :
    ∃ excl, Excluded freq cfreq excl ∧ ∀ P : List ℂ, P.length = freq.length →
      ∃ avs, fbndavg P freq cfreq = .ok avs ∧
        ∀ (k : ℕ) b, noiseBands[k]? = some b → ∃ extra : Finset ℕ,
          avs[k]? = some (meanOver P ((inside freq b ∪ extra) \ excl)) ∧ extra.card ≤ 1 ∧
          (∀ i ∈ extra, i < freq.length ∧ b.2 < freq.getD i 0 ∧
            ∀ j < freq.length, b.2 < freq.getD j 0 → i ≤ j) ∧
          ((∀ f ∈ freq, f ≤ b.2) → extra = ∅) := by
  obtain ⟨excl, hex, hall⟩ := C58_mean freq cfreq (hs.imp le_of_lt) hne
  refine ⟨excl, hex, fun P hP => ?_⟩
  obtain ⟨avs, h1, -, h2⟩ := hall P hP
  refine ⟨avs, h1, fun k b hb => ?_⟩
  obtain ⟨extra, he, hc, hx, hy⟩ := reach_eq freq hs b
  exact ⟨extra, by rw [h2 k b hb, he], hc, hx, hy⟩

/-- The grid of the counterexample and examples: one frequency in the first band, one above it, one at a
semidiurnal constituent. -/
def smallGrid : List ℝ := [0.001, 0.01, 0.08]

theorem smallGrid_sorted : smallGrid.Pairwise (· < ·) := by
  unfold smallGrid
  simp only [List.pairwise_cons, List.mem_cons, List.not_mem_nil, or_false, forall_eq_or_imp, forall_eq,
    IsEmpty.forall_iff, implies_true, List.Pairwise.nil, and_true]
  norm_num

theorem smallGrid_excl (excl : Finset ℕ) (h : Excluded smallGrid [0.0805] excl) : excl = {2} := by
  have key : ∀ i, Nearest smallGrid 0.0805 i → i = 2 := by
    rintro i ⟨h1, h2⟩
    have h3 := h2 2 (by simp [smallGrid])
    have h1' : i < 3 := by simpa [smallGrid] using h1
    interval_cases i
    · simp only [smallGrid, List.getD_cons_zero, List.getD_cons_succ] at h3
      norm_num [abs_of_nonpos, abs_of_neg] at h3
    · simp only [smallGrid, List.getD_cons_zero, List.getD_cons_succ] at h3
      norm_num [abs_of_nonpos, abs_of_neg] at h3
    · rfl
  ext i
  rw [Finset.mem_singleton]
  constructor
  · intro hi
    obtain ⟨f, hf, hn⟩ := h.only i hi
    rw [List.mem_singleton] at hf
    subst hf
    exact key i hn
  · rintro rfl
    obtain ⟨i, hi, hn⟩ := h.each _ (List.mem_singleton_self _)
    rwa [key i hn] at hi

theorem smallGrid_reach : reach smallGrid (0.0001, 0.00417) = {0, 1} := by
  ext i
  unfold reach
  rw [Finset.mem_filter, Finset.mem_range]
  simp only [Finset.mem_insert, Finset.mem_singleton]
  constructor
  · rintro ⟨h1, -, h2⟩
    have h1' : i < 3 := by simpa [smallGrid] using h1
    interval_cases i
    · simp
    · simp
    · have := h2 1 (by norm_num)
      simp only [smallGrid, List.getD_cons_zero, List.getD_cons_succ] at this
      norm_num at this
  · rintro (rfl | rfl)
    · refine ⟨by simp [smallGrid], ?_, by simp⟩
      simp only [smallGrid, List.getD_cons_zero]
      norm_num
    · refine ⟨by simp [smallGrid], ?_, ?_⟩
      · simp only [smallGrid, List.getD_cons_zero, List.getD_cons_succ]
        norm_num
      · intro j hj
        have : j = 0 := by omega
        subst this
        simp only [smallGrid, List.getD_cons_zero]
        norm_num

theorem smallGrid_inside : inside smallGrid (0.0001, 0.00417) = {0} := by
  ext i
  unfold inside
  rw [Finset.mem_filter, Finset.mem_range]
  simp only [Finset.mem_singleton]
  constructor
  · rintro ⟨h1, -, h2⟩
    have h1' : i < 3 := by simpa [smallGrid] using h1
    interval_cases i
    · rfl
    · simp only [smallGrid, List.getD_cons_zero, List.getD_cons_succ] at h2
      norm_num at h2
    · simp only [smallGrid, List.getD_cons_zero, List.getD_cons_succ] at h2
      norm_num at h2
  · rintro rfl
    refine ⟨by simp [smallGrid], ?_⟩
    simp only [smallGrid, List.getD_cons_zero]
    norm_num

/-- The value the code returns on the small grid for the first band with periodogram `(0, 2, 5)`: the mean `1` of
the first two values, although the second frequency lies far above the band. -/
theorem smallGrid_value : ∃ avs, fbndavg [0, 2, 5] smallGrid [0.0805] = .ok avs ∧ avs[0]? = some (some 1) := by
  obtain ⟨excl, hex, hall⟩ := C58_mean smallGrid [0.0805] (smallGrid_sorted.imp le_of_lt) (by simp [smallGrid])
  obtain ⟨avs, h1, -, h2⟩ := hall [0, 2, 5] (by simp [smallGrid])
  refine ⟨avs, h1, ?_⟩
  have e : ({0, 1} \ {2} : Finset ℕ) = {0, 1} := by decide
  rw [h2 0 _ (by rfl), smallGrid_reach, smallGrid_excl excl hex, e]
  unfold meanOver
  rw [if_neg (by simp)]
  norm_num

/-- **C59 is false of the code.** -/
theorem C59_false : ¬ C59_full := by
  intro hfull
  obtain ⟨excl, hex, hall⟩ := hfull smallGrid [0.0805] smallGrid_sorted (by simp [smallGrid])
  obtain ⟨avs, h1, h2⟩ := hall [0, 2, 5] (by simp [smallGrid])
  obtain ⟨avs', h1', h2'⟩ := smallGrid_value
  rw [h1, Except.ok.injEq] at h1'
  subst h1'
  have e : ({0} \ {2} : Finset ℕ) = {0} := by decide
  rw [h2 0 _ (by rfl), smallGrid_inside, smallGrid_excl excl hex, e] at h2'
  unfold meanOver at h2'
  rw [if_neg (by simp)] at h2'
  norm_num at h2'

end

end Props

end UTide
