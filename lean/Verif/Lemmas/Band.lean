import Verif.Model.Periodogram
import Mathlib.Data.List.GetD
import Mathlib.Tactic.Linarith
import Mathlib.Tactic.FieldSimp
import Mathlib.Tactic.Ring
import Mathlib.Tactic.Positivity

/-!
# Frequency bands as sets of positions
-/

namespace UTide

noncomputable section

open Classical

/-- Positions before the insertion point of `f` are those of the smaller frequencies. -/
theorem lt_searchsorted (freq : List ℝ) (h : freq.Pairwise (· ≤ ·)) (f : ℝ) (i : ℕ) (hi : i < freq.length) :
    i < searchsorted freq f ↔ freq[i] < f := by
  unfold searchsorted
  induction freq generalizing i with
  | nil => simp at hi
  | cons a l ih =>
    rw [List.pairwise_cons] at h
    by_cases ha : a < f
    · rw [List.takeWhile_cons_of_pos (by simpa using ha)]
      cases i with
      | zero => simp [ha]
      | succ i => simpa using ih h.2 i (by simpa using hi)
    · rw [List.takeWhile_cons_of_neg (by simpa using ha)]
      cases i with
      | zero => simp [ha]
      | succ i =>
        have : a ≤ l[i]'(by simpa using hi) := h.1 _ (List.getElem_mem _)
        have ha' : f ≤ a := not_lt.mp ha
        simp only [List.length_nil, not_lt_zero, List.getElem_cons_succ, false_iff, not_lt]
        linarith

theorem searchsorted_le (freq : List ℝ) (f : ℝ) : searchsorted freq f ≤ freq.length :=
  (List.takeWhile_sublist _).length_le

/-- The insertion point is the first position that is not smaller. -/
theorem searchsorted_le_iff (freq : List ℝ) (h : freq.Pairwise (· ≤ ·)) (f : ℝ) (i : ℕ) (hi : i < freq.length) :
    searchsorted freq f ≤ i ↔ f ≤ freq[i] := by
  rw [← not_lt, lt_searchsorted freq h f i hi, not_lt]

/-- `i ≤ insertion point` says that all earlier frequencies are smaller. -/
theorem le_searchsorted (freq : List ℝ) (h : freq.Pairwise (· ≤ ·)) (f : ℝ) (i : ℕ) (hi : i < freq.length) :
    i ≤ searchsorted freq f ↔ ∀ j (hj : j < i), freq[j]'(hj.trans hi) < f := by
  constructor
  · intro hle j hj
    exact (lt_searchsorted freq h f j (hj.trans hi)).1 (lt_of_lt_of_le hj hle)
  · intro hall
    by_contra hc
    have hc := not_le.mp hc
    have := (lt_searchsorted freq h f _ (hc.trans hi)).2 (hall _ hc)
    exact lt_irrefl _ this

/-- The positions whose values enter the mean of a band. -/
def usedIdx (freq : List ℝ) (masked : List ℕ) (b : ℚ × ℚ) : List ℕ :=
  (((List.range freq.length).take (bandSlice freq b).2).drop (bandSlice freq b).1).filter
    fun i => decide (i ∉ masked)

theorem bandValues_eq (P : List ℂ) (freq : List ℝ) (masked : List ℕ) (b : ℚ × ℚ) (h : P.length = freq.length) :
    bandValues P freq masked b = (usedIdx freq masked b).map fun i => P.getD i 0 := by
  unfold bandValues usedIdx
  have hz : P.zipIdx = (List.range freq.length).map fun i => (P.getD i 0, i) := by
    apply List.ext_getElem
    · simp [h]
    · intro i h1 h2
      have : i < P.length := by simpa using h1
      simp [List.getD_eq_getElem, this]
  simp only [hz, ← List.map_take, ← List.map_drop, List.filter_map, List.map_map]
  rfl

theorem usedIdx_nodup (freq : List ℝ) (masked : List ℕ) (b : ℚ × ℚ) : (usedIdx freq masked b).Nodup :=
  (((List.nodup_range.sublist (List.take_sublist _ _)).sublist (List.drop_sublist _ _)).filter _)

theorem mem_take_drop_range (n a b i : ℕ) :
    i ∈ ((List.range n).take b).drop a ↔ a ≤ i ∧ i < b ∧ i < n := by
  rw [List.mem_iff_getElem]
  constructor
  · rintro ⟨k, hk, rfl⟩
    simp only [List.length_drop, List.length_take, List.length_range] at hk
    simp only [List.getElem_drop, List.getElem_take, List.getElem_range]
    omega
  · rintro ⟨h1, h2, h3⟩
    refine ⟨i - a, ?_, ?_⟩
    · simp only [List.length_drop, List.length_take, List.length_range]; omega
    · simp only [List.getElem_drop, List.getElem_take, List.getElem_range]; omega

theorem mem_usedIdx (freq : List ℝ) (masked : List ℕ) (b : ℚ × ℚ) (i : ℕ) :
    i ∈ usedIdx freq masked b ↔
      (searchsorted freq b.1 ≤ i ∧ i ≤ searchsorted freq b.2 ∧ i < freq.length) ∧ i ∉ masked := by
  unfold usedIdx bandSlice
  rw [List.mem_filter, mem_take_drop_range]
  simp only [decide_eq_true_eq]
  constructor
  · rintro ⟨⟨h1, h2, h3⟩, h4⟩; exact ⟨⟨h1, by omega, h3⟩, h4⟩
  · rintro ⟨⟨h1, h2, h3⟩, h4⟩; exact ⟨⟨h1, by omega, h3⟩, h4⟩

/-! ## Nearest positions -/

theorem roundHalfEven_near (x : ℝ) : |(roundHalfEven x : ℝ) - x| ≤ 1 / 2 := by
  unfold roundHalfEven
  dsimp only
  have h1 := Int.floor_le x
  have h2 := Int.lt_floor_add_one x
  split_ifs <;> rw [abs_le] <;> push_cast <;> constructor <;> linarith

theorem roundHalfEven_int (k : ℤ) : roundHalfEven (k : ℝ) = k := by
  unfold roundHalfEven
  simp

/-- Interpolating the positions: between two neighbouring frequencies, or constant outside. -/
theorem interp_pos (freq : List ℝ) (hs : freq.Pairwise (· ≤ ·)) (f : ℝ) (hne : freq ≠ []) (k : ℕ) :
    (∃ i, ∃ h : i < freq.length, interp f ((freq.zipIdx k).map fun p => (p.1, (p.2 : ℝ))) = ((i + k : ℕ) : ℝ) ∧
        ∀ j (hj : j < freq.length), |freq[i] - f| ≤ |freq[j] - f|) ∨
    (∃ i, ∃ h : i + 1 < freq.length, freq[i] < f ∧ f < freq[i + 1] ∧
      interp f ((freq.zipIdx k).map fun p => (p.1, (p.2 : ℝ))) =
        ((i + k : ℕ) : ℝ) + (f - freq[i]) / (freq[i + 1] - freq[i])) := by
  induction freq generalizing k with
  | nil => exact absurd rfl hne
  | cons a l ih =>
    cases l with
    | nil =>
      left
      refine ⟨0, by simp, by simp [interp], ?_⟩
      intro j hj
      have : j = 0 := by simpa using hj
      subst this; exact le_refl _
    | cons c l =>
      have hs' := hs
      rw [List.pairwise_cons] at hs
      by_cases h1 : f < a
      · left
        refine ⟨0, by simp, by simp [interp, h1], ?_⟩
        intro j hj
        have hge : a ≤ (a :: c :: l)[j] := by
          cases j with
          | zero => simp
          | succ j => exact hs.1 _ (List.getElem_mem _)
        simp only [List.getElem_cons_zero]
        rw [abs_of_nonneg (by linarith), abs_of_nonneg (by linarith)]
        linarith
      · have h1' := not_lt.mp h1
        by_cases h2 : f < c
        · rcases h1'.eq_or_lt with rfl | h1'
          · left
            refine ⟨0, by simp, by simp [interp, h2], fun j hj => ?_⟩
            simp
          right
          refine ⟨0, by simp, by simpa using h1', by simpa using h2, ?_⟩
          simp only [List.zipIdx_cons, List.map_cons, interp, if_neg h1, if_pos h2]
          push_cast
          simp only [List.getElem_cons_zero, List.getElem_cons_succ]
          ring
        · have hrec := ih hs.2 (by simp) (k + 1)
          have e : interp f (((a :: c :: l).zipIdx k).map fun p => (p.1, (p.2 : ℝ))) =
              interp f (((c :: l).zipIdx (k + 1)).map fun p => (p.1, (p.2 : ℝ))) := by
            simp only [List.zipIdx_cons, List.map_cons]
            rw [interp, if_neg h1, if_neg h2]
          rw [e]
          rcases hrec with ⟨i, hi, h3, h4⟩ | ⟨i, hi, h3, h4, h5⟩
          · left
            refine ⟨i + 1, by simpa using hi, by rw [h3]; congr 1; omega, ?_⟩
            intro j hj
            simp only [List.getElem_cons_succ]
            cases j with
            | succ j => simpa using h4 j (by simpa using hj)
            | zero =>
              have h5 := h4 0 (by simp)
              have hca : a ≤ c := hs.1 c (by simp)
              have hcf := not_lt.mp h2
              simp only [List.getElem_cons_zero] at h5 ⊢
              refine h5.trans ?_
              rw [abs_of_nonpos (by linarith), abs_of_nonpos (by linarith)]
              linarith
          · right
            refine ⟨i + 1, by simpa using hi, by simpa using h3, by simpa using h4, ?_⟩
            rw [h5]
            simp only [List.getElem_cons_succ]
            congr 2
            omega

/-- The position excluded for a constituent is a nearest one. -/
theorem nearestIndex_spec (freq : List ℝ) (hs : freq.Pairwise (· ≤ ·)) (f : ℝ) (hne : freq ≠ []) :
    ∃ h : nearestIndex freq f < freq.length,
      ∀ j (hj : j < freq.length), |freq[nearestIndex freq f] - f| ≤ |freq[j] - f| := by
  have key : ∀ i : ℕ, ∀ hi : i < freq.length, roundHalfEven
      (interp f (freq.zipIdx.map fun p => (p.1, (p.2 : ℝ)))) = i →
      (∀ j (hj : j < freq.length), |freq[i] - f| ≤ |freq[j] - f|) →
      ∃ h : nearestIndex freq f < freq.length,
      ∀ j (hj : j < freq.length), |freq[nearestIndex freq f] - f| ≤ |freq[j] - f| := by
    intro i hi he hall
    have : nearestIndex freq f = i := by
      unfold nearestIndex
      simp only [he]
      omega
    simp only [this]
    exact ⟨hi, hall⟩
  rcases interp_pos freq hs f hne 0 with ⟨i, hi, h1, h2⟩ | ⟨i, hi, h1, h2, h3⟩
  · refine key i hi ?_ h2
    rw [h1]
    exact_mod_cast roundHalfEven_int (i : ℤ)
  · -- a frequency on the left of `i` or right of `i+1` is no nearer
    have hmono : ∀ j k (hk : k < freq.length) (hjk : j ≤ k), freq[j]'(lt_of_le_of_lt hjk hk) ≤ freq[k] := by
      intro j k hk hjk
      rcases Nat.lt_or_eq_of_le hjk with h | h
      · exact List.pairwise_iff_getElem.1 hs j k _ hk h
      · subst h; exact le_refl _
    set d := freq[i + 1] - freq[i] with hd
    have hdpos : 0 < d := by linarith
    set x := (f - freq[i]) / d with hx
    have hx0 : 0 < x := div_pos (by linarith) hdpos
    have hx1 : x < 1 := by rw [hx, div_lt_one hdpos]; linarith
    have hxd : f - freq[i] = x * d := by rw [hx]; field_simp
    have hn := roundHalfEven_near (interp f (freq.zipIdx.map fun p => (p.1, (p.2 : ℝ))))
    have hcase : roundHalfEven (interp f (freq.zipIdx.map fun p => (p.1, (p.2 : ℝ)))) = i ∨
        roundHalfEven (interp f (freq.zipIdx.map fun p => (p.1, (p.2 : ℝ)))) = ((i + 1 : ℕ) : ℤ) := by
      rw [h3] at hn ⊢
      generalize roundHalfEven _ = r at hn ⊢
      rw [abs_le] at hn
      push_cast at hn ⊢
      have ha : (i : ℝ) - 1 < r := by linarith
      have hb : (r : ℝ) < i + 2 := by linarith
      have ha' : (i : ℤ) - 1 < r := by exact_mod_cast ha
      have hb' : r < (i : ℤ) + 2 := by exact_mod_cast hb
      omega
    rcases hcase with hc | hc
    · refine key i (by omega) hc ?_
      rw [hc, h3, abs_le] at hn
      push_cast at hn
      have hx2 : x ≤ 1 / 2 := by linarith
      intro j hj
      rw [abs_of_nonpos (by linarith)]
      rcases Nat.lt_or_ge i j with hij | hij
      · have := hmono (i + 1) j hj hij
        rw [abs_of_nonneg (by linarith)]
        nlinarith
      · have := hmono j i (by omega) hij
        rw [abs_of_nonpos (by linarith)]
        linarith
    · refine key (i + 1) hi hc ?_
      rw [hc, h3, abs_le] at hn
      push_cast at hn
      have hx2 : 1 / 2 ≤ x := by linarith
      intro j hj
      rw [abs_of_nonneg (by linarith)]
      rcases Nat.lt_or_ge i j with hij | hij
      · have := hmono (i + 1) j hj hij
        rw [abs_of_nonneg (by linarith)]
        linarith
      · have := hmono j i (by omega) hij
        rw [abs_of_nonpos (by linarith)]
        nlinarith

end

end UTide
