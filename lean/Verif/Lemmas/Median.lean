import Verif.Model.Num
import Mathlib.Data.List.Sort
import Mathlib.Data.List.GetD

/-!
# Medians of short arrays, bounds
-/

namespace UTide

noncomputable section

open Classical

theorem sort_eq (l s : List ℝ) (hp : l.Perm s) (hs : s.Pairwise (· ≤ ·)) :
    l.mergeSort (fun a b => decide (a ≤ b)) = s := by
  refine List.Perm.eq_of_pairwise (le := (· ≤ ·)) (fun a b _ _ h1 h2 => le_antisymm h1 h2) ?_ hs
    ((List.mergeSort_perm _ _).trans hp)
  have := List.pairwise_mergeSort (le := fun a b : ℝ => decide (a ≤ b))
    (by intro a b c h1 h2; simp only [decide_eq_true_eq] at *; exact le_trans h1 h2)
    (by intro a b; simpa using le_total a b) l
  simpa using this

theorem median_eq (l s : List ℝ) (hp : l.Perm s) (hs : s.Pairwise (· ≤ ·)) : median l = middle s := by
  unfold median; rw [sort_eq l s hp hs]

theorem sort_length (l : List ℝ) : (l.mergeSort fun a b => decide (a ≤ b)).length = l.length :=
  (List.mergeSort_perm _ _).length_eq

theorem sort_pairwise (l : List ℝ) : (l.mergeSort fun a b => decide (a ≤ b)).Pairwise (· ≤ ·) := by
  have := List.pairwise_mergeSort (le := fun a b : ℝ => decide (a ≤ b))
    (by intro a b c h1 h2; simp only [decide_eq_true_eq] at *; exact le_trans h1 h2)
    (by intro a b; simpa using le_total a b) l
  simpa using this

theorem middle_map_add (l : List ℝ) (h : l ≠ []) (d : ℝ) : middle (l.map (· + d)) = middle l + d := by
  have hl : 0 < l.length := List.length_pos_iff.2 h
  have key : ∀ i, i < l.length → (l.map (· + d)).getD i 0 = l.getD i 0 + d := by
    intro i hi
    rw [List.getD_eq_getElem _ _ (by simpa using hi), List.getD_eq_getElem _ _ hi, List.getElem_map]
  unfold middle
  rw [List.length_map]
  split
  · exact key _ (by omega)
  · rw [key _ (by omega), key _ (by omega)]; ring

theorem median_map_add (l : List ℝ) (h : l ≠ []) (d : ℝ) : median (l.map (· + d)) = median l + d := by
  rw [median_eq (l.map (· + d)) ((l.mergeSort fun a b => decide (a ≤ b)).map (· + d))
    ((List.mergeSort_perm _ _).symm.map _) ?_, middle_map_add]
  · rfl
  · intro h0
    have := sort_length l
    rw [h0] at this
    exact h (List.length_eq_zero_iff.1 this.symm)
  · rw [List.pairwise_map]
    exact (sort_pairwise l).imp fun h => by linarith

theorem getD_of_forall (P : ℝ → Prop) (l : List ℝ) (h0 : P 0) (h : ∀ x ∈ l, P x) (i : ℕ) : P (l.getD i 0) := by
  by_cases hi : i < l.length
  · rw [List.getD_eq_getElem _ _ hi]; exact h _ (List.getElem_mem _)
  · rw [List.getD_eq_default _ _ (by omega)]; exact h0

theorem median_nonneg (l : List ℝ) (h : ∀ x ∈ l, 0 ≤ x) : 0 ≤ median l := by
  have hs : ∀ x ∈ l.mergeSort (fun a b => decide (a ≤ b)), 0 ≤ x := fun x hx =>
    h x ((List.mergeSort_perm _ _).mem_iff.1 hx)
  unfold median middle
  have key := getD_of_forall (0 ≤ ·) _ le_rfl hs
  split
  · exact key _
  · exact div_nonneg (add_nonneg (key _) (key _)) (by norm_num)

end

end UTide
