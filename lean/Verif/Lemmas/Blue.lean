import Verif.Lemmas.White
import Verif.Lemmas.Lstsq
import Mathlib.LinearAlgebra.Matrix.Rank

/-!
# Best linear unbiased estimators for a matrix with paired columns
-/

namespace UTide

noncomputable section

open Matrix Classical

local notation "conj" => starRingEnd ℂ

variable {n k : ℕ} {D : Matrix (Fin n) (Fin k) ℂ} {σ : Equiv.Perm (Fin k)}

/-- Coefficients that give a real curve. -/
def RealCoef (σ : Equiv.Perm (Fin k)) (f : Fin k → ℂ) : Prop := ∀ l, f (σ l) = conj (f l)

/-- The real curve. -/
def realCurve (D : Matrix (Fin n) (Fin k) ℂ) (f : Fin k → ℂ) (j : Fin n) : ℝ := ((D *ᵥ f) j).re

theorem Paired.curve_real (h : Paired D σ) {f : Fin k → ℂ} (hf : RealCoef σ f) (j : Fin n) :
    (D *ᵥ f) j = (realCurve D f j : ℂ) := by
  have : conj ((D *ᵥ f) j) = (D *ᵥ f) j := by
    simp only [mulVec, dotProduct, map_sum, map_mul]
    rw [← Equiv.sum_comp σ]
    refine Finset.sum_congr rfl fun l _ => ?_
    rw [h.pair, h.inv, hf l, Complex.conj_conj]
  obtain ⟨r, hr⟩ := Complex.conj_eq_iff_real.1 this
  unfold realCurve
  rw [hr]
  simp

theorem solver_curve (hd : (Dᴴ * D).det ≠ 0) (f : Fin k → ℂ) (i : Fin k) :
    ∑ j, solver D i j * (D *ᵥ f) j = f i := by
  have : (solver D *ᵥ (D *ᵥ f)) i = f i := by
    rw [Matrix.mulVec_mulVec, solver_mul hd, Matrix.one_mulVec]
  exact this

theorem Paired.cos_unbiased (h : Paired D σ) (hd : (Dᴴ * D).det ≠ 0) {f : Fin k → ℂ} (hf : RealCoef σ f) (i : Fin k) :
    ∑ j, cosForm D i j * realCurve D f j = 2 * (f i).re := by
  rw [← solver_curve hd f i, Complex.re_sum, Finset.mul_sum]
  refine Finset.sum_congr rfl fun j _ => ?_
  rw [h.curve_real hf, Complex.re_mul_ofReal]
  unfold cosForm
  ring

theorem Paired.sin_unbiased (h : Paired D σ) (hd : (Dᴴ * D).det ≠ 0) {f : Fin k → ℂ} (hf : RealCoef σ f) (i : Fin k) :
    ∑ j, sinForm D i j * realCurve D f j = -2 * (f i).im := by
  rw [← solver_curve hd f i, Complex.im_sum, Finset.mul_sum]
  refine Finset.sum_congr rfl fun j _ => ?_
  rw [h.curve_real hf, Complex.im_mul_ofReal]
  unfold sinForm
  ring

/-- The forms are themselves real curves. -/
theorem Paired.cos_curve (h : Paired D σ) (i : Fin k) :
    ∃ f, RealCoef σ f ∧ ∀ j, cosForm D i j = realCurve D f j := by
  refine ⟨fun l => UTide.invGram D i (σ l) + UTide.invGram D (σ i) (σ l), fun l => ?_, fun j => ?_⟩
  · have h1 := h.invGram i (σ l)
    have h2 := h.invGram i l
    have h3 := h.invGram (σ i) (σ l)
    rw [h.inv] at h1 h3
    rw [h.inv] at h3
    dsimp only
    rw [h.inv, map_add, ← h1, h2, Complex.conj_conj, add_comm]
  · unfold realCurve cosForm
    have e : (D *ᵥ fun l => UTide.invGram D i (σ l) + UTide.invGram D (σ i) (σ l)) j =
        UTide.solver D i j + UTide.solver D (σ i) j := by
      unfold UTide.solver
      simp only [mulVec, dotProduct, mul_apply, conjTranspose_apply]
      rw [← Finset.sum_add_distrib, ← Equiv.sum_comp σ]
      refine Finset.sum_congr rfl fun l _ => ?_
      rw [h.inv, ← h.pair, RCLike.star_def]
      ring
    rw [e, h.solver, Complex.add_re, Complex.conj_re]
    ring

theorem Paired.sin_curve (h : Paired D σ) (i : Fin k) :
    ∃ f, RealCoef σ f ∧ ∀ j, sinForm D i j = realCurve D f j := by
  refine ⟨fun l => Complex.I * (UTide.invGram D i (σ l) - UTide.invGram D (σ i) (σ l)), fun l => ?_, fun j => ?_⟩
  · have h1 := h.invGram i (σ l)
    have h2 := h.invGram i l
    rw [h.inv] at h1
    dsimp only
    rw [h.inv, map_mul, map_sub, ← h1, h2, Complex.conj_conj, Complex.conj_I]
    ring
  · unfold realCurve sinForm
    have e : (D *ᵥ fun l => Complex.I * (UTide.invGram D i (σ l) - UTide.invGram D (σ i) (σ l))) j =
        Complex.I * (UTide.solver D i j - UTide.solver D (σ i) j) := by
      unfold UTide.solver
      simp only [mulVec, dotProduct, mul_apply, conjTranspose_apply]
      rw [← Finset.sum_sub_distrib, Finset.mul_sum, ← Equiv.sum_comp σ]
      refine Finset.sum_congr rfl fun l _ => ?_
      rw [h.inv, ← h.pair, RCLike.star_def]
      ring
    rw [e, h.solver]
    simp
    ring

/-- A linear form that is a curve itself has the least norm among those agreeing with it on curves. -/
theorem least_norm (a a' : Fin n → ℝ) (h : ∑ j, a' j * a j = ∑ j, a j * a j) : ∑ j, a j ^ 2 ≤ ∑ j, a' j ^ 2 := by
  have h1 : 0 ≤ ∑ j, (a' j - a j) ^ 2 := Finset.sum_nonneg fun _ _ => sq_nonneg _
  have h2 : ∑ j, (a' j - a j) ^ 2 = ∑ j, a' j ^ 2 - 2 * ∑ j, a' j * a j + ∑ j, a j * a j := by
    rw [Finset.mul_sum, ← Finset.sum_sub_distrib, ← Finset.sum_add_distrib]
    exact Finset.sum_congr rfl fun _ _ => by ring
  have h3 : ∑ j, a j ^ 2 = ∑ j, a j * a j := Finset.sum_congr rfl fun _ _ => by ring
  linarith

theorem Paired.cos_best (h : Paired D σ) (hd : (Dᴴ * D).det ≠ 0) (i : Fin k) (a' : Fin n → ℝ)
    (ha : ∀ f, RealCoef σ f → ∑ j, a' j * realCurve D f j = 2 * (f i).re) :
    ∑ j, cosForm D i j ^ 2 ≤ ∑ j, a' j ^ 2 := by
  obtain ⟨f, hf, hc⟩ := h.cos_curve i
  apply least_norm
  have h1 := ha f hf
  have h2 := h.cos_unbiased hd hf i
  simp only [← hc] at h1 h2
  rw [h1, h2]

theorem Paired.sin_best (h : Paired D σ) (hd : (Dᴴ * D).det ≠ 0) (i : Fin k) (a' : Fin n → ℝ)
    (ha : ∀ f, RealCoef σ f → ∑ j, a' j * realCurve D f j = -2 * (f i).im) :
    ∑ j, sinForm D i j ^ 2 ≤ ∑ j, a' j ^ 2 := by
  obtain ⟨f, hf, hc⟩ := h.sin_curve i
  apply least_norm
  have h1 := ha f hf
  have h2 := h.sin_unbiased hd hf i
  simp only [← hc] at h1 h2
  rw [h1, h2]

/-- The fitted values are a curve. -/
theorem Paired.fitted_curve (h : Paired D σ) (u : Fin n → ℝ) :
    RealCoef σ (UTide.solver D *ᵥ fun j => (u j : ℂ)) ∧
    ∀ j, fitted D u j = realCurve D (UTide.solver D *ᵥ fun j => (u j : ℂ)) j := by
  refine ⟨fun l => ?_, fun j => ?_⟩
  · simp only [mulVec, dotProduct, map_sum, map_mul, h.solver, Complex.conj_ofReal]
  · unfold fitted realCurve
    rw [Matrix.mulVec_mulVec]
    show _ = ((UTide.hat D *ᵥ fun j => (u j : ℂ)) j).re
    simp only [mulVec, dotProduct, Complex.re_sum, Complex.re_mul_ofReal]
    rfl

theorem Paired.fitted_of_curve (h : Paired D σ) (hd : (Dᴴ * D).det ≠ 0) {f : Fin k → ℂ} (hf : RealCoef σ f) (j : Fin n) :
    fitted D (realCurve D f) j = realCurve D f j := by
  have : (UTide.hat D *ᵥ (D *ᵥ f)) j = (D *ᵥ f) j := by rw [Matrix.mulVec_mulVec, hat_mul hd]
  have h2 := congrArg Complex.re this
  rw [show ((D *ᵥ f) j).re = realCurve D f j from rfl] at h2
  rw [← h2]
  simp only [mulVec, dotProduct, Complex.re_sum]
  refine Finset.sum_congr rfl fun l _ => ?_
  have h3 := h.curve_real hf l
  simp only [mulVec, dotProduct] at h3
  rw [h3, Complex.re_mul_ofReal]
  rfl

/-- The residual sum of squares is the least one. -/
theorem Paired.least_squares (h : Paired D σ) (hd : (Dᴴ * D).det ≠ 0) (u : Fin n → ℝ) {f : Fin k → ℂ} (hf : RealCoef σ f) :
    ∑ j, gramRes D u j ^ 2 ≤ ∑ j, (u j - realCurve D f j) ^ 2 := by
  have h1 := h.orth hd u (fun j => u j - realCurve D f j)
  have h2 : ∀ j, fitted D (fun j => u j - realCurve D f j) j = fitted D u j - realCurve D f j := by
    intro j
    rw [← h.fitted_of_curve hd hf j]
    unfold fitted
    rw [← Finset.sum_sub_distrib]
    exact Finset.sum_congr rfl fun l _ => by ring
  simp only [h2] at h1
  have h3 : ∑ j, (u j - realCurve D f j) ^ 2 = ∑ j, gramRes D u j ^ 2 +
      2 * ∑ j, gramRes D u j * (fitted D u j - realCurve D f j) + ∑ j, (fitted D u j - realCurve D f j) ^ 2 := by
    rw [Finset.mul_sum, ← Finset.sum_add_distrib, ← Finset.sum_add_distrib]
    refine Finset.sum_congr rfl fun j _ => ?_
    unfold gramRes
    ring
  rw [h3, h1]
  have : 0 ≤ ∑ j, (fitted D u j - realCurve D f j) ^ 2 := Finset.sum_nonneg fun _ _ => sq_nonneg _
  linarith

/-! ## Exchange of the two blocks of columns -/

def swapIdx (nc i : ℕ) : ℕ := if i < nc then i + nc else if i < 2 * nc then i - nc else i

theorem swapIdx_swapIdx (nc i : ℕ) : swapIdx nc (swapIdx nc i) = i := by
  unfold swapIdx
  split_ifs <;> omega

theorem swapIdx_lt (nc k i : ℕ) (hk : 2 * nc ≤ k) (hi : i < k) : swapIdx nc i < k := by
  unfold swapIdx
  split_ifs <;> omega

def swapPerm (nc k : ℕ) (hk : 2 * nc ≤ k) : Equiv.Perm (Fin k) :=
  Function.Involutive.toPerm (fun i => ⟨swapIdx nc i, swapIdx_lt nc k i hk i.isLt⟩) fun i => by
    apply Fin.ext
    exact swapIdx_swapIdx nc i

theorem swapPerm_val (nc k : ℕ) (hk : 2 * nc ≤ k) (i : Fin k) : (swapPerm nc k hk i).val = swapIdx nc i := rfl

theorem getD_paired (e tail : List ℂ) (ht : ∀ z ∈ tail, conj z = z) (i : ℕ) :
    conj ((e ++ e.map conj ++ tail).getD i 0) = (e ++ e.map conj ++ tail).getD (swapIdx e.length i) 0 := by
  have ht' : ∀ l, conj (tail.getD l 0) = tail.getD l 0 := by
    intro l
    rw [List.getD_eq_getElem?_getD]
    cases h : tail[l]? with
    | none => simp
    | some z => exact ht z (List.mem_of_getElem? h)
  simp only [List.getD_eq_getElem?_getD] at ht' ⊢
  unfold swapIdx
  by_cases h1 : i < e.length
  · rw [if_pos h1, List.append_assoc, List.getElem?_append_left h1, List.getElem?_append_right (by omega),
      List.getElem?_append_left (by simp; omega), List.getElem?_map]
    rw [show i + e.length - e.length = i by omega, List.getElem?_eq_getElem h1]
    simp
  · rw [if_neg h1]
    by_cases h2 : i < 2 * e.length
    · rw [if_pos h2, List.append_assoc, List.getElem?_append_right (by omega),
        List.getElem?_append_left (by simp; omega), List.getElem?_append_left (by omega), List.getElem?_map,
        List.getElem?_eq_getElem (show i - e.length < e.length by omega)]
      simp
    · rw [if_neg h2, List.getElem?_append_right (by simp; omega)]
      exact ht' _

theorem paired_of_rows (nc k : ℕ) (hk : 2 * nc ≤ k) (B : List (List ℂ))
    (hB : ∀ r ∈ B, ∃ e tail, r = e ++ e.map conj ++ tail ∧ e.length = nc ∧ ∀ z ∈ tail, conj z = z) :
    Paired (designM k B) (swapPerm nc k hk) := by
  refine ⟨fun i => Fin.ext (swapIdx_swapIdx nc i), fun j i => ?_⟩
  obtain ⟨e, tail, hr, rfl, ht⟩ := hB _ (List.getElem_mem j.isLt)
  show conj ((B[j.val]).getD i 0) = (B[j.val]).getD (swapIdx e.length i) 0
  rw [hr]
  exact getD_paired e tail ht i

/-! ## The least-squares solution -/

theorem cols_le_rows (hd : (Dᴴ * D).det ≠ 0) : k ≤ n := by
  have h1 : (1 : Matrix (Fin k) (Fin k) ℂ).rank = k := by rw [Matrix.rank_one, Fintype.card_fin]
  rw [← solver_mul hd] at h1
  have h2 := Matrix.rank_mul_le_right (solver D) D
  have h3 := Matrix.rank_le_height D
  omega

theorem zipWith_sum_real {α β : Type} (f : α → β → ℝ) (l : List α) (l' : List β) (h : l'.length = l.length) :
    (List.zipWith f l l').sum = ∑ j : Fin l.length, f l[j] (l'[j.val]'(by rw [h]; exact j.isLt)) := by
  rw [← List.sum_ofFn]
  congr 1
  apply List.ext_getElem
  · simp [h]
  · intro i h1 h2
    simp

theorem solver_normal (hd : (Dᴴ * D).det ≠ 0) (x : Fin n → ℂ) : Dᴴ *ᵥ (x - D *ᵥ (solver D *ᵥ x)) = 0 := by
  rw [Matrix.mulVec_sub, Matrix.mulVec_mulVec, Matrix.mulVec_mulVec]
  have : Dᴴ * D * solver D = Dᴴ := by
    unfold solver invGram
    rw [← Matrix.mul_assoc, Matrix.mul_nonsing_inv _ (isUnit_iff_ne_zero.2 hd), Matrix.one_mul]
  rw [this, sub_self]

theorem solver_optimal (hd : (Dᴴ * D).det ≠ 0) (x : Fin n → ℂ) (f : Fin k → ℂ) :
    ∑ j, ‖x j - (D *ᵥ (solver D *ᵥ x)) j‖ ^ 2 ≤ ∑ j, ‖x j - (D *ᵥ f) j‖ ^ 2 := by
  obtain ⟨r, hr⟩ : ∃ r, r = x - D *ᵥ (solver D *ᵥ x) := ⟨_, rfl⟩
  obtain ⟨g, hg⟩ : ∃ g, g = solver D *ᵥ x - f := ⟨_, rfl⟩
  have h0 : Dᴴ *ᵥ r = 0 := by rw [hr]; exact solver_normal hd x
  have h1 : ∀ j, x j - (D *ᵥ f) j = r j + (D *ᵥ g) j := by
    intro j
    rw [hr, hg, Matrix.mulVec_sub]
    simp only [Pi.sub_apply]
    ring
  have h2 : ∑ j, (conj (r j) * (D *ᵥ g) j).re = 0 := by
    rw [← Complex.re_sum]
    have : ∑ j, conj (r j) * (D *ᵥ g) j = star (Dᴴ *ᵥ r) ⬝ᵥ g := by
      rw [Matrix.star_mulVec, Matrix.conjTranspose_conjTranspose, ← Matrix.dotProduct_mulVec]
      rfl
    rw [this, h0]
    simp
  have h3 : ∀ j, ‖x j - (D *ᵥ f) j‖ ^ 2 = ‖r j‖ ^ 2 + 2 * (conj (r j) * (D *ᵥ g) j).re + ‖(D *ᵥ g) j‖ ^ 2 := by
    intro j
    rw [h1]
    generalize (D *ᵥ g) j = w
    generalize r j = z
    simp only [← Complex.normSq_eq_norm_sq, Complex.normSq_apply, Complex.add_re, Complex.add_im, Complex.mul_re,
      Complex.conj_re, Complex.conj_im]
    ring
  have h4 : ∀ j, ‖x j - (D *ᵥ (solver D *ᵥ x)) j‖ ^ 2 = ‖r j‖ ^ 2 := by intro j; rw [hr]; rfl
  simp only [h3, h4, Finset.sum_add_distrib, ← Finset.mul_sum, h2]
  have : 0 ≤ ∑ j, ‖(D *ᵥ g) j‖ ^ 2 := Finset.sum_nonneg fun _ _ => by positivity
  linarith

theorem exists_ofFn {α : Type} (n : ℕ) (m : List α) (hm : m.length = n) : ∃ f : Fin n → α, m = List.ofFn f := by
  subst hm
  exact ⟨fun i => m[i], by simp⟩

theorem cost_fin (ncol : ℕ) (B : List (List ℂ)) (hB : ∀ r ∈ B, r.length = ncol) (x : Fin B.length → ℂ)
    (f : Fin ncol → ℂ) :
    cost B (List.ofFn x) (List.ofFn f) = ∑ j, ‖x j - (designM ncol B *ᵥ f) j‖ ^ 2 := by
  unfold cost
  rw [zipWith_sum_real _ _ _ (by simp)]
  refine Finset.sum_congr rfl fun j _ => ?_
  rw [designM_mulVec ncol B hB]
  simp

/-- The least-squares solution with independent columns. -/
theorem minNorm_solver (ncol : ℕ) (B : List (List ℂ)) (hB : ∀ r ∈ B, r.length = ncol) (hi : IndepColumns ncol B)
    (x : Fin B.length → ℂ) (m : List ℂ) (hm : IsMinNormSol ncol B (List.ofFn x) m) :
    m = List.ofFn (solver (designM ncol B) *ᵥ x) := by
  refine optimal_unique ncol B (List.ofFn x) _ _ (by simp) hi hm.length (by simp) hm.optimal fun y hy => ?_
  obtain ⟨f, rfl⟩ := exists_ofFn ncol y hy
  rw [cost_fin ncol B hB, cost_fin ncol B hB]
  exact solver_optimal (gram_det ncol B hB hi) x f

end

end UTide
