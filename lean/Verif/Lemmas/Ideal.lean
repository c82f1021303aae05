import Verif.Model.Contracts
import Verif.Lemmas.Lstsq
import Mathlib.Analysis.Matrix.Spectrum

/-!
# The contracts on the external routines can be met
-/

namespace UTide

noncomputable section

open Classical

def idealPinv (ncol : ℕ) (x : List (List ℂ)) : List (List ℂ) :=
  (List.range ncol).map fun i => (List.range x.length).map fun j =>
    (idealLstsq none ncol x (unitVec x.length j)).b.getD i 0

theorem idealPinv_ok : PinvOk idealPinv := by
  intro ncol x hx
  refine ⟨by simp [idealPinv], fun j hj => ?_⟩
  have h := ((idealLstsq_ok none ncol x (unitVec x.length j) hx (by simp [unitVec])).2 trivial).1
  have : (idealPinv ncol x).map (fun row => row.getD j 0) = (idealLstsq none ncol x (unitVec x.length j)).b := by
    refine List.ext_getElem (by simp [idealPinv, h.length]) fun i h1 h2 => ?_
    simp [idealPinv, hj, h2]
  rw [this]
  exact h

def idealInv (n : ℕ) (M : Matrix (Fin n) (Fin n) ℂ) : Option (Matrix (Fin n) (Fin n) ℂ) :=
  if IsUnit M.det then some M⁻¹ else none

theorem idealInv_ok : InvOk idealInv := by
  intro n M
  unfold idealInv
  by_cases h : IsUnit M.det
  · rw [if_pos h]
    exact ⟨fun M' hM' => by cases hM'; exact Matrix.mul_nonsing_inv M h, by simp⟩
  · rw [if_neg h]; exact ⟨by simp, fun _ => h⟩

theorem exists_svd (n : ℕ) (A : Matrix (Fin n) (Fin n) ℝ) (hA : A.IsSymm) :
    ∃ r : Matrix (Fin n) (Fin n) ℝ × (Fin n → ℝ) × Matrix (Fin n) (Fin n) ℝ,
      A = r.1 * Matrix.diagonal r.2.1 * r.2.2 ∧ r.1.transpose * r.1 = 1 ∧ r.2.2 * r.2.2.transpose = 1 ∧
      ∀ i, 0 ≤ r.2.1 i := by
  have hh : A.IsHermitian := by
    rw [Matrix.IsHermitian, Matrix.conjTranspose_eq_transpose_of_trivial]; exact hA
  set U : Matrix (Fin n) (Fin n) ℝ := (hh.eigenvectorUnitary : Matrix (Fin n) (Fin n) ℝ) with hU
  have hs : A = U * Matrix.diagonal hh.eigenvalues * U.transpose := by
    have := hh.spectral_theorem
    rw [Unitary.conjStarAlgAut_apply] at this
    rw [← Matrix.conjTranspose_eq_transpose_of_trivial]
    exact this
  have h1 : U.transpose * U = 1 := by
    rw [← Matrix.conjTranspose_eq_transpose_of_trivial]
    exact Unitary.coe_star_mul_self hh.eigenvectorUnitary
  have h2 : U * U.transpose = 1 := by
    rw [← Matrix.conjTranspose_eq_transpose_of_trivial]
    exact Unitary.coe_mul_star_self hh.eigenvectorUnitary
  set s : Fin n → ℝ := fun i => if hh.eigenvalues i < 0 then -1 else 1
  have hss : Matrix.diagonal s * Matrix.diagonal s = 1 := by
    rw [Matrix.diagonal_mul_diagonal, ← Matrix.diagonal_one]
    congr 1
    funext i
    simp only [s]
    split <;> norm_num
  refine ⟨(U * Matrix.diagonal s, fun i => |hh.eigenvalues i|, U.transpose), ?_, ?_, ?_, fun i => abs_nonneg _⟩
  · show A = U * Matrix.diagonal s * Matrix.diagonal (fun i => |hh.eigenvalues i|) * U.transpose
    rw [Matrix.mul_assoc U, Matrix.diagonal_mul_diagonal]
    have : (fun i => s i * |hh.eigenvalues i|) = hh.eigenvalues := by
      funext i
      simp only [s]
      split
      · rename_i h; rw [abs_of_neg h]; ring
      · rename_i h; rw [abs_of_nonneg (not_lt.1 h)]; ring
    rw [this]
    exact hs
  · show (U * Matrix.diagonal s).transpose * (U * Matrix.diagonal s) = 1
    rw [Matrix.transpose_mul, Matrix.diagonal_transpose, Matrix.mul_assoc, ← Matrix.mul_assoc U.transpose, h1,
      Matrix.one_mul, hss]
  · show U.transpose * U.transpose.transpose = 1
    rw [Matrix.transpose_transpose, h1]

def idealSvd (n : ℕ) (A : Matrix (Fin n) (Fin n) ℝ) :
    Matrix (Fin n) (Fin n) ℝ × (Fin n → ℝ) × Matrix (Fin n) (Fin n) ℝ :=
  if h : A.IsSymm then Classical.choose (exists_svd n A h) else (0, 0, 0)

theorem idealSvd_ok : SvdOk idealSvd := by
  intro n A hA
  have := Classical.choose_spec (exists_svd n A hA)
  simp only [idealSvd, dif_pos hA]
  exact this

/-- A choice of the external routines meeting the contracts. -/
def idealNum : Num where
  lstsq := idealLstsq
  pinv := idealPinv
  inv := idealInv
  svd := idealSvd
  isPD := fun _ A => decide A.PosDef
  nudge := fun _ _ => 1
  mvn := fun _ _ m _ size => List.replicate size m
  lombscargle := fun t x w => 0.5 * (lsXC t x w ^ 2 / lsCC t w + lsXS t x w ^ 2 / lsSS t w)
  argsort := idealArgsort

theorem idealNum_ok : NumOk idealNum where
  lstsq := idealLstsq_ok
  pinv := idealPinv_ok
  inv := idealInv_ok
  svd := idealSvd_ok
  cholesky := fun n A _ => by simp [idealNum]
  nudge := fun _ _ => one_pos
  mvn := fun _ _ _ _ size => by simp [idealNum]
  lomb := fun _ _ _ _ _ _ => rfl
  argsort := idealArgsort_ok

end

end UTide
