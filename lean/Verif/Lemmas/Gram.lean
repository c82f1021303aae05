import Verif.Model.Contracts
import Mathlib.LinearAlgebra.Matrix.Hermitian
import Mathlib.LinearAlgebra.Matrix.NonsingularInverse
import Mathlib.LinearAlgebra.Matrix.ToLinearEquiv

/-!
# Least squares with a matrix whose columns come in conjugate pairs
-/

namespace UTide

noncomputable section

open Matrix

local notation "conj" => starRingEnd ℂ

/-- The columns of `D` are permuted by complex conjugation, `σ` being the permutation. -/
structure Paired {n k : ℕ} (D : Matrix (Fin n) (Fin k) ℂ) (σ : Equiv.Perm (Fin k)) : Prop where
  inv : ∀ i, σ (σ i) = i
  pair : ∀ j i, conj (D j i) = D j (σ i)

variable {n k : ℕ} (D : Matrix (Fin n) (Fin k) ℂ) (σ : Equiv.Perm (Fin k))

/-- `(Dᴴ D)⁻¹`, `(Dᴴ D)⁻¹ Dᴴ` and `D (Dᴴ D)⁻¹ Dᴴ`. -/
def invGram : Matrix (Fin k) (Fin k) ℂ := (Dᴴ * D)⁻¹
def solver : Matrix (Fin k) (Fin n) ℂ := invGram D * Dᴴ
def hat : Matrix (Fin n) (Fin n) ℂ := D * solver D

theorem gram_isHermitian : (Dᴴ * D)ᴴ = Dᴴ * D := by
  rw [conjTranspose_mul, conjTranspose_conjTranspose]

theorem invGram_herm : (invGram D)ᴴ = invGram D := by
  unfold invGram
  rw [conjTranspose_nonsing_inv, gram_isHermitian]

theorem invGram_conj (i j : Fin k) : invGram D i j = conj (invGram D j i) := by
  have := congrFun (congrFun (invGram_herm D) i) j
  rw [conjTranspose_apply] at this
  exact this.symm

variable {D σ}

theorem Paired.gram (h : Paired D σ) : (Dᴴ * D).submatrix σ σ = (Dᴴ * D)ᵀ := by
  ext i j
  simp only [submatrix_apply, transpose_apply, mul_apply, conjTranspose_apply]
  refine Finset.sum_congr rfl fun l _ => ?_
  rw [← h.pair l i, ← h.pair l j]
  simp only [RCLike.star_def, Complex.conj_conj]
  ring

theorem Paired.invGram (h : Paired D σ) (i j : Fin k) : invGram D (σ i) (σ j) = conj (UTide.invGram D i j) := by
  have h1 : (UTide.invGram D).submatrix σ σ = (UTide.invGram D)ᵀ := by
    unfold UTide.invGram
    rw [← inv_submatrix_equiv, h.gram, transpose_nonsing_inv]
  have h2 := congrFun (congrFun h1 i) j
  rw [submatrix_apply, transpose_apply] at h2
  rw [h2, invGram_conj]

theorem Paired.solver (h : Paired D σ) (i : Fin k) (j : Fin n) : solver D (σ i) j = conj (UTide.solver D i j) := by
  unfold UTide.solver
  simp only [mul_apply, conjTranspose_apply, map_sum, map_mul]
  rw [← Equiv.sum_comp σ]
  refine Finset.sum_congr rfl fun l _ => ?_
  rw [h.invGram, ← h.pair]
  simp

theorem solver_mul (hd : (Dᴴ * D).det ≠ 0) : solver D * D = 1 := by
  unfold solver invGram
  rw [Matrix.mul_assoc, nonsing_inv_mul _ (isUnit_iff_ne_zero.2 hd)]

theorem solver_mul_self (hd : (Dᴴ * D).det ≠ 0) : solver D * (solver D)ᴴ = invGram D := by
  have h : (solver D)ᴴ = D * invGram D := by
    unfold solver
    rw [conjTranspose_mul, conjTranspose_conjTranspose, invGram_herm]
  rw [h, ← Matrix.mul_assoc, solver_mul hd, Matrix.one_mul]

theorem hat_mul (hd : (Dᴴ * D).det ≠ 0) : hat D * D = D := by
  unfold hat
  rw [Matrix.mul_assoc, solver_mul hd, Matrix.mul_one]

theorem hat_mul_hat (hd : (Dᴴ * D).det ≠ 0) : hat D * hat D = hat D := by
  conv_lhs => rhs; unfold hat
  rw [← Matrix.mul_assoc, hat_mul hd]
  rfl

theorem hat_herm : (hat D)ᴴ = hat D := by
  unfold hat solver
  rw [← Matrix.mul_assoc, conjTranspose_mul, conjTranspose_mul, conjTranspose_conjTranspose, invGram_herm,
    Matrix.mul_assoc]

theorem Paired.hat (h : Paired D σ) (i j : Fin n) : conj (hat D i j) = UTide.hat D i j := by
  unfold UTide.hat
  simp only [mul_apply, map_sum, map_mul]
  rw [← Equiv.sum_comp σ]
  refine Finset.sum_congr rfl fun l _ => ?_
  rw [h.pair, h.inv, h.solver, Complex.conj_conj]

theorem Paired.hat_symm (h : Paired D σ) (i j : Fin n) : UTide.hat D i j = UTide.hat D j i := by
  have := congrFun (congrFun (hat_herm (D := D)) i) j
  rw [conjTranspose_apply] at this
  rw [← this]
  exact h.hat j i

/-! ## Real quantities -/

variable (D σ)

/-- The cosine and sine coefficient of column pair `i` as linear forms in the data. -/
def cosForm (i : Fin k) (j : Fin n) : ℝ := 2 * (solver D i j).re
def sinForm (i : Fin k) (j : Fin n) : ℝ := -2 * (solver D i j).im

/-- Entries of the hat matrix. -/
def hatR (i j : Fin n) : ℝ := (hat D i j).re

/-- Fitted values and residual of a real data vector. -/
def fitted (u : Fin n → ℝ) (j : Fin n) : ℝ := ∑ l, hatR D j l * u l
def gramRes (u : Fin n → ℝ) (j : Fin n) : ℝ := u j - fitted D u j

variable {D σ}

theorem Paired.hat_real (h : Paired D σ) (i j : Fin n) : UTide.hat D i j = (hatR D i j : ℂ) := by
  have := h.hat i j
  exact ((Complex.conj_eq_iff_real.1 this).elim fun r hr => by unfold hatR; rw [hr]; simp)

theorem Paired.sum_cos (h : Paired D σ) (hd : (Dᴴ * D).det ≠ 0) (i : Fin k) :
    ∑ j, cosForm D i j ^ 2 = 2 * (UTide.invGram D i i + UTide.invGram D i (σ i)).re := by
  have h1 : ∀ a b, UTide.invGram D a b = ∑ j, UTide.solver D a j * conj (UTide.solver D b j) := by
    intro a b
    rw [← solver_mul_self hd, mul_apply]
    rfl
  rw [h1, h1, ← Finset.sum_add_distrib, Complex.re_sum, Finset.mul_sum]
  refine Finset.sum_congr rfl fun j _ => ?_
  rw [h.solver, Complex.conj_conj]
  unfold cosForm
  simp only [Complex.add_re, Complex.mul_re, Complex.conj_re, Complex.conj_im]
  ring

theorem Paired.sum_sin (h : Paired D σ) (hd : (Dᴴ * D).det ≠ 0) (i : Fin k) :
    ∑ j, sinForm D i j ^ 2 = 2 * (UTide.invGram D i i - UTide.invGram D i (σ i)).re := by
  have h1 : ∀ a b, UTide.invGram D a b = ∑ j, UTide.solver D a j * conj (UTide.solver D b j) := by
    intro a b
    rw [← solver_mul_self hd, mul_apply]
    rfl
  rw [h1, h1, ← Finset.sum_sub_distrib, Complex.re_sum, Finset.mul_sum]
  refine Finset.sum_congr rfl fun j _ => ?_
  rw [h.solver, Complex.conj_conj]
  unfold sinForm
  simp only [Complex.sub_re, Complex.mul_re, Complex.conj_re, Complex.conj_im]
  ring

theorem Paired.hatR_symm (h : Paired D σ) (i j : Fin n) : hatR D i j = hatR D j i := by
  unfold hatR; rw [h.hat_symm]

theorem Paired.hatR_idem (h : Paired D σ) (hd : (Dᴴ * D).det ≠ 0) (i j : Fin n) :
    ∑ l, hatR D i l * hatR D l j = hatR D i j := by
  have h1 := congrFun (congrFun (hat_mul_hat hd) i) j
  rw [mul_apply] at h1
  simp only [h.hat_real] at h1
  exact_mod_cast h1

/-- The residual is orthogonal to every fitted vector. -/
theorem Paired.orth (h : Paired D σ) (hd : (Dᴴ * D).det ≠ 0) (u w : Fin n → ℝ) :
    ∑ j, gramRes D u j * fitted D w j = 0 := by
  unfold gramRes fitted
  have e1 : ∑ j, (u j - ∑ l, hatR D j l * u l) * ∑ l, hatR D j l * w l =
      ∑ j, ∑ l, u j * (hatR D j l * w l) - ∑ j, ∑ l, ∑ i, (hatR D j l * u l) * (hatR D j i * w i) := by
    rw [← Finset.sum_sub_distrib]
    refine Finset.sum_congr rfl fun j _ => ?_
    rw [sub_mul, Finset.mul_sum, Finset.sum_mul_sum]
  have e2 : ∑ j, ∑ l, ∑ i, (hatR D j l * u l) * (hatR D j i * w i) = ∑ l, ∑ i, u l * (hatR D l i * w i) := by
    rw [Finset.sum_comm]
    refine Finset.sum_congr rfl fun l _ => ?_
    rw [Finset.sum_comm]
    refine Finset.sum_congr rfl fun i _ => ?_
    rw [← h.hatR_idem hd l i, Finset.sum_mul, Finset.mul_sum]
    refine Finset.sum_congr rfl fun j _ => ?_
    rw [h.hatR_symm l j]
    ring
  rw [e1, e2, sub_self]

theorem Paired.res_mul (h : Paired D σ) (hd : (Dᴴ * D).det ≠ 0) (u w : Fin n → ℝ) :
    ∑ j, gramRes D u j * w j = ∑ j, gramRes D u j * gramRes D w j := by
  have := h.orth hd u w
  rw [← add_zero (∑ j, gramRes D u j * gramRes D w j), ← this, ← Finset.sum_add_distrib]
  refine Finset.sum_congr rfl fun j _ => ?_
  unfold gramRes
  ring

end

end UTide
