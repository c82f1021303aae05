import Verif.Model.Num
import Verif.Model.Periodogram
import Mathlib.LinearAlgebra.Matrix.PosDef
import Mathlib.LinearAlgebra.Matrix.NonsingularInverse

/-!
# What the external numerical routines are assumed to do

Idealised contracts (exact arithmetic). A theorem that needs one names it as a hypothesis; `Verif.Lemmas.Ideal`
shows that all of them can be met at once.
-/

namespace UTide

noncomputable section

open Classical

/-- The `j`-th unit vector of length `n`. -/
def unitVec (n j : ℕ) : List ℂ := (List.range n).map fun i => if i = j then 1 else 0

/-- `np.linalg.pinv(x)`: its `j`-th column is the minimum-norm least-squares solution for the `j`-th unit vector. -/
def PinvOk (pinv : ℕ → List (List ℂ) → List (List ℂ)) : Prop :=
  ∀ ncol x, (∀ r ∈ x, r.length = ncol) → (pinv ncol x).length = ncol ∧
    ∀ j, j < x.length → IsMinNormSol ncol x (unitVec x.length j) ((pinv ncol x).map fun row => row.getD j 0)

/-- `np.linalg.inv`: the inverse matrix, or LinAlgError if there is none. -/
def InvOk (inv : (n : ℕ) → Matrix (Fin n) (Fin n) ℂ → Option (Matrix (Fin n) (Fin n) ℂ)) : Prop :=
  ∀ n M, (∀ M', inv n M = some M' → M * M' = 1) ∧ (inv n M = none → ¬ IsUnit M.det)

/-- `np.linalg.svd` of a symmetric matrix: orthogonal factors and non-negative singular values. -/
def SvdOk (svd : (n : ℕ) → Matrix (Fin n) (Fin n) ℝ →
    Matrix (Fin n) (Fin n) ℝ × (Fin n → ℝ) × Matrix (Fin n) (Fin n) ℝ) : Prop :=
  ∀ n (A : Matrix (Fin n) (Fin n) ℝ), A.IsSymm →
    A = (svd n A).1 * Matrix.diagonal (svd n A).2.1 * (svd n A).2.2 ∧
    (svd n A).1.transpose * (svd n A).1 = 1 ∧ (svd n A).2.2 * (svd n A).2.2.transpose = 1 ∧
    ∀ i, 0 ≤ (svd n A).2.1 i

/-- `np.linalg.cholesky` of a symmetric matrix succeeds exactly for positive definite ones. -/
def CholeskyOk (isPD : (n : ℕ) → Matrix (Fin n) (Fin n) ℝ → Bool) : Prop :=
  ∀ n (A : Matrix (Fin n) (Fin n) ℝ), A.IsSymm → (isPD n A = true ↔ A.PosDef)

/-- `np.spacing` of a non-negative number is positive. -/
def NudgeOk (nudge : (n : ℕ) → Matrix (Fin n) (Fin n) ℝ → ℝ) : Prop := ∀ n A, 0 < nudge n A

/-- `np.random.multivariate_normal` returns as many samples as asked for. -/
def MvnOk (mvn : (c : ℕ) → (n : ℕ) → (Fin n → ℝ) → Matrix (Fin n) (Fin n) ℝ → (size : ℕ) → List (Fin n → ℝ)) :
    Prop := ∀ c n m M size, (mvn c n m M size).length = size

/-- All contracts. -/
structure NumOk (N : Num) : Prop where
  lstsq : LstsqOk N.lstsq
  pinv : PinvOk N.pinv
  inv : InvOk N.inv
  svd : SvdOk N.svd
  cholesky : CholeskyOk N.isPD
  nudge : NudgeOk N.nudge
  mvn : MvnOk N.mvn
  lomb : LombOk N.lombscargle
  argsort : ArgsortOk N.argsort

end

end UTide
