import Verif.Model.Py
import Mathlib.Data.Matrix.Basic
import Mathlib.LinearAlgebra.Matrix.Notation
import Mathlib.Analysis.Complex.Basic

/-!
# Numerical routines outside the project

`numpy.linalg`, `numpy.argsort`, `numpy.random` and `scipy.signal.lombscargle` are not part of the modelled code.
They enter as the fields of `Num`, one value per execution; theorems that need something of them name it as a
hypothesis (`LstsqOk`, `ArgsortOk`, ...), and `Verif.Lemmas.Lstsq` shows the contracts can be met.
-/

namespace UTide

noncomputable section

/-- The four results of `np.linalg.lstsq(a, b, rcond)`; `resid` is the entry `residuals[0]`, absent when numpy
returns an empty array of residuals. -/
structure Lstsq where
  b : List ℂ
  resid : Option ℝ
  rank : ℕ
  sing : List ℝ

/-- The external numerical routines. A matrix argument of `lstsq`, `pinv` is the list of its rows together with
the number of columns. -/
structure Num where
  /-- `np.linalg.lstsq(a, b, rcond)` -/
  lstsq : (rcond : Option ℚ) → (ncol : ℕ) → (a : List (List ℂ)) → (b : List ℂ) → Lstsq
  /-- `np.linalg.pinv(x)`, a list of `ncol` rows -/
  pinv : (ncol : ℕ) → (x : List (List ℂ)) → List (List ℂ)
  /-- `np.linalg.inv`; `none` is LinAlgError -/
  inv : (n : ℕ) → Matrix (Fin n) (Fin n) ℂ → Option (Matrix (Fin n) (Fin n) ℂ)
  /-- `np.linalg.svd`: `U`, `S`, `V` with `a = U diag(S) V` -/
  svd : (n : ℕ) → Matrix (Fin n) (Fin n) ℝ →
    Matrix (Fin n) (Fin n) ℝ × (Fin n → ℝ) × Matrix (Fin n) (Fin n) ℝ
  /-- `np.linalg.cholesky` succeeds -/
  isPD : (n : ℕ) → Matrix (Fin n) (Fin n) ℝ → Bool
  /-- `np.spacing(np.abs(np.linalg.eigvals(a)).max())` -/
  nudge : (n : ℕ) → Matrix (Fin n) (Fin n) ℝ → ℝ
  /-- `np.random.multivariate_normal(mean, cov, size)` in the `c`-th call -/
  mvn : (c : ℕ) → (n : ℕ) → (Fin n → ℝ) → Matrix (Fin n) (Fin n) ℝ → (size : ℕ) → List (Fin n → ℝ)
  /-- `scipy.signal.lombscargle(t, x, freqs)` at one angular frequency -/
  lombscargle : List ℝ → List ℝ → ℝ → ℝ
  /-- `a.argsort()` -/
  argsort : List Fl → List ℕ

/-- `np.dot` of one row of a matrix and a vector. -/
def dot (r m : List ℂ) : ℂ := (List.zipWith (· * ·) r m).sum

/-- Sum of squared moduli of the residuals of the linear model `a` with coefficients `m`. -/
def cost (a : List (List ℂ)) (b m : List ℂ) : ℝ :=
  (List.zipWith (fun r x => ‖x - dot r m‖ ^ 2) a b).sum

/-- Squared Euclidean norm of a coefficient vector. -/
def normSq (m : List ℂ) : ℝ := (m.map fun x => ‖x‖ ^ 2).sum

/-- The columns of `a` are linearly independent: only the zero combination of them vanishes at every row. -/
def IndepColumns (ncol : ℕ) (a : List (List ℂ)) : Prop :=
  ∀ m : List ℂ, m.length = ncol → (∀ r ∈ a, dot r m = 0) → ∀ x ∈ m, x = 0

/-- `m` is the least-squares solution of smallest norm. -/
structure IsMinNormSol (ncol : ℕ) (a : List (List ℂ)) (b m : List ℂ) : Prop where
  length : m.length = ncol
  optimal : ∀ m', m'.length = ncol → cost a b m ≤ cost a b m'
  minimal : ∀ m', m'.length = ncol → cost a b m' = cost a b m → normSq m ≤ normSq m'

/-- `rcond` values for which LAPACK's `gelsd` cuts off nothing but rounding error: `None`, or outside `(0, 1)`
(dlalsd uses machine precision then). -/
def exactRcond : Option ℚ → Prop
  | none => True
  | some q => q ≤ 0 ∨ 1 ≤ q

/-- What `np.linalg.lstsq` is assumed to do, for matrices with rows of equal length: it returns one coefficient per
column, and for harmless `rcond` the minimum-norm solution. -/
def LstsqOk (lstsq : Option ℚ → ℕ → List (List ℂ) → List ℂ → Lstsq) : Prop :=
  ∀ rcond ncol a b, (∀ r ∈ a, r.length = ncol) → a.length = b.length →
    (lstsq rcond ncol a b).b.length = ncol ∧
    (exactRcond rcond → IsMinNormSol ncol a b (lstsq rcond ncol a b).b ∧
      (∀ s, (lstsq rcond ncol a b).resid = some s → s = cost a b (lstsq rcond ncol a b).b) ∧
      ((lstsq rcond ncol a b).resid.isSome ↔ IndepColumns ncol a ∧ ncol < a.length))

/-- numpy's sorting order: NaN is larger than everything. -/
def Fl.sortLE : Fl → Fl → Prop
  | _, .nan => True
  | .nan, _ => False
  | a, b => a ≤ b

/-- What `argsort` is assumed to do: it returns some permutation of the positions under which the array is
sorted (ties in any order). -/
def ArgsortOk (argsort : List Fl → List ℕ) : Prop :=
  ∀ l, (argsort l).Perm (List.range l.length) ∧
    ((argsort l).filterMap fun i => l[i]?).Pairwise Fl.sortLE

/-! ## Small numpy functions -/

open Classical

/-- The two middle entries of a sorted list and their mean. -/
def middle (l : List ℝ) : ℝ :=
  if l.length % 2 = 1 then l.getD (l.length / 2) 0
  else (l.getD (l.length / 2 - 1) 0 + l.getD (l.length / 2) 0) / 2

/-- `np.median` of a non-empty real array. -/
def median (l : List ℝ) : ℝ := middle (l.mergeSort fun a b => decide (a ≤ b))

/-- Lexicographic order on complex numbers, as used by numpy's sorting. -/
def lexLE (a b : ℂ) : Prop := a.re < b.re ∨ (a.re = b.re ∧ a.im ≤ b.im)

/-- `np.median` of a non-empty complex array. -/
def cmedian (l : List ℂ) : ℂ :=
  let s := l.mergeSort fun a b => decide (lexLE a b)
  if s.length % 2 = 1 then s.getD (s.length / 2) 0
  else (s.getD (s.length / 2 - 1) 0 + s.getD (s.length / 2) 0) / 2

/-- `np.round`: half to even. -/
def roundHalfEven (x : ℝ) : ℤ :=
  let f := ⌊x⌋
  if x - f < 1 / 2 then f
  else if 1 / 2 < x - f then f + 1
  else if f % 2 = 0 then f else f + 1

/-- `np.searchsorted(freq, f)` for a sorted `freq` (the result of the binary search on an unsorted array is not
modelled). -/
def searchsorted (freq : List ℝ) (f : ℝ) : ℕ := (freq.takeWhile fun x => decide (x < f)).length

/-- `np.interp(x, xp, fp)` for increasing `xp`: constant outside, linear between neighbours; of several equal `xp` the
last one counts, as in numpy's search for `xp[j] <= x < xp[j+1]`. -/
def interp (x : ℝ) : List (ℝ × ℝ) → ℝ
  | [] => 0
  | [(_, f)] => f
  | (x0, f0) :: (x1, f1) :: l =>
    if x < x0 then f0
    else if x < x1 then f0 + (f1 - f0) / (x1 - x0) * (x - x0)
    else interp x ((x1, f1) :: l)

/-- `np.linspace(a, b, n)`. -/
def linspace (a b : ℝ) (n : ℕ) : List ℝ :=
  (List.range n).map fun k : ℕ => a + k * ((b - a) / (n - 1))

end

end UTide
