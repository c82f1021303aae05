import Verif.Model.Ellipse
import Verif.Model.Py

/-!
# `ut_cs2cep` with all its calling conventions

Arrays with three or more dimensions or none, and broadcasting between arrays of different lengths, are not modelled
(`unmodelled`).
-/

namespace UTide

noncomputable section

/-- The first argument: an array with one axis, or with two of which the second has length `cols` (every row has that
length). -/
inductive CepArg
  | vec (x : List ℝ)
  | table (cols : ℕ) (rows : List (List ℝ))

/-- `X[:, k]`. -/
def column (k : ℕ) (rows : List (List ℝ)) : List ℝ := rows.map fun r => r.getD k 0

/-- The four arrays after the first statement of `ut_cs2cep` (ellipse_params.py 45-53). `Xu[:, 1]` of an array with one
axis is an IndexError. -/
def cepColumns (Xu : CepArg) (Yu Xv Yv : Option (List ℝ)) :
    Except PyErr (List ℝ × List ℝ × Option (List ℝ) × Option (List ℝ)) :=
  match Yu, Xu with
  | some yu, .vec xu => .ok (xu, yu, Xv, Yv)
  | some _, .table _ _ => .error .unmodelled
  | none, .vec x => if ¬ (x.length = 2 ∨ x.length = 4) then .error .valueError else .error .indexError
  | none, .table n rows =>
    if ¬ (n = 2 ∨ n = 4) then .error .valueError
    else if n = 4 then .ok (column 0 rows, column 1 rows, some (column 2 rows), some (column 3 rows))
    else .ok (column 0 rows, column 1 rows, Xv, Yv)

/-- `ut_cs2cep` (ellipse_params.py 11-76); the four returned arrays as one list of ellipses. `Xu + Yv` with `Yv = None` is a
TypeError. -/
def utCs2cep (Xu : CepArg) (Yu Xv Yv : Option (List ℝ)) : Except PyErr (List Ell) := do
  let c ← cepColumns Xu Yu Xv Yv
  match c with
  | (xu, yu, none, _) =>
    if xu.length = yu.length then return List.zipWith (fun x y => cs2cep1 x y) xu yu else .error .unmodelled
  | (_, _, some _, none) => .error .typeError
  | (xu, yu, some xv, some yv) =>
    if xu.length = yu.length ∧ xu.length = xv.length ∧ xu.length = yv.length then
      return (List.zip xu (List.zip yu (List.zip xv yv))).map fun q => cs2cep2 q.1 q.2.1 q.2.2.1 q.2.2.2
    else .error .unmodelled

end

end UTide
