import Verif.Model.Output

/-!
# Arguments that are plain Python sequences
-/

namespace UTide

noncomputable section

open Classical

/-- A numerical argument: an array (numpy, masked, pandas), or a plain list or tuple with the same elements. -/
inductive Arg (α : Type)
  | array (a : α)
  | plain (a : α)

/-- The elements, as `np.asarray` has them. -/
def Arg.elements {α : Type} : Arg α → α
  | .array a => a
  | .plain a => a

/-- `x.shape`: an attribute that lists and tuples do not have. -/
def Arg.withShape {α : Type} : Arg α → Except PyErr α
  | .array a => .ok a
  | .plain _ => .error .attributeError

/-- `v.shape`, if there is a `v`. -/
def withShape? : Option (Arg Series) → Except PyErr (Option Series)
  | none => .ok none
  | some v => v.withShape.map some

/-- `solve` for arguments of either kind: the first use of `t`, `u`, `v` is of their attribute `shape`, after the options
and the latitude have been looked at (_solve.py 219-221, 465-475). -/
def solveArgs (E : Env) (t : Arg TimeArg) (u : Arg Series) (v : Option (Arg Series)) (lat : Option ℝ) (opts : Dict PyVal) :
    Except PyErr Coef := do
  let _ ← getOpt opts v.isSome
  raiseIf lat.isNone .valueError
  let t ← t.withShape
  let u ← u.withShape
  raiseIf (t.shape != u.shape || t.shape.length != 1 || u.shape.length != 1) .valueError
  let v ← withShape? v
  solve E t u v lat opts

/-- `reconstruct` for times of either kind: `np.atleast_1d` takes both (_reconstruct.py 65). -/
def reconstructArgs (E : Env) (t : Arg TimeArg) (c : Coef) (a : RecArgs) : Except PyErr (List (Option ℂ)) := do
  raiseIf ((atleast1d t.elements).length != 1) .valueError
  reconstruct E t.elements.arr c a

end

end UTide
