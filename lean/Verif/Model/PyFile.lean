import Verif.Model.Bunch
import Mathlib.Data.String.Basic

/-!
# `Bunch.from_pyfile` (utilities.py 102-125)

What Python makes of the program text is a parameter: `run` takes the text handed to `compile` and gives the dictionary
that ends up in `d["_temp_out"]`, or the exception raised on the way (in compiling, in executing, or because the result
cannot be used in `update`).
-/

namespace UTide

/-- `for line in f`: the lines of a text file, each with its newline (the last one perhaps without). A newline is
`"\n"` (universal newlines have been translated). -/
def fileLines : List Char → List (List Char)
  | [] => []
  | c :: cs =>
    if c = '\n' then [c] :: fileLines cs
    else match fileLines cs with
      | [] => [[c]]
      | l :: ls => (c :: l) :: ls

/-- The program that is compiled (utilities.py 110-121). -/
def pyfileText (text : List Char) : List Char :=
  (["def _temp_func():\n".toList] ++ (fileLines text).map (fun line => "    ".toList ++ line) ++
    ["\n    return(locals())\n".toList, "_temp_out = _temp_func()\n".toList, "del(_temp_func)\n".toList]).flatten

namespace Bunch
variable {V : Type}

/-- `b.from_pyfile(filename)` (utilities.py 102-125): `file` is the content of the file or the error on opening it. The
result is the new state of the Bunch; when an exception is raised the Bunch keeps its old state. -/
def fromPyfile (run : List Char → Except PyErr (Dict V)) (b : Bunch V) (file : Except PyErr (List Char)) :
    Except PyErr (Bunch V) := do
  let text ← file
  let d ← run (pyfileText text)
  return b.update d

end Bunch
end UTide
