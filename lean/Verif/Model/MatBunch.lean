import Verif.Model.Bunch
import Mathlib.Data.String.Basic
import Mathlib.Data.List.DropRight
import Mathlib.Data.Prod.Lex

/-!
# Printing and loading (utilities.py 44, 66-100, 186-331)

`Bunch.formatted`, `loadbunch` with `_structured_to_bunch` and `_crunch`, `showmatbunch`,
`convert_unicode_arrays`. (`Bunch.from_pyfile` is in `PyFile`.) Not modelled: the
decoding of the file itself: `loadmat`/`np.load` is a function from file names to the variables found.
-/

namespace UTide

/-! ### Format strings -/

/-- `'{0!s:<{n}}'`: pad on the right with blanks. `len` counts code points, as `String.length`. -/
def ljust (s : String) (n : ℕ) : String := s ++ String.ofList (List.replicate (n - s.length) ' ')

/-- `'{0!s:>{n}}'`: pad on the left with blanks. -/
def rjust (s : String) (n : ℕ) : String := String.ofList (List.replicate (n - s.length) ' ') ++ s

/-- Python `max` of a list: ValueError when it is empty. -/
def pyMax : List ℕ → Except PyErr ℕ
  | [] => .error .valueError
  | x :: l => .ok (l.foldl max x)

namespace Bunch
variable {V : Type}

/-- The default format (utilities.py 44). -/
def strFmt (k v : String) (klen vlen : ℕ) : String := ljust k klen ++ " : " ++ rjust v vlen ++ "\n"

/-- `items.sort()` (utilities.py 83-84). The keys of a dict differ, so that two items are compared by
their keys only (Python compares strings by code points, as Lean does). -/
def sortItems (b : Bunch V) : List (String × V) := b.mergeSort fun x y => decide (x.1 ≤ y.1)

/-- The texts that are printed for the items: `str(v)`, or the name of the type with `types=True`
(utilities.py 88-95). `str` is Python's `str` of a value; it may raise (for instance for an empty Bunch
inside the Bunch). -/
def texts (str : V → Except PyErr String) (tname : V → String) (types : Bool) (items : List (String × V)) :
    Except PyErr (List (String × String)) :=
  items.mapM fun kv => if types then .ok (kv.1, tname kv.2) else (str kv.2).map fun s => (kv.1, s)

/-- `Bunch.formatted` (utilities.py 69-100). `fmt` is the effect of the format string on key, value, `klen` and
`vlen`. -/
def formatted (str : V → Except PyErr String) (tname : V → String) (b : Bunch V)
    (fmt : String → String → ℕ → ℕ → String := strFmt) (types : Bool := false) : Except PyErr String := do
  let items ← texts str tname types (sortItems b)
  let klen ← pyMax (items.map fun kv => kv.1.length)
  let vlen ← pyMax (items.map fun kv => kv.2.length)
  .ok (String.join (items.map fun kv => fmt kv.1 kv.2 (min 20 klen) (min 40 vlen)))

end Bunch

/-! ### Loading -/

/-- An ndarray: shape, `dtype.kind`, name of the dtype, elements in row-major order. -/
structure NdArr (α : Type) where
  shape : List ℕ
  kind : Char
  dtype : String
  data : List α

/-- A variable as `loadmat`/`np.load` deliver it: a string, a Matlab structure (a void array of shape (1, 1) with
named fields, in order), or any other array. -/
inductive MatVal (α : Type)
  | str (s : String)
  | struct (fields : List (String × MatVal α))
  | arr (a : NdArr α)

/-- What `loadbunch` puts into the Bunch. `masked a m` is a masked array with data `a` and mask `m`. -/
inductive Loaded (α : Type)
  | str (s : String)
  | item (x : α)
  | arr (a : NdArr α)
  | masked (a : NdArr α) (mask : List Bool)
  | bunch (fields : List (String × Loaded α))

section
variable {α : Type}

/-- `arr.squeeze()`: drop the dimensions of length 1. -/
def NdArr.squeeze (a : NdArr α) : NdArr α := { a with shape := a.shape.filter (· ≠ 1) }

/-- `_crunch` (utilities.py 186-206). `bad x` says that the number `x` is NaN or infinite; `arr.size` is the number
of elements. -/
def crunch (bad : α → Bool) (a : NdArr α) (masked : Bool) : Loaded α :=
  match a.data with
  | [x] => .item x
  | _ =>
    if masked && a.kind == 'f' && a.data.any bad then .masked a.squeeze (a.data.map bad)
    else .arr a.squeeze

/-- `_structured_to_bunch` (utilities.py 209-230). Field names of a numpy structured dtype are distinct, so that
the loop of assignments builds the Bunch in the order of the fields. -/
def structuredToBunch (bad : α → Bool) (masked : Bool) : MatVal α → Loaded α
  | .str s => .str s
  | .struct fields => .bunch (fields.map fun kv => (kv.1, structuredToBunch bad masked kv.2))
  | .arr a => crunch bad a masked
termination_by v => sizeOf v
decreasing_by
  have := List.sizeOf_lt_of_mem ‹_›
  have : sizeOf kv = 1 + sizeOf kv.1 + sizeOf kv.2 := by cases kv; rfl
  simp only [MatVal.struct.sizeOf_spec]
  omega

/-- `loadbunch` (utilities.py 281-298). `read` gives the variables in a file; a file that cannot be opened or decoded
is not modelled. -/
def loadbunch (bad : α → Bool) (read : String → List (String × MatVal α)) (fname : String) (masked : Bool := true) :
    Except PyErr (Bunch (Loaded α)) :=
  if ".mat".toList <:+ fname.toList ∨ ".npz".toList <:+ fname.toList then
    .ok (((read fname).filter fun kv => !decide ("__".toList <+: kv.1.toList)).foldl
      (fun out kv => Dict.set out kv.1 (structuredToBunch bad masked kv.2)) [])
  else .error .valueError

/-! ### Showing -/

/-- The entry shown for something that is not a Bunch (utilities.py 244-256). `describe` is the text for arrays and
other objects. -/
def showEntry (describe : Loaded α → String) : Loaded α → String
  | .str s => if s.length < 50 then s else s!"string, {s.length} characters"
  | v => describe v

/-- The elements collected by `_showmatbunch` before sorting (utilities.py 233-257), for the items of one Bunch. -/
def showElements (describe : Loaded α → String) (origin : String) : List (String × Loaded α) → List (String × String)
  | [] => []
  | (k, .bunch fields) :: rest =>
    showElements describe (origin ++ "." ++ k) fields ++ showElements describe origin rest
  | (k, v) :: rest => (origin ++ "." ++ k, showEntry describe v) :: showElements describe origin rest

/-- `elements.sort()` (utilities.py 258): pairs of strings, in lexicographic order. The list is sorted again and again
while it grows; what is returned is the sorted list of all elements. -/
def sortElements (l : List (String × String)) : List (String × String) :=
  l.mergeSort fun x y => decide (toLex x ≤ toLex y)

/-- `showmatbunch` (utilities.py 262-278) of a Bunch. -/
def showmatbunch (describe : Loaded α → String) (b : Bunch (Loaded α)) : Except PyErr String := do
  let elist := sortElements (showElements describe "" b)
  let namelen ← pyMax (elist.map fun nv => nv.1.length)
  .ok (String.join (elist.map fun nv =>
    ljust (String.ofList (nv.1.toList.drop 1)) (min 40 namelen) ++ " : " ++ nv.2 ++ "\n"))

end

/-! ### Strings in loaded arrays -/

/-- Values seen by `convert_unicode_arrays`: strings, arrays of strings (`dtype.kind == 'U'`), object arrays, dicts,
and everything else. -/
inductive UVal (α : Type)
  | str (s : String)
  | uarr (shape : List ℕ) (data : List String)
  | oarr (shape : List ℕ) (data : List (UVal α))
  | dict (fields : List (String × UVal α))
  | other (x : α)

/-- The characters `str.rstrip()` removes. -/
def isPySpace (c : Char) : Bool :=
  let n := c.toNat
  (9 ≤ n && n ≤ 13) || (28 ≤ n && n ≤ 32) || n == 0x85 || n == 0xa0 || n == 0x1680 || (0x2000 ≤ n && n ≤ 0x200a)
    || n == 0x2028 || n == 0x2029 || n == 0x202f || n == 0x205f || n == 0x3000

/-- `s.rstrip()`. -/
def rstrip (s : String) : String := String.ofList (s.toList.rdropWhile isPySpace)

section
variable {α : Type}

/-- One element of a 1-D object array (utilities.py 313-321). Simplification: a 0-d array keeps its identity when it is
assigned to an element. -/
def unwrap : UVal α → UVal α
  | .uarr _ [s] => .str s
  | v => v

/-- `convert_unicode_arrays` for one value (utilities.py 310-329). Iterating over a 0-d object array is a TypeError; the
rows of an object array of two or more dimensions are object arrays and are copied. -/
def convertUnicode : UVal α → Except PyErr (UVal α)
  | .oarr [] _ => .error .typeError
  | .oarr [n] data => .ok (.oarr [n] (data.map unwrap))
  | .oarr shape data => .ok (.oarr shape data)
  | .uarr [_] data => .ok (.oarr [data.length] (data.map fun s => .str (rstrip s)))
  | .dict fields => (fields.mapM fun kv => (convertUnicode kv.2).map fun v => (kv.1, v)).map .dict
  | v => .ok v
termination_by v => sizeOf v
decreasing_by
  have := List.sizeOf_lt_of_mem ‹_›
  have : sizeOf kv = 1 + sizeOf kv.1 + sizeOf kv.2 := by cases kv; rfl
  simp only [UVal.dict.sizeOf_spec]
  omega

/-- `convert_unicode_arrays` (utilities.py 301-331). -/
def convertUnicodeArrays (b : Dict (UVal α)) : Except PyErr (Dict (UVal α)) :=
  b.mapM fun kv => (convertUnicode kv.2).map fun v => (kv.1, v)

end
end UTide
