import Verif.Model.Py

/-!
# `utide.utilities.Bunch` (utilities.py 21-177)

A Python dict keeps its insertion order; it is modelled by an association list in that order.
-/

namespace UTide

/-- A dict with string keys, in insertion order. -/
abbrev Dict (V : Type) := List (String × V)

namespace Dict
variable {V : Type}

/-- `list(d.keys())`. -/
def keys (d : Dict V) : List String := d.map Prod.fst

/-- `d.get(k)` / `d[k]` with a missing key as `none`. -/
def get? : Dict V → String → Option V
  | [], _ => none
  | (k', v) :: d, k => if k' = k then some v else get? d k

/-- `k in d`. -/
def mem (d : Dict V) (k : String) : Bool := (get? d k).isSome

/-- `d[k] = v`: overwrite in place or append. -/
def set : Dict V → String → V → Dict V
  | [], k, v => [(k, v)]
  | (k', v') :: d, k, v => if k' = k then (k, v) :: d else (k', v') :: set d k v

/-- `d.update(e)`. -/
def update (d e : Dict V) : Dict V := e.foldl (fun acc kv => acc.set kv.1 kv.2) d

/-- `d[k]`, raising KeyError. -/
def get (d : Dict V) (k : String) : Except PyErr V :=
  match get? d k with
  | some v => .ok v
  | none => .error .keyError

end Dict

/-- A `Bunch` *is* a dict; only attribute access and the update methods are new. -/
abbrev Bunch (V : Type) := Dict V

namespace Bunch
variable {V : Type}

/-- `Bunch(*args, **kwargs)` (utilities.py 46-55). -/
def mk (args : List (Dict V)) (kwargs : Dict V) : Bunch V :=
  Dict.update (args.foldl Dict.update []) kwargs

/-- Names found on the class before `__getattr__` is consulted: the methods of `dict`, the members that
`Bunch` defines (utilities.py 44-177), and the special names every Python object has. -/
def classAttrs : List String :=
  ["__class__", "__class_getitem__", "__contains__", "__delattr__", "__delitem__", "__dict__", "__dir__",
   "__doc__", "__eq__", "__format__", "__ge__", "__getattr__", "__getattribute__", "__getitem__",
   "__getstate__", "__gt__", "__hash__", "__init__", "__init_subclass__", "__ior__", "__iter__", "__le__",
   "__len__", "__lt__", "__module__", "__ne__", "__new__", "__or__", "__reduce__", "__reduce_ex__",
   "__repr__", "__reversed__", "__ror__", "__setattr__", "__setitem__", "__sizeof__", "__str__",
   "__subclasshook__", "__weakref__",
   "clear", "copy", "fromkeys", "get", "items", "keys", "pop", "popitem", "setdefault", "update", "values",
   "_check_strict", "formatted", "from_pyfile", "str_fmt", "update_None", "update_values"]

/-- Outcome of evaluating `b.name`. -/
inductive Attr (V : Type)
  | val (v : V)
  | classMember (name : String)
  | raised (e : PyErr)

/-- `b.name` (utilities.py 57-61; the property `t_mpl`, 170-177, raises the KeyError of `self["t_mpl"]`). -/
def getattr (b : Bunch V) (name : String) : Attr V :=
  if name = "t_mpl" then
    match b.get? "t_mpl" with
    | some v => .val v
    | none => .raised .keyError
  else if name ∈ classAttrs then .classMember name
  else match b.get? name with
    | some v => .val v
    | none => .raised .attributeError

/-- `b.name = v` (utilities.py 63-64). -/
def setattr (b : Bunch V) (name : String) (v : V) : Bunch V := b.set name v

/-- The dictionary `newkw` collected at the start of `update_values`/`update_None`
(utilities.py 138-141, 152-155). -/
def newkw (args : List (Dict V)) (kw : Dict V) : Dict V :=
  Dict.update (args.foldl Dict.update []) kw

/-- `_check_strict` (utilities.py 160-168). -/
def checkStrict (b : Bunch V) (strict : Bool) (kw : Dict V) : Except PyErr Unit :=
  if strict && kw.keys.any (fun k => !b.mem k) then .error .keyError else .ok ()

/-- `update_values` (utilities.py 127-144). The result is the new state of the Bunch; when an exception
is raised the Bunch keeps its old state. -/
def updateValues (b : Bunch V) (args : List (Dict V)) (kw : Dict V) (strict : Bool := false) :
    Except PyErr (Bunch V) := do
  let nk := newkw args kw
  checkStrict b strict nk
  let dsub := nk.filter (fun p => b.mem p.1)
  return b.update dsub

/-- `self[k] is None` for a key that is present (utilities.py 157). -/
def holdsNone (isNone : V → Bool) (b : Bunch V) (k : String) : Bool :=
  match b.get? k with
  | some v => isNone v
  | none => false

/-- `update_None` (utilities.py 146-158); `isNone` recognises Python's `None`. -/
def updateNone (isNone : V → Bool) (b : Bunch V) (args : List (Dict V)) (kw : Dict V)
    (strict : Bool := false) : Except PyErr (Bunch V) := do
  let nk := newkw args kw
  checkStrict b strict nk
  let dsub := nk.filter (fun p => holdsNone isNone b p.1)
  return b.update dsub

end Bunch
end UTide
