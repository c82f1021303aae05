import Mathlib.Data.Rat.Defs
import Mathlib.Analysis.Real.Sqrt

/-!
# Python values, exceptions and idealised float64

Exceptions are values of `PyErr`; a Python function that may raise is an `Except PyErr _`.
-/

namespace UTide

/-- The Python exception classes that can escape from the modelled code, plus two markers which are
not Python exceptions: `nonFinite` (the code goes on computing with NaN/inf, or numpy's linear algebra
rejects them; the model stops there) and `unmodelled` (an argument of a Python type the model does
not describe). -/
inductive PyErr
  | keyError | valueError | typeError | attributeError | indexError | notImplementedError
  | unboundLocalError | linAlgError | nonFinite | unmodelled
  deriving DecidableEq, Repr

/-- How a Python sequence is stored; `ndarray` matters because `==` is then element-wise. -/
inductive SeqKind
  | list | tuple | ndarray
  deriving DecidableEq, Repr

/-- Python values that occur as option values of `solve` (`_solve.py` 16-31, 122-218).
A finite float64 or an int is a rational number, so `num` carries a `ℚ`. `date` stands for
`datetime.date`, `datetime.datetime` and `np.datetime64` scalars, given in milliseconds since
1970-01-01 (the precision `_time_conversion.py` 46 and 53 reduces them to). -/
inductive PyVal
  | none
  | bool (b : Bool)
  | num (q : ℚ)
  | str (s : String)
  | date (ms : ℤ)
  | seq (k : SeqKind) (xs : List PyVal)
  | dict (isBunch : Bool) (kv : List (String × PyVal))

namespace PyVal

/-- Python truth value. The truth value of an ndarray with other than one element is an error. -/
def truthy : PyVal → Except PyErr Bool
  | .none => .ok false
  | .bool b => .ok b
  | .num q => .ok (q != 0)
  | .str s => .ok (s != "")
  | .date _ => .ok true
  | .seq .ndarray [x] => match x with
    | .bool b => .ok b
    | .num q => .ok (q != 0)
    | .str s => .ok (s != "")
    | _ => .error .unmodelled
  | .seq .ndarray _ => .error .valueError
  | .seq _ xs => .ok (!xs.isEmpty)
  | .dict _ kv => .ok (!kv.isEmpty)

/-- The truth value of `v == s` for a string literal `s`. For an ndarray the comparison is element-wise
and the truth value of the resulting array is an error unless it has exactly one element. -/
def eqStr (v : PyVal) (s : String) : Except PyErr Bool :=
  match v with
  | .str s' => .ok (s' == s)
  | .seq .ndarray [x] => match x with
    | .str s' => .ok (s' == s)
    | _ => .ok false
  | .seq .ndarray _ => .error .valueError
  | _ => .ok false

/-- `len(v)`; TypeError for objects without length. -/
def len : PyVal → Except PyErr Nat
  | .str s => .ok s.length
  | .seq _ xs => .ok xs.length
  | .dict _ kv => .ok kv.length
  | _ => .error .typeError

/-- The strings obtained by iterating over `v` (used for constituent names). -/
def iterNames : PyVal → Except PyErr (List String)
  | .seq _ xs => xs.mapM fun x => match x with
    | .str s => .ok s
    | _ => .error .unmodelled
  | .str s => .ok (s.toList.map fun c => String.ofList [c])
  | _ => .error .unmodelled

/-- The numbers in the sequence `v` (used for ratios and offsets). -/
def iterNums : PyVal → Except PyErr (List ℚ)
  | .seq _ xs => xs.mapM fun x => match x with
    | .num q => .ok q
    | _ => .error .unmodelled
  | _ => .error .unmodelled

end PyVal

/-! ## Idealised float64 with non-finite values -/

/-- float64 without rounding: a real number, NaN, or an infinity. There is a single zero. -/
inductive Fl
  | fin (x : ℝ) | nan | pinf | ninf

namespace Fl
open Classical

noncomputable section

def neg : Fl → Fl
  | fin x => fin (-x)
  | nan => nan
  | pinf => ninf
  | ninf => pinf

def add : Fl → Fl → Fl
  | nan, _ => nan
  | _, nan => nan
  | fin x, fin y => fin (x + y)
  | fin _, b => b
  | a, fin _ => a
  | pinf, pinf => pinf
  | ninf, ninf => ninf
  | pinf, ninf => nan
  | ninf, pinf => nan

def sub (a b : Fl) : Fl := add a (neg b)

/-- Product of a real factor and an infinity of the given sign. -/
def scaleInf (x : ℝ) (positive : Bool) : Fl :=
  if x = 0 then nan
  else if (0 < x ↔ positive = true) then pinf else ninf

def mul : Fl → Fl → Fl
  | nan, _ => nan
  | _, nan => nan
  | fin x, fin y => fin (x * y)
  | fin x, pinf => scaleInf x true
  | fin x, ninf => scaleInf x false
  | pinf, fin y => scaleInf y true
  | ninf, fin y => scaleInf y false
  | pinf, pinf => pinf
  | ninf, ninf => pinf
  | pinf, ninf => ninf
  | ninf, pinf => ninf

/-- numpy division (warnings only): `x/0` is an infinity of the sign of `x`, `0/0` is NaN. -/
def div : Fl → Fl → Fl
  | nan, _ => nan
  | _, nan => nan
  | fin x, fin y =>
      if y = 0 then (if x = 0 then nan else if 0 < x then pinf else ninf) else fin (x / y)
  | fin _, _ => fin 0
  | pinf, fin y => if y < 0 then ninf else pinf
  | ninf, fin y => if y < 0 then pinf else ninf
  | _, _ => nan

def sqrt : Fl → Fl
  | fin x => if x < 0 then nan else fin (Real.sqrt x)
  | pinf => pinf
  | _ => nan

instance : Neg Fl := ⟨neg⟩
instance : Add Fl := ⟨add⟩
instance : Sub Fl := ⟨sub⟩
instance : Mul Fl := ⟨mul⟩
instance : Div Fl := ⟨div⟩

/-- `a ** 2`. -/
def sq (a : Fl) : Fl := a * a

/-- `a <= b` as numpy evaluates it: false as soon as a NaN is involved. -/
def le : Fl → Fl → Prop
  | nan, _ => False
  | _, nan => False
  | fin x, fin y => x ≤ y
  | ninf, _ => True
  | _, pinf => True
  | pinf, _ => False
  | _, ninf => False

/-- `a < b` as numpy evaluates it. -/
def lt : Fl → Fl → Prop
  | nan, _ => False
  | _, nan => False
  | fin x, fin y => x < y
  | ninf, ninf => False
  | ninf, _ => True
  | pinf, _ => False
  | fin _, pinf => True
  | fin _, ninf => False

instance : LE Fl := ⟨le⟩
instance : LT Fl := ⟨lt⟩

/-- `np.isfinite`. -/
def isFinite : Fl → Bool
  | fin _ => true
  | _ => false

/-- The real number, if finite. -/
def toReal? : Fl → Option ℝ
  | fin x => some x
  | _ => none

/-- Sum of a float array. -/
def sum (l : List Fl) : Fl := l.foldr (· + ·) (fin 0)

end

end Fl
end UTide
