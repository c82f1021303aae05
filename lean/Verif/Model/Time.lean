import Verif.Model.Options
import Mathlib.Algebra.Order.Floor.Ring
import Mathlib.Algebra.Order.Archimedean.Real.Basic

/-!
# `_time_conversion.py`

An array of times is a list together with its numpy dtype class. Instants are milliseconds since 1970-01-01,
because both conversions go through `datetime64[ms]` (26, 33).
-/

namespace UTide

/-- A 1-D time argument by dtype: kind 'i', kind 'u', kind 'b', kind 'f', kind 'M' or an object array of
datetimes (`none` is NaT), kind 'U'. -/
inductive TimeArr
  | int (xs : List ℤ)
  | uint (xs : List ℕ)
  | bool (xs : List Bool)
  | float (xs : List Fl)
  | date (xs : List (Option ℤ))
  | str (xs : List String)

/-- `len(t)`. -/
def TimeArr.length : TimeArr → ℕ
  | .int xs => xs.length
  | .uint xs => xs.length
  | .bool xs => xs.length
  | .float xs => xs.length
  | .date xs => xs.length
  | .str xs => xs.length

/-- `_DAY_TO_GREGORIAN_EPOCH` (_time_conversion.py 8). -/
def dayToGregorianEpoch : ℤ := 719163

/-- `_MS_PER_DAY` (_time_conversion.py 11). -/
def msPerDay : ℤ := 1000 * 86400

noncomputable section

/-- The C cast of a float64 to int64: truncation towards zero. -/
def truncZ (x : ℝ) : ℤ := if 0 ≤ x then ⌊x⌋ else ⌈x⌉

/-- `date.astype("datetime64[ms]")` for one float: truncation; non-finite values become NaT (int64 overflow
is not modelled). -/
def flToMs : Fl → Option ℤ
  | .fin x => some (truncZ x)
  | _ => none

/-- `astype("datetime64[ms]")` of an array (_time_conversion.py 25-30): numbers are milliseconds, strings are
parsed by numpy (`dt64`), unparsable strings raise ValueError. -/
def astypeMs (dt64 : String → Option ℤ) : TimeArr → Except PyErr (List (Option ℤ))
  | .int xs => .ok (xs.map some)
  | .uint xs => .ok (xs.map fun n : ℕ => some (n : ℤ))
  | .bool xs => .ok (xs.map fun b => some (if b then 1 else 0))
  | .float xs => .ok (xs.map flToMs)
  | .date xs => .ok xs
  | .str xs => xs.mapM fun s => match dt64 s with
    | some ms => .ok (some ms)
    | none => .error .valueError

/-- `(date - epoch).astype(float) / _MS_PER_DAY` with the default epoch 1970-01-01 (_time_conversion.py 33-41);
NaT becomes NaN. -/
def date2num : Option ℤ → Fl
  | some ms => .fin ((ms : ℝ) / (msPerDay : ℝ))
  | none => .nan

/-- `_python_gregorian_datenum` (_time_conversion.py 44-53). -/
def pythonGregorianDatenum (dt64 : String → Option ℤ) (t : TimeArr) : Except PyErr (List Fl) := do
  let ms ← astypeMs dt64 t
  return ms.map fun x => (date2num x).add (.fin (dayToGregorianEpoch : ℝ))

/-- `np.asarray(epoch)` for a scalar epoch value: what `_python_gregorian_datenum(epoch)` works on.
Simplification: sequences and dictionaries are not modelled. -/
def epochArr : PyVal → Except PyErr TimeArr
  | .str s => .ok (.str [s])
  | .date ms => .ok (.date [some ms])
  | .num q => .ok (.float [.fin (q : ℝ)])
  | .bool b => .ok (.bool [b])
  | _ => .error .unmodelled

/-- The numbers of an integer or floating array, `none` for any other dtype: the test
`t.dtype.kind in ("if")` (_time_conversion.py 70). -/
def TimeArr.asNumbers : TimeArr → Option (List Fl)
  | .int xs => some (xs.map fun n : ℤ => .fin (n : ℝ))
  | .float xs => some xs
  | _ => none

/-- What happens to each number for a given epoch (_time_conversion.py 71-83). -/
def epochShift (dt64 : String → Option ℤ) (e : PyVal) : Except PyErr (Fl → Fl) := do
  if ← e.eqStr "python" then return id
  else if ← e.eqStr "matlab" then return fun x => x.sub (.fin 366)
  else
    match ← pythonGregorianDatenum dt64 (← epochArr e) with
    | [o] => return fun x => x.add o
    | _ => throw .unmodelled

/-- `_normalize_time` (_time_conversion.py 56-85). -/
def normalizeTime (dt64 : String → Option ℤ) (t : TimeArr) (epoch : PyVal) : Except PyErr (List Fl) :=
  match epoch with
  | .none => pythonGregorianDatenum dt64 t
  | e =>
    match t.asNumbers with
    | none => .error .valueError
    | some xs => do
      let f ← epochShift dt64 e
      return xs.map f

end
end UTide
