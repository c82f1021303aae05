import Verif.Model.Time

/-!
# Data editing: `_slvinit` (_solve.py 465-528)

The option part of `_slvinit` (530-560) is `slvinitOpts` in `Verif.Model.Options`.
-/

namespace UTide

noncomputable section

open Classical

/-- One entry of a (possibly masked) float array. -/
structure Cell where
  val : Fl
  masked : Bool

/-- A data argument `u` or `v`: its shape and its entries. -/
structure Series where
  shape : List ℕ
  data : List Cell

/-- A time argument: shape, dtype and values, and the mask if it is a masked array. -/
structure TimeArg where
  shape : List ℕ
  arr : TimeArr
  mask : List Bool

/-- `np.ma.masked_invalid(uin)` (_solve.py 484, 486): non-finite entries become masked, masked ones stay so. -/
def maskedInvalid (c : Cell) : Cell := ⟨c.val, c.masked || !c.val.isFinite⟩

/-- `a.compress(keep)`. -/
def compress {α : Type} (keep : List Bool) (xs : List α) : List α :=
  ((keep.zip xs).filter Prod.fst).map Prod.snd

/-- `.filled()` of an entry; the fill value of a masked float array is 1e20. Entries reaching this point are
never masked (theorem `filled_editing`). -/
def Cell.filled (c : Cell) : ℝ := match c with
  | ⟨.fin x, false⟩ => x
  | _ => 10 ^ 20

/-- `tin.compressed()` after `np.ma.masked_invalid(tin)` (_solve.py 483, 493). -/
def finiteTimes (tn : List Fl) : List ℝ := tn.filterMap Fl.toReal?

/-- `np.unique`, up to order (only its variance is used). -/
def uniq (l : List ℝ) : List ℝ := l.dedup

/-- `np.diff`. -/
def diffs : List ℝ → List ℝ
  | a :: b :: l => (b - a) :: diffs (b :: l)
  | _ => []

/-- `np.mean`; only for non-empty lists. -/
def mean (l : List ℝ) : ℝ := l.sum / l.length

/-- `np.var`: NaN for an empty array. -/
def variance (l : List ℝ) : Fl :=
  if l = [] then .nan else .fin (mean (l.map fun x => (x - mean l) ^ 2))

/-- `np.finfo(np.float64).eps` (_solve.py 516). -/
def eps : ℝ := 1 / 2 ^ 52

/-- `np.var(np.unique(np.diff(tin))) < eps` (_solve.py 517). -/
def isEqui (tin : List ℝ) : Bool := decide (variance (uniq (diffs tin)) < Fl.fin eps)

/-- `np.ptp`; ValueError for an empty array. -/
def ptp : List ℝ → Except PyErr ℝ
  | [] => .error .valueError
  | a :: l => .ok (l.foldl max a - l.foldl min a)

/-- `0.5 * (t[0] + t[-1])` (_solve.py 522, 528); IndexError for an empty array. -/
def midpoint : List ℝ → Except PyErr ℝ
  | [] => .error .indexError
  | a :: l => .ok (0.5 * (a + (a :: l).getLast (by simp)))

/-- The values computed by the data part of `_slvinit`: `tin, t, u, v, tref, lor, elor` and `opt["equi"]`. -/
structure Edited where
  tin : List ℝ
  t : List ℝ
  u : List ℝ
  v : Option (List ℝ)
  tref : ℝ
  lor : ℝ
  elor : Fl
  equi : Bool

/-- Step 1 (_solve.py 483-493): drop samples with an invalid time. -/
def dropTimes (tn : List Fl) (u : List Cell) : List Cell :=
  if tn.any fun x => !x.isFinite then compress (tn.map Fl.isFinite) u else u

/-- `np.ma.is_masked(uin) or np.ma.is_masked(vin)` (_solve.py 497); `None` is not masked. -/
def someMasked (u : List Cell) : Option (List Cell) → Bool
  | some v => u.any Cell.masked || v.any Cell.masked
  | none => u.any Cell.masked

/-- `goodmask` (_solve.py 498-501). -/
def goodMask (u : List Cell) : Option (List Cell) → List Bool
  | some v => (List.zipWith (fun a b => a || b) (v.map Cell.masked) (u.map Cell.masked)).map (!·)
  | none => (u.map Cell.masked).map (!·)

/-- Step 2 (_solve.py 496-510) on the edited times and the masked series: `t`, `u`, `v`. -/
def dropMasked (tin : List ℝ) (u : List Cell) (v : Option (List Cell)) :
    List ℝ × List ℝ × Option (List ℝ) :=
  if someMasked u v then
    (compress (goodMask u v) tin, (compress (goodMask u v) u).map Cell.filled,
     v.map fun v' => (compress (goodMask u v) v').map Cell.filled)
  else
    (tin, u.map Cell.filled, v.map fun v' => v'.map Cell.filled)

/-- Reference time and record length (_solve.py 515-528). `elor` of a single sample is `0*1/0`, NaN. -/
def timeStats (tin t : List ℝ) : Except PyErr (ℝ × ℝ × Fl × Bool) :=
  let x := if isEqui tin then tin else t
  do
    let lor ← ptp x
    let tref ← midpoint x
    return (tref, lor, (Fl.fin (lor * x.length)).div (.fin (x.length - 1)), isEqui tin)

/-- Steps 1 and 2 and the time statistics (_solve.py 482-528), given normalised times. -/
def editData (tn : List Fl) (u : List Cell) (v : Option (List Cell)) : Except PyErr Edited := do
  let u := dropTimes tn (u.map maskedInvalid)
  let v := v.map fun v => dropTimes tn (v.map maskedInvalid)
  let tin := finiteTimes tn
  let (t, uu, vv) := dropMasked tin u v
  let (tref, lor, elor, equi) ← timeStats tin t
  return { tin := tin, t := t, u := uu, v := vv, tref := tref, lor := lor, elor := elor, equi := equi }

/-- Shape checks (_solve.py 471-475). -/
def checkShapes (t : TimeArg) (u : Series) (v : Option Series) : Except PyErr Unit := do
  raiseIf (t.shape != u.shape || t.shape.length != 1 || u.shape.length != 1) .valueError
  raiseIf (match v with | some v => v.shape != u.shape | none => false) .valueError

/-- `_slvinit` without the options (_solve.py 465-528). `np.asarray` in `_normalize_time`
(_time_conversion.py 64) discards the mask of `t`. Returns also the latitude. -/
def slvInit (dt64 : String → Option ℤ) (t : TimeArg) (u : Series) (v : Option Series) (lat : Option ℝ)
    (epoch : PyVal) : Except PyErr (Edited × ℝ) :=
  match lat with
  | none => .error .valueError
  | some lat => do
    checkShapes t u v
    let tn ← normalizeTime dt64 t.arr epoch
    let ed ← editData tn u.data (v.map Series.data)
    return (ed, lat)

end

end UTide
