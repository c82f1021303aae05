import Verif.Model.Reconstruct

/-!
# The Bunches that `solve` and `reconstruct` return
-/

namespace UTide

noncomputable section

open Classical

/-- Values found in the returned Bunches: arrays of names, of numbers, of numbers with NaN/inf, a series with NaN as
`none`, single numbers, the time argument itself, option values, the `constit` argument of `reconstruct`, the options,
the result of `robustfit`, and nested dictionaries. -/
inductive OutVal
  | names (l : List String)
  | reals (l : List ℝ)
  | ints (l : List ℕ)
  | floats (l : List Fl)
  | series (l : List (Option ℝ))
  | num (x : ℝ)
  | count (n : ℕ)
  | time (t : TimeArg)
  | py (v : PyVal)
  | constit (a : Option RecConstit)
  | opt (o : Opt)
  | robust (r : RobOut)
  | dict (d : List (String × OutVal))

/-- `coef.aux` (constituent_selection.py 100-104, _solve.py 247-248). -/
def auxOut (c : Coef) : Dict OutVal :=
  [("frq", .reals c.frq), ("lind", .ints c.lind), ("reftime", .num c.reftime), ("opt", .opt c.opt), ("lat", .num c.lat)]

/-- The ellipse parameters (_solve.py 342, 350). -/
def ellOut : EllArr → Dict OutVal
  | .one A g => [("A", .reals A), ("g", .reals g)]
  | .two a b th g => [("Lsmaj", .reals a), ("Lsmin", .reals b), ("theta", .reals th), ("g", .reals g)]

/-- Mean and slope (_solve.py 353-367). -/
def meanOut : MeanSlope → Dict OutVal
  | .one mn sl => [("mean", .num mn)] ++ match sl with
    | some s => [("slope", .num s)]
    | none => []
  | .two um vm sl => [("umean", .num um), ("vmean", .num vm)] ++ match sl with
    | some s => [("uslope", .num s.1), ("vslope", .num s.2)]
    | none => []

/-- The intervals (confidence.py 209-216). -/
def ciOut : Option CiArr → Dict OutVal
  | none => []
  | some (.one A g) => [("g_ci", .floats g), ("A_ci", .floats A)]
  | some (.two a b th g) => [("g_ci", .floats g), ("Lsmaj_ci", .floats a), ("Lsmin_ci", .floats b), ("theta_ci", .floats th)]

/-- `coef["diagn"]` (diagnostics.py 35-42). -/
def diagnOut : Option Diagn → Dict OutVal
  | none => []
  | some d => [("diagn", .dict [("name", .names d.name), ("PE", .floats d.PE), ("SNR", .floats d.SNR)])]

/-- An entry that may be missing. -/
def entryOut {α : Type} (k : String) (f : α → OutVal) : Option α → Dict OutVal
  | none => []
  | some x => [(k, f x)]

/-- The Bunch returned by `solve`, in the order in which the entries are made (constituent_selection.py 99-125,
_solve.py 322-367, 396-427). -/
def coefOut (c : Coef) : Dict OutVal :=
  [("name", .names c.name), ("aux", .dict (auxOut c)), ("nR", .count c.nR), ("nNR", .count c.nNR), ("nI", .count c.nI)]
    ++ entryOut "rf" .robust c.rf ++ [("weights", .reals c.weights)] ++ ellOut c.ell ++ meanOut c.mean ++ ciOut c.ci
    ++ diagnOut c.diagn ++ entryOut "PE" .floats c.PE ++ entryOut "SNR" .floats c.SNR

/-- `np.atleast_1d(t)` and the test `t.ndim != 1` (_reconstruct.py 65-67). -/
def atleast1d (t : TimeArg) : List ℕ := if t.shape = [] then [1] else t.shape

/-- `u` and `v`, or `h` (_reconstruct.py 87-90); `v is not None` exactly for a vector `coef`. -/
def seriesOut (twodim : Bool) (r : List (Option ℂ)) : Dict OutVal :=
  if twodim then [("u", .series (r.map (Option.map Complex.re))), ("v", .series (r.map (Option.map Complex.im)))]
  else [("h", .series (r.map (Option.map Complex.re)))]

/-- The Bunch returned by `reconstruct` (_reconstruct.py 64-91). The mask of a masked `t` is lost in `_normalize_time`. -/
def reconstructOut (E : Env) (t : TimeArg) (c : Coef) (a : RecArgs) : Except PyErr (Dict OutVal) := do
  let out : Dict OutVal := [("t_in", .time t), ("epoch", .py a.epoch), ("constit", .constit a.constit), ("min_SNR", .num a.minSNR),
    ("min_PE", .num a.minPE)]
  raiseIf ((atleast1d t).length != 1) .valueError
  let tn ← normalizeTime E.dt64 t.arr a.epoch
  let python ← a.epoch.eqStr "python"
  let out := Dict.set out "t_mpl" (if python then .time t else .floats tn)
  let r ← reconstruct E t.arr c a
  return (seriesOut c.opt.twodim r).foldl (fun d kv => Dict.set d kv.1 kv.2) out

end

end UTide
