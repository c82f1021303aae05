import Verif.Model.Num
import Verif.Model.Options
import Mathlib.Analysis.SpecialFunctions.Trigonometric.Basic

/-!
# `utide/robustfit.py`
-/

namespace UTide

noncomputable section

open Classical

/-- The keys of `wfuncdict` (robustfit.py 64-74). -/
inductive WFun
  | andrews | bisquare | cauchy | fair | huber | logistic | ols | talwar | welsch
  deriving DecidableEq, Repr

/-- `wfuncdict[name]` (robustfit.py 64-74, 172). -/
def WFun.ofName (s : String) : Except PyErr WFun :=
  if s = "andrews" then .ok .andrews
  else if s = "bisquare" then .ok .bisquare
  else if s = "cauchy" then .ok .cauchy
  else if s = "fair" then .ok .fair
  else if s = "huber" then .ok .huber
  else if s = "logistic" then .ok .logistic
  else if s = "ols" then .ok .ols
  else if s = "talwar" then .ok .talwar
  else if s = "welsch" then .ok .welsch
  else .error .keyError

/-- `tune_defaults` (robustfit.py 76-86). -/
def WFun.tune : WFun → ℚ
  | .andrews => 1339 / 1000
  | .bisquare => 4685 / 1000
  | .cauchy => 2385 / 1000
  | .fair => 1400 / 1000
  | .huber => 1345 / 1000
  | .logistic => 1205 / 1000
  | .ols => 1
  | .talwar => 2795 / 1000
  | .welsch => 2985 / 1000

/-- The element-wise formula of each weight function, applied to one residual (robustfit.py 12-61). -/
def WFun.weight (f : WFun) (r : ℂ) : ℝ :=
  let a := ‖r‖
  match f with
  | .andrews =>
    let a := max (Real.sqrt eps52) a
    (if a < Real.pi then 1 else 0) * Real.sin a / a
  | .bisquare => (if a < 1 then 1 else 0) * (1 - a ^ 2) ^ 2
  | .cauchy => 1 / (1 + a ^ 2)
  | .fair => 1 / (1 + a)
  | .huber => 1 / max 1 a
  | .logistic => let a := max (Real.sqrt 1) a; Real.tanh a / a
  | .ols => 1
  | .talwar => if a < 1 then 1 else 0
  | .welsch => Real.exp (-(a ^ 2))
where
  /-- `np.spacing(1)` -/
  eps52 : ℝ := 1 / 2 ^ 52

/-- Does the function call Python's `max` on the array (robustfit.py 14, 37, 43)? -/
def WFun.usesMax : WFun → Bool
  | .andrews | .huber | .logistic => true
  | _ => false

/-- A weight function applied to an array of residuals. Python's `max(scalar, array)` needs the truth value of an
array: ValueError unless it has exactly one element (the empty array is version dependent and not modelled). -/
def WFun.apply (f : WFun) (r : List ℂ) : Except PyErr (List ℝ) :=
  if f.usesMax && r.length != 1 then
    (if r.length = 0 then .error .unmodelled else .error .valueError)
  else .ok (r.map f.weight)

/-- `sigma_hat` (robustfit.py 89-94) of a complex array. -/
def sigmaHat (x : List ℂ) : ℝ := median (x.map fun z => ‖z - cmedian x‖) / 0.6745

/-- `leverage` (robustfit.py 97-112): entry `j` is `|sum_i x[j,i] * pinv[i,j]|`. -/
def leverage (N : Num) (ncol : ℕ) (x : List (List ℂ)) : List ℝ :=
  x.zipIdx.map fun rj =>
    ‖(List.zipWith (fun xji (prow : List ℂ) => xji * prow.getD rj.2 0) rj.1 (N.pinv ncol x)).sum‖

/-- `r_normed` (robustfit.py 115-119). -/
def rNormed (R : List ℂ) (rfac : List ℝ) : List ℂ :=
  List.zipWith (fun (f : ℝ) (r : ℂ) => (f : ℂ) * r / (sigmaHat R : ℂ)) rfac R

/-- The keyword arguments of `robustfit` (robustfit.py 125-129). -/
structure RobArgs where
  wfName : String
  tune : Option ℚ
  rcond : ℚ
  tol : ℚ
  maxit : ℕ

/-- Reading `**robust_kw` (robustfit.py 122-130, _solve.py 319). Simplification: values of unexpected type are
not modelled. -/
def readRobArgs : List (String × PyVal) → RobArgs → Except PyErr RobArgs
  | [], a => .ok a
  | (k, v) :: kv, a =>
    if k = "weight_function" then match v with
      | .str s => readRobArgs kv { a with wfName := s }
      | _ => .error .keyError
    else if k = "tune" then match v with
      | .none => readRobArgs kv { a with tune := none }
      | .num q => readRobArgs kv { a with tune := some q }
      | _ => .error .unmodelled
    else if k = "rcond" then match v with
      | .num q => readRobArgs kv { a with rcond := q }
      | _ => .error .unmodelled
    else if k = "tol" then match v with
      | .num q => readRobArgs kv { a with tol := q }
      | _ => .error .unmodelled
    else if k = "maxit" then match v with
      | .num q => if q.den = 1 then readRobArgs kv { a with maxit := q.num.toNat } else .error .typeError
      | _ => .error .unmodelled
    else .error .typeError

/-- The defaults in the signature (robustfit.py 125-129). -/
def robDefaults : RobArgs := ⟨"bisquare", none, 1, 1 / 1000, 50⟩

/-- Everything the loop reads but does not change. -/
structure RobProblem where
  X : List (List ℂ)
  y : List ℂ
  ncol : ℕ
  wf : WFun
  rcond : ℚ
  tol : ℚ
  rfac : List ℝ

/-- `np.linalg.lstsq(w[:, None] * X, w * y, rcond)` (robustfit.py 205-207). -/
def weightedFit (N : Num) (p : RobProblem) (w : List ℝ) : Lstsq :=
  N.lstsq (some p.rcond) p.ncol
    (List.zipWith (fun (wi : ℝ) r => r.map fun x => (wi : ℂ) * x) w p.X)
    (List.zipWith (fun (wi : ℝ) yi => (wi : ℂ) * yi) w p.y)

/-- `y - np.dot(X, b)` (robustfit.py 239). -/
def residual (p : RobProblem) (b : List ℂ) : List ℂ :=
  List.zipWith (fun r yi => yi - dot r b) p.X p.y

/-- The values saved for the next iteration (robustfit.py 233-239): `oldlstsq`, `oldw`, `oldrmeansq` and the
residuals `resid` of that fit. -/
structure Old where
  fit : Lstsq
  w : List ℝ
  rmeansq : ℝ
  resid : List ℂ

/-- The local variables that the code after the loop reads (robustfit.py 244-258). -/
structure RobEnd where
  fit : Lstsq
  w : List ℝ
  resid : List ℂ
  iterations : ℕ

/-- What one pass of the loop does. -/
inductive RobStep
  | stop (e : RobEnd)
  | next (old : Old) (w : List ℝ)

/-- `improvement` (robustfit.py 218). -/
def improvement (oldr newr : ℝ) : Fl := (Fl.fin (oldr - newr)).div (.fin oldr)

/-- Saving the fit and computing new weights (robustfit.py 233-242). A vanishing `sigma_hat` makes the normalised
residuals NaN or infinite, which only `ols` does not look at (49-51). -/
def reweight (p : RobProblem) (fit : Lstsq) (w : List ℝ) (rmeansq : ℝ) : Except PyErr RobStep :=
  let resid := residual p fit.b
  if p.wf ≠ .ols ∧ sigmaHat resid = 0 then .error .nonFinite
  else do
    let w' ← p.wf.apply (rNormed resid p.rfac)
    return .next ⟨fit, w, rmeansq, resid⟩ w'

/-- The loop body for pass `i` (robustfit.py 205-242). Dividing by `w.sum() = 0` is not met: the weighted matrix is
then zero and `rsumsq[0]` has already raised IndexError. -/
def robStep (N : Num) (p : RobProblem) (i : ℕ) (w : List ℝ) (old : Option Old) : Except PyErr RobStep :=
  let fit := weightedFit N p w
  match fit.resid with
  | none => .error .indexError
  | some rsumsq =>
    let rmeansq := rsumsq / w.sum
    match old with
    | none => reweight p fit w rmeansq
    | some o =>
      if improvement o.rmeansq rmeansq < Fl.fin 0 then .ok (.stop ⟨o.fit, o.w, o.resid, i⟩)
      else if improvement o.rmeansq rmeansq < Fl.fin p.tol then .ok (.stop ⟨fit, w, o.resid, i + 1⟩)
      else reweight p fit w rmeansq

/-- `for i in range(maxit)` and the code after an exhausted loop (robustfit.py 204-245); `k` passes remain. -/
def robLoop (N : Num) (p : RobProblem) (maxit : ℕ) :
    (k i : ℕ) → (w : List ℝ) → Option Old → Except PyErr RobEnd
  | 0, _, w, some o => .ok ⟨o.fit, w, o.resid, maxit⟩
  | 0, _, _, none => .error .unboundLocalError
  | k + 1, i, w, old =>
    match robStep N p i w old with
    | .error e => .error e
    | .ok (.stop e) => .ok e
    | .ok (.next o w') => robLoop N p maxit k (i + 1) w' (some o)

/-- The results of `robustfit` used here (robustfit.py 180-187, 211, 249-258). -/
structure RobOut where
  b : List ℂ
  w : List ℝ
  iterations : ℕ
  rmsResid : ℝ
  leverage : List ℝ
  olsB : List ℂ
  olsRmsResid : ℝ

/-- `robustfit(X, y, ...)` (robustfit.py 122-260). `tune = 0` or a leverage of 1 make `rfac` infinite (193); `ols`
does not look at the normalised residuals. -/
def robustfit (N : Num) (a : RobArgs) (ncol : ℕ) (X : List (List ℂ)) (y : List ℂ) : Except PyErr RobOut := do
  let wf ← WFun.ofName a.wfName
  let tune : ℚ := a.tune.getD wf.tune
  let lev := leverage N ncol X
  raiseIf (decide (wf ≠ .ols) && (decide (tune = 0) || lev.any fun l => decide (1 ≤ l))) .nonFinite
  let rfac := lev.map fun l => 1 / ((tune : ℝ) * Real.sqrt (1 - l))
  let p : RobProblem := ⟨X, y, ncol, wf, a.rcond, a.tol, rfac⟩
  let ones := y.map fun _ => (1 : ℝ)
  let e ← robLoop N p a.maxit a.maxit 0 ones none
  let first := weightedFit N p ones
  return { b := e.fit.b, w := e.w, iterations := e.iterations,
           rmsResid := Real.sqrt ((e.resid.map fun r => ‖r‖ ^ 2).sum / e.resid.length),
           leverage := lev, olsB := first.b, olsRmsResid := Real.sqrt (first.resid.getD 0 / X.length) }

end

end UTide
