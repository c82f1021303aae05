import Verif.Model.Confidence
import Verif.Model.Robust

/-!
# `utide/_solve.py` (`_solv1`, `_reorder`) and `utide/diagnostics.py`
-/

namespace UTide

noncomputable section

open Classical
open Complex (I)

/-- Everything outside the project a call depends on: numpy's date parser and numerical routines. -/
structure Env where
  dt64 : String → Option ℤ
  num : Num

/-- `A`, `g` or `Lsmaj`, `Lsmin`, `theta`, `g` of `coef`: separate arrays, as in the code. -/
inductive EllArr
  | one (A g : List ℝ)
  | two (Lsmaj Lsmin theta g : List ℝ)

/-- `mean`, `slope` or `umean`, `vmean`, `uslope`, `vslope`; slopes are absent without trend. -/
inductive MeanSlope
  | one (mean : ℝ) (slope : Option ℝ)
  | two (umean vmean : ℝ) (slopes : Option (ℝ × ℝ))

/-- `coef["diagn"]` (diagnostics.py 35-42). -/
structure Diagn where
  name : List String
  PE : List Fl
  SNR : List Fl

/-- The result of `solve`. -/
structure Coef where
  name : List String
  ell : EllArr
  ci : Option CiArr
  mean : MeanSlope
  PE : Option (List Fl)
  SNR : Option (List Fl)
  diagn : Option Diagn
  frq : List ℝ
  lind : List ℕ
  reftime : ℝ
  lat : ℝ
  opt : Opt
  nR : ℕ
  nNR : ℕ
  nI : ℕ
  weights : List ℝ
  rf : Option RobOut

/-! ## Model matrix (_solve.py 253-299) -/

/-- `Q * R` summed over the inferred constituents of a reference (_solve.py 271, 273, 275). -/
def qsum (fl : Flags) (tref lat t : ℝ) (ref : RefCon) (R : InfCon → ℂ) : ℂ :=
  (ref.inf.map fun q => utE fl tref lat t q.frq q.lind / utE fl tref lat t ref.frq ref.lind * R q).sum

/-- `Etilp[:, k]`, `Etilm[:, k]` at one time (_solve.py 268-276, 284-286). -/
def etilp (fl : Flags) (tref lat : ℝ) (approximate : Bool) (t : ℝ) (ref : RefCon) : ℂ :=
  if approximate then utE fl tref lat t ref.frq ref.lind
  else utE fl tref lat t ref.frq ref.lind * (1 + qsum fl tref lat t ref InfCon.Rp)

def etilm (fl : Flags) (tref lat : ℝ) (approximate : Bool) (t : ℝ) (ref : RefCon) : ℂ :=
  if approximate then utE fl tref lat t ref.frq ref.lind
  else utE fl tref lat t ref.frq ref.lind * (1 + qsum fl tref lat t ref fun q => (starRingEnd ℂ) q.Rm)

/-- `ut_E(t, tref, NR.frq, NR.lind, ...)` at one time (_solve.py 258). -/
def rowNR (fl : Flags) (tref lat : ℝ) (sel : Sel) (t : ℝ) : List ℂ :=
  List.zipWith (utE fl tref lat t) sel.nrFrq sel.nrLind

/-- One row of `B` (_solve.py 261, 293, 296, 299). -/
def modelRow (fl : Flags) (tref lat lor : ℝ) (trend : Bool) (approximate : Bool) (sel : Sel) (t : ℝ) : List ℂ :=
  rowNR fl tref lat sel t ++ (rowNR fl tref lat sel t).map (starRingEnd ℂ)
    ++ sel.refs.map (etilp fl tref lat approximate t)
    ++ sel.refs.map (fun r => (starRingEnd ℂ) (etilm fl tref lat approximate t r))
    ++ [1] ++ (if trend then [(((t - tref) / lor : ℝ) : ℂ)] else [])

/-- Number of columns of `B` (_solve.py 301). -/
def numCols (trend : Bool) (sel : Sel) : ℕ := 2 * (sel.nNR + sel.nR) + 1 + (if trend then 1 else 0)

/-- Catalogue positions whose basis functions are evaluated. -/
def usedLind (sel : Sel) : List ℕ :=
  sel.nrLind ++ sel.refs.map RefCon.lind ++ sel.refs.flatMap fun r => r.inf.map InfCon.lind

/-- Errors raised while the matrix is built. An empty Python *list* of indices becomes a float array in
`np.atleast_1d` (harmonics.py 63) and cannot index (harmonics.py 157, 163, 185); the list is an integer array only for
`constit='auto'` without inference. `beta[k] = ...` with several values raises ValueError (_solve.py 291). The other
three are divisions by zero, after which the code goes on with NaN. -/
def checkMatrix (opt : Opt) (isAuto : Bool) (infer : Option InferSpec) (ed : Edited) (lat : ℝ) (sel : Sel) :
    Except PyErr Unit := do
  let fl := opt.flags
  raiseIf (sel.nrLind.isEmpty && !(isAuto && infer.isNone) && !(fl.nodsatnone && fl.gwchnone)) .indexError
  raiseIf ((usedLind sel).any (nodalSingular fl lat)) .nonFinite
  match infer with
  | none => pure ()
  | some s =>
    if s.approximate then raiseIf (sel.refs.any fun r => r.inf.length != 1) .valueError
    else raiseIf (ed.t.any fun t => sel.refs.any fun r =>
      decide (utE fl ed.tref lat t r.frq r.lind = 0)) .nonFinite
  raiseIf (!opt.notrend && decide (ed.lor = 0)) .nonFinite

/-- `xraw` (_solve.py 306-309). -/
def xraw (ed : Edited) : List ℂ := match ed.v with
  | some v => List.zipWith (fun (a b : ℝ) => (a : ℂ) + I * (b : ℂ)) ed.u v
  | none => ed.u.map fun a : ℝ => (a : ℂ)

/-- What is known when the least-squares problem is set up. -/
structure Prep where
  opt : Opt
  infer : Option InferSpec
  ed : Edited
  lat : ℝ
  sel : Sel
  nm : ℕ
  B : List (List ℂ)

/-- First part of `_solv1` (_solve.py 230-231): data editing. -/
def stageInit (E : Env) (opt : Opt) (t : TimeArg) (u : Series) (v : Option Series) (lat : Option ℝ) :
    Except PyErr (Edited × ℝ) := slvInit E.dt64 t u v lat opt.epoch

/-- Reading `constit` and `infer` and selecting constituents (_solve.py 237-242); `rmin / (24 * lor)` is numpy
division. -/
def stageSelect (opt : Opt) (ed : Edited) : Except PyErr (Constit × Option InferSpec × Sel) := do
  let constit ← readConstit opt.cnstit
  let infer ← readInfer opt.infer
  let sel ← cnstitsel ed.tref ((Fl.fin (opt.rmin : ℝ)).div (.fin (24 * ed.lor))) constit infer
  return (constit, infer, sel)

/-- Building the matrix (_solve.py 253-299). -/
def stageMatrix (opt : Opt) (ed : Edited) (lat : ℝ) (constit : Constit) (infer : Option InferSpec) (sel : Sel) :
    Except PyErr Prep := do
  checkMatrix opt (constit == .auto) infer ed lat sel
  let approximate := match infer with | some s => s.approximate | none => false
  return { opt := opt, infer := infer, ed := ed, lat := lat, sel := sel, nm := numCols (!opt.notrend) sel,
           B := ed.t.map (modelRow opt.flags ed.tref lat ed.lor (!opt.notrend) approximate sel) }

/-! ## Solution (_solve.py 306-394) -/

/-- Coefficients `m`, weights `W` and the robust result (_solve.py 311-323). -/
def stageFit (E : Env) (p : Prep) : Except PyErr (List ℂ × List ℝ × Option RobOut) :=
  match p.opt.method with
  | .ols => .ok ((E.num.lstsq none p.nm p.B (xraw p.ed)).b, p.ed.t.map fun _ => 1, none)
  | .robust kw => do
    let a ← readRobArgs kw robDefaults
    let rf ← robustfit E.num a p.nm p.B (xraw p.ed)
    return (rf.b, rf.w, some rf)

/-- `ap`, `am` (_solve.py 334-336). -/
def apOf (sel : Sel) (m : List ℂ) : List ℂ := m.take sel.nNR ++ (m.drop (2 * sel.nNR)).take sel.nR
def amOf (sel : Sel) (m : List ℂ) : List ℂ :=
  (m.drop sel.nNR).take sel.nNR ++ (m.drop (2 * sel.nNR + sel.nR)).take sel.nR

/-- `apI`, `amI` (_solve.py 371-378): coefficients of the inferred constituents, `R` being `Rp` or `Rm`. -/
def inferredCoef (sel : Sel) (R : InfCon → ℂ) (a : List ℂ) : List ℂ :=
  sel.refs.zipIdx.flatMap fun rk => rk.1.inf.map fun q => R q * a.getD (sel.nNR + rk.2) 0

/-- `ap` and `am` of all constituents: fitted, then inferred. -/
def allAp (sel : Sel) (m : List ℂ) : List ℂ := apOf sel m ++ inferredCoef sel InfCon.Rp (apOf sel m)
def allAm (sel : Sel) (m : List ℂ) : List ℂ := amOf sel m ++ inferredCoef sel InfCon.Rm (amOf sel m)

/-- `A`, `g` or the ellipse parameters (_solve.py 338-350, 380-394). -/
def ellOf (twodim : Bool) (ap am : List ℂ) : EllArr :=
  if twodim then
    let e := List.zipWith ell2 ap am
    .two (e.map Ell.Lsmaj) (e.map Ell.Lsmin) (e.map Ell.theta) (e.map Ell.g)
  else
    let e := List.zipWith ell1 ap am
    .one (e.map Ell.Lsmaj) (e.map Ell.g)

/-- Mean and trend (_solve.py 353-367); `m[-1]`, `m[-2]` of the `nm` coefficients. -/
def meanOf (twodim notrend : Bool) (lor : ℝ) (nm : ℕ) (m : List ℂ) : MeanSlope :=
  let a := m.getD (if notrend then nm - 1 else nm - 2) 0
  let b := m.getD (nm - 1) 0
  if twodim then .two a.re a.im (if notrend then none else some (b.re / lor, b.im / lor))
  else .one a.re (if notrend then none else some (b.re / lor))

/-- `xmod` (_solve.py 325-328). -/
def xmodOf (twodim : Bool) (B : List (List ℂ)) (m : List ℂ) : List ℂ :=
  B.map fun r => if twodim then dot r m else (((dot r m).re : ℝ) : ℂ)

/-- `e = W * (xraw - xmod)` (_solve.py 330). -/
def weightedResidual (W : List ℝ) (x xmod : List ℂ) : List ℂ :=
  List.zipWith (fun (w : ℝ) d => (w : ℂ) * d) W (List.zipWith (fun a b => a - b) x xmod)

/-- The phases and orientations of `coef`. -/
def EllArr.gs : EllArr → List ℝ
  | .one _ g => g
  | .two _ _ _ g => g
def EllArr.thetas : EllArr → List ℝ
  | .one _ _ => []
  | .two _ _ th _ => th

/-- The arguments of `_confidence` (_solve.py 397-414). -/
def confIn (p : Prep) (m : List ℂ) (W : List ℝ) : ConfIn :=
  let td := p.opt.twodim
  let ap := apOf p.sel m
  let am := amOf p.sel m
  let ell := ellOf td (allAp p.sel m) (allAm p.sel m)
  { twodim := td, white := p.opt.white, linci := p.opt.linci, infer := p.infer.isSome, ed := p.ed,
    e := weightedResidual W (xraw p.ed) (xmodOf td p.B m), frq := p.sel.frq, nm := p.nm, B := p.B,
    xraw := xraw p.ed, xmod := xmodOf td p.B m, W := W,
    Xu := List.zipWith (fun a b => (a + b).re) ap am, Yu := List.zipWith (fun a b => -(a - b).im) ap am,
    Xv := if td then List.zipWith (fun a b => (a + b).im) ap am else [],
    Yv := if td then List.zipWith (fun a b => (a - b).re) ap am else [],
    g := ell.gs, theta := ell.thetas, sel := p.sel }

/-! ## Diagnostics -/

/-- Energy of each constituent (diagnostics.py 9, 12, 21, 25; _reconstruct.py 103, 106). -/
def energies : EllArr → List ℝ
  | .one A _ => A.map fun a => a ^ 2
  | .two Lsmaj Lsmin _ _ => List.zipWith (fun a b => a ^ 2 + b ^ 2) Lsmaj Lsmin

/-- `_PE` (diagnostics.py 4-13). -/
def pe (ell : EllArr) : List Fl :=
  let E := energies ell
  match ell with
  | .one _ _ => E.map fun x => (Fl.fin (100 * x)).div (.fin E.sum)
  | .two _ _ _ _ => E.map fun x => (Fl.fin 100).div (.fin E.sum) * Fl.fin x

/-- Noise of each constituent (diagnostics.py 22, 25; _reconstruct.py 104, 107). -/
def noises : CiArr → List Fl
  | .one A _ => A.map fun a => (a / Fl.fin 1.96).sq
  | .two Lsmaj Lsmin _ _ =>
    List.zipWith (fun a b => (a / Fl.fin 1.96).sq + (b / Fl.fin 1.96).sq) Lsmaj Lsmin

/-- `_SNR` (diagnostics.py 16-26); KeyError without confidence intervals. -/
def snr (ell : EllArr) : Option CiArr → Except PyErr (List Fl)
  | none => .error .keyError
  | some ci => .ok (List.zipWith (fun x n => (Fl.fin x).div n) (energies ell) (noises ci))

/-- `a[ind]` for an array of indices. -/
def gather {α : Type} (l : List α) (ind : List ℕ) : List α := ind.filterMap (l[·]?)

/-- `ut_diagn`, and `PE`, `SNR` stored in `coef` (diagnostics.py 29-44, _solve.py 417-424). -/
def addDiagn (E : Env) (c : Coef) : Except PyErr Coef := do
  let PE := pe c.ell
  let SNR ← snr c.ell c.ci
  let ind := (E.num.argsort PE).reverse
  return { c with diagn := some ⟨gather c.name ind, gather PE ind, gather SNR ind⟩,
                  PE := some PE, SNR := some SNR }

/-! ## Re-ordering (_solve.py 436-462) -/

/-- `namelist.index(name)`. -/
def listIndex (l : List String) (s : String) : Except PyErr ℕ :=
  if s ∈ l then .ok (l.idxOf s) else .error .valueError

/-- The index array (_solve.py 437-452), with `PE` added to `coef` if needed. -/
def orderIndex (E : Env) (c : Coef) : Order → Except PyErr (Coef × List ℕ)
  | .PE =>
    let PE := c.PE.getD (pe c.ell)
    .ok ({ c with PE := some PE }, (E.num.argsort PE).reverse)
  | .frequency => .ok (c, E.num.argsort (c.frq.map Fl.fin))
  | .SNR => match c.SNR with
    | some s => .ok (c, (E.num.argsort s).reverse)
    | none => .error .keyError
  | .names l => do
    let ind ← l.mapM (listIndex c.name)
    return (c, ind)

/-- `coef[key][ind]` for the ellipse parameters and their intervals (_solve.py 454-458). -/
def EllArr.permute (ind : List ℕ) : EllArr → EllArr
  | .one A g => .one (gather A ind) (gather g ind)
  | .two a b c d => .two (gather a ind) (gather b ind) (gather c ind) (gather d ind)
def CiArr.permute (ind : List ℕ) : CiArr → CiArr
  | .one A g => .one (gather A ind) (gather g ind)
  | .two a b c d => .two (gather a ind) (gather b ind) (gather c ind) (gather d ind)

/-- `_reorder` (_solve.py 436-462). -/
def reorder (E : Env) (c : Coef) (o : Order) : Except PyErr Coef := do
  let (c, ind) ← orderIndex E c o
  return { c with
    name := gather c.name ind
    ell := c.ell.permute ind
    ci := c.ci.map (CiArr.permute ind)
    PE := c.PE.map (gather · ind)
    SNR := c.SNR.map (gather · ind)
    frq := gather c.frq ind
    lind := gather c.lind ind }

/-! ## `_solv1` -/

/-- `coef` before confidence intervals (_solve.py 247-248, 323, 338-394). -/
def rawCoef (p : Prep) (m : List ℂ) (W : List ℝ) (rf : Option RobOut) : Coef :=
  { name := p.sel.name
    ell := ellOf p.opt.twodim (allAp p.sel m) (allAm p.sel m)
    ci := none
    mean := meanOf p.opt.twodim p.opt.notrend p.ed.lor p.nm m
    PE := none, SNR := none, diagn := none
    frq := p.sel.frq, lind := p.sel.lind, reftime := p.ed.tref, lat := p.lat, opt := p.opt
    nR := p.sel.nR, nNR := p.sel.nNR, nI := p.sel.nI, weights := W, rf := rf }

/-- `if opt["conf_int"]: coef = _confidence(...)` (_solve.py 396-414). -/
def stageConf (E : Env) (p : Prep) (m : List ℂ) (W : List ℝ) (c : Coef) : Except PyErr Coef :=
  if p.opt.confInt then do
    let ci ← confidence E.num (confIn p m W)
    return { c with ci := some ci }
  else .ok c

/-- `if not opt["nodiagn"]` (_solve.py 417-424). -/
def stageDiagn (E : Env) (p : Prep) (c : Coef) : Except PyErr Coef :=
  if p.opt.nodiagn then .ok c else addDiagn E c

/-- The rest of `_solv1` (_solve.py 306-427). -/
def stageSolution (E : Env) (p : Prep) : Except PyErr Coef := do
  let (m, W, rf) ← stageFit E p
  let c ← stageConf E p m W (rawCoef p m W rf)
  let c ← stageDiagn E p c
  let o ← readOrder p.opt.ordercnstit
  reorder E c o

/-- `_solv1` up to the solution (_solve.py 227-301). -/
def stagePrep (E : Env) (opt : Opt) (t : TimeArg) (u : Series) (v : Option Series) (lat : Option ℝ) :
    Except PyErr Prep := do
  let (ed, lat) ← stageInit E opt t u v lat
  let (constit, infer, sel) ← stageSelect opt ed
  stageMatrix opt ed lat constit infer sel

/-- `solve(t, u, v, lat, **opts)` (_solve.py 122-224, 227-433). -/
def solve (E : Env) (t : TimeArg) (u : Series) (v : Option Series) (lat : Option ℝ) (opts : Dict PyVal) :
    Except PyErr Coef := do
  let opt ← getOpt opts v.isSome
  let p ← stagePrep E opt t u v lat
  stageSolution E p

/-! ## Printed output -/

/-- Output of one `print(s, end="")` or `print(s)` guarded by `RunTimeDisp`. -/
def say (verbose : Bool) (s : String) : List String := if verbose then [s] else []

/-- `solve` with what it prints (_solve.py 233-234, 250-251, 303-304, 430-431). -/
def solveP (E : Env) (t : TimeArg) (u : Series) (v : Option Series) (lat : Option ℝ) (opts : Dict PyVal) :
    List String × Except PyErr Coef :=
  match getOpt opts v.isSome with
  | .error e => ([], .error e)
  | .ok opt =>
    let say := say opt.verbose
    match stageInit E opt t u v lat with
    | .error e => ([], .error e)
    | .ok (ed, lat) =>
      match stageSelect opt ed with
      | .error e => (say "solve: ", .error e)
      | .ok (constit, infer, sel) =>
        match stageMatrix opt ed lat constit infer sel with
        | .error e => (say "solve: " ++ say "matrix prep ... ", .error e)
        | .ok p =>
          match stageSolution E p with
          | .error e => (say "solve: " ++ say "matrix prep ... " ++ say "solution ... ", .error e)
          | .ok c => (say "solve: " ++ say "matrix prep ... " ++ say "solution ... " ++ say "done.\n", .ok c)

end

end UTide
