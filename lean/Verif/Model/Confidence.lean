import Verif.Model.Periodogram
import Verif.Model.Ellipse
import Verif.Model.Selection
import Verif.Model.SlvInit

/-!
# `utide/confidence.py`
-/

namespace UTide

noncomputable section

open Classical
open Complex (I)

/-- `cluster(x, ang)` (confidence.py 51-60); IndexError for an empty array. -/
def cluster (ang : ℝ) : List ℝ → Except PyErr (List ℝ)
  | [] => .error .indexError
  | a :: l =>
    let ofs := -a + ang / 2
    .ok ((a :: l).map fun x => pymod (x + ofs) ang - ofs)

/-- `np.median(np.abs(x - np.median(x)))` scaled to a 95% half width (confidence.py 292-294 and alike). -/
def madCi (x : List ℝ) : ℝ := 1.96 * median (x.map fun a => |a - median x|) / 0.6745

/-! ## `nearestSPD` -/

/-- `Ahat` before the adjustment loop (confidence.py 110-118). -/
def spdStart (N : Num) {n : ℕ} (A : Matrix (Fin n) (Fin n) ℝ) : Matrix (Fin n) (Fin n) ℝ :=
  let B := (1 / 2 : ℝ) • (A + A.transpose)
  let V := (N.svd n B).2.2
  let S := (N.svd n B).2.1
  let H : Matrix (Fin n) (Fin n) ℝ := (Matrix.of fun i j => V.transpose i j * S j) * V
  let Ahat := (1 / 2 : ℝ) • (B + H)
  (1 / 2 : ℝ) • (Ahat + Ahat.transpose)

/-- `Ahat[np.diag_indices(n)] += np.spacing(maxeig)` (confidence.py 136-137). -/
def spdNudge (N : Num) {n : ℕ} (M : Matrix (Fin n) (Fin n) ℝ) : Matrix (Fin n) (Fin n) ℝ :=
  M + N.nudge n M • (1 : Matrix (Fin n) (Fin n) ℝ)

/-- The loop (confidence.py 130-145) with `k` adjustments made so far; `fuel` counts down from 102. -/
def spdLoop (N : Num) {n : ℕ} (A : Matrix (Fin n) (Fin n) ℝ) :
    (fuel k : ℕ) → Matrix (Fin n) (Fin n) ℝ → Matrix (Fin n) (Fin n) ℝ
  | 0, _, M => M
  | fuel + 1, k, M =>
    if k = 0 ∨ N.isPD n M = false then
      let M' := spdNudge N M
      if k + 1 > 100 then Matrix.diagonal fun i => A i i
      else spdLoop N A fuel (k + 1) M'
    else M

/-- `nearestSPD(A)` (confidence.py 75-145). -/
def nearestSPD (N : Num) {n : ℕ} (A : Matrix (Fin n) (Fin n) ℝ) : Matrix (Fin n) (Fin n) ℝ :=
  spdLoop N A 102 0 (spdStart N A)

/-! ## `ut_linci` -/

/-- `a + 1j * b`: if `b` is not finite, numpy's complex product makes the real part NaN too. -/
def addJ (a b : Fl) : Fl × Fl := (a + Fl.fin 0 * b, b)

/-- One propagated variance `dXu2*sigXu2 + ...` under the root. -/
def linSum (d1 d2 d3 d4 s1 s2 s3 s4 : Fl) : Fl :=
  (d1.sq * s1.sq + d2.sq * s2.sq + d3.sq * s3.sq + d4.sq * s4.sq).sqrt

/-- The four quantities returned by `ut_linci`: standard deviations of semi-major axis, semi-minor axis (imaginary
part of `sig1`), phase and orientation (imaginary part of `sig2`). -/
structure Linci where
  sMaj : Fl
  sMin : Fl
  sG : Fl
  sTheta : Fl

/-- `ut_linci(X, Y, sigX, sigY)` (confidence.py 403-490); `X = Xu + i Xv` etc. Line 468 tests whether the imaginary
part of `X` is zero. -/
def utLinci (Xu Yu Xv Yv : ℝ) (sXu sYu sXv sYv : Fl) : Linci :=
  let f := Fl.fin
  let rp := 0.5 * Real.sqrt ((Xu + Yv) ^ 2 + (Xv - Yu) ^ 2)
  let rm := 0.5 * Real.sqrt ((Xu - Yv) ^ 2 + (Xv + Yu) ^ 2)
  let ex := f (Xu + Yv) / f rp
  let fx := f (Xu - Yv) / f rm
  let gx := f (Yu - Xv) / f rp
  let hx := f (Yu + Xv) / f rm
  let q := f 0.25
  let sig1 := linSum (q * (ex + fx)) (q * (gx + hx)) (q * (hx - gx)) (q * (ex - fx)) sXu sYu sXv sYv
  let rn := 2 * (Xu * Yu + Xv * Yv)
  let rd := Xu ^ 2 - Yu ^ 2 + Xv ^ 2 - Yv ^ 2
  let den := f (rn ^ 2 + rd ^ 2)
  let deg := f (180 / Real.pi)
  let sig2 := deg * linSum (f (rd * Yu - rn * Xu) / den) (f (rd * Xu + rn * Yu) / den)
    (f (rd * Yv - rn * Xv) / den) (f (rd * Xv + rn * Yv) / den) sXu sYu sXv sYv
  if Xv = 0 then ⟨sig1, f 0, sig2, f 0⟩
  else
    let m := linSum (q * (ex - fx)) (q * (gx - hx)) (q * (hx + gx)) (q * (ex + fx)) sXu sYu sXv sYv
    let rn' := 2 * (Xu * Xv + Yu * Yv)
    let rd' := Xu ^ 2 + Yu ^ 2 - (Xv ^ 2 + Yv ^ 2)
    let den' := f (rn' ^ 2 + rd' ^ 2)
    let o := deg * linSum (f (rd' * Xv - rn' * Xu) / den') (f (rd' * Yv - rn' * Yu) / den')
      (f (rd' * Xu + rn' * Xv) / den') (f (rd' * Yu + rn' * Yv) / den') sXu sYu sXv sYv
    let s1 := addJ sig1 m
    let s2 := addJ sig2 o
    ⟨s1.1, s1.2, s2.1, s2.2⟩

/-- `ut_linci` called with the standard deviations combined as `sXu + 1j*sXv` (confidence.py 257-262, 386-391). -/
def utLinci2 (Xu Yu Xv Yv : ℝ) (sXu sYu sXv sYv : Fl) : Linci :=
  let sx := addJ sXu sXv
  let sy := addJ sYu sYv
  utLinci Xu Yu Xv Yv sx.1 sy.1 sx.2 sy.2

/-! ## Spectral power of the residual -/

/-- Residual power at each constituent. -/
structure Power where
  Puu : List Fl
  Pvv : List Fl
  Puv : List Fl

/-- A band value times `df` (confidence.py 32, 37-38). -/
def scalePower (df : Fl) : Option ℂ → Fl
  | some z => Fl.fin z.re * df
  | none => .nan

/-- The loop over the bands for one constituent (confidence.py 33, 42-47): later bands overwrite earlier ones. -/
def powerAt (P : List (Option ℂ)) (df : Fl) (f : ℝ) : Fl :=
  (freqBands.zip P).foldl
    (fun acc b => if (b.1.1 : ℝ) ≤ f ∧ f ≤ (b.1.2 : ℝ) then scalePower df b.2 else acc) (Fl.fin 0)

/-- `complex_interp(tin, t, e)` (utilities.py 13-18); ValueError for no sample points. -/
def complexInterp (tin t : List ℝ) (e : List ℂ) : Except PyErr (List ℂ) :=
  if t = [] then .error .valueError
  else .ok (tin.map fun x => ⟨interp x (t.zip (e.map Complex.re)), interp x (t.zip (e.map Complex.im))⟩)

/-- `band_averaged_psd_by_constit` (confidence.py 18-48). -/
def residualPower (N : Num) (ed : Edited) (e : List ℂ) (frq : List ℝ) : Except PyErr Power := do
  let ba ← (if ed.equi then do
      let e' ← (if ed.t.length < ed.tin.length then complexInterp ed.tin ed.t e else .ok e)
      bandPsd N ed.tin e' frq true
    else bandPsd N ed.t e frq false)
  let df := (Fl.fin 1).div (ed.elor * Fl.fin 24)
  return { Puu := frq.map (powerAt ba.Puu df), Pvv := frq.map (powerAt ba.Pvv df),
           Puv := frq.map (powerAt ba.Puv df) }

/-! ## `_confidence` -/

/-- What `_confidence` is given (confidence.py 148-165); `Xu`, ... are the cosine and sine coefficients of the
fitted (non-inferred) constituents, `g`, `theta` the angles of all constituents. -/
structure ConfIn where
  twodim : Bool
  white : Bool
  linci : Bool
  infer : Bool
  ed : Edited
  e : List ℂ
  frq : List ℝ
  nm : ℕ
  B : List (List ℂ)
  xraw : List ℂ
  xmod : List ℂ
  W : List ℝ
  Xu : List ℝ
  Yu : List ℝ
  Xv : List ℝ
  Yv : List ℝ
  g : List ℝ
  theta : List ℝ
  sel : Sel

/-- Confidence intervals, one entry per constituent. -/
inductive CiArr
  | one (A g : List Fl)
  | two (Lsmaj Lsmin theta g : List Fl)

/-- `np.dot(B.conj().T, W[:, None] * B)` if `conj`, else `np.dot(B.T, W[:, None] * B)` (confidence.py 183, 196,
199). -/
def gram (conj : Bool) (nm : ℕ) (B : List (List ℂ)) (W : List ℝ) : Matrix (Fin nm) (Fin nm) ℂ :=
  Matrix.of fun i j =>
    (List.zipWith (fun (r : List ℂ) (w : ℝ) =>
      (if conj then (starRingEnd ℂ) (r.getD i 0) else r.getD i 0) * ((w : ℂ) * r.getD j 0)) B W).sum

/-- `np.dot(a, W * x)`. -/
def wdot (a : List ℂ) (W : List ℝ) (x : List ℂ) : ℂ :=
  dot a (List.zipWith (fun (w : ℝ) z => (w : ℂ) * z) W x)

/-- `varMSM` (confidence.py 193), before division by `nt - nm`. -/
def msmNum (c : ConfIn) : ℝ :=
  (wdot (c.xraw.map (starRingEnd ℂ)) c.W c.xraw - wdot (c.xmod.map (starRingEnd ℂ)) c.W c.xraw).re

/-- The factor of `gamP` (confidence.py 200), before division by `nt - nm`. -/
def pseudoNum (c : ConfIn) : ℂ := wdot c.xraw c.W c.xraw - wdot c.xmod c.W c.xraw

/-- `Gall`, `Hall` (confidence.py 189-206). Division by `nt - nm = 0` gives NaN or infinities. -/
def covariances (N : Num) (c : ConfIn) :
    Except PyErr (Matrix (Fin c.nm) (Fin c.nm) ℂ × Matrix (Fin c.nm) (Fin c.nm) ℂ) :=
  let dof : ℝ := (c.xraw.length : ℝ) - c.nm
  if dof = 0 then .error .nonFinite
  else
    match N.inv c.nm (gram true c.nm c.B c.W), N.inv c.nm (gram false c.nm c.B c.W) with
    | some iC, some iP =>
      let gamC := ((msmNum c / dof : ℝ) : ℂ) • iC
      let gamP := (pseudoNum c / (dof : ℂ)) • iP
      .ok (gamC + gamP, gamC - gamP)
    | _, _ => .error .linAlgError

/-- `M[i, j]`; IndexError outside the matrix. -/
def entry {nm : ℕ} (M : Matrix (Fin nm) (Fin nm) ℂ) (i j : ℕ) : Except PyErr ℂ :=
  if h : i < nm ∧ j < nm then .ok (M ⟨i, h.1⟩ ⟨j, h.2⟩) else .error .indexError

/-- The 2x2 blocks `G`, `H` of constituent `c` (confidence.py 223-228): rows and columns `c` and `c + nc`. -/
def block {nm : ℕ} (M : Matrix (Fin nm) (Fin nm) ℂ) (nc c : ℕ) : Except PyErr (Matrix (Fin 2) (Fin 2) ℂ) := do
  let a ← entry M c c
  let b ← entry M c (c + nc)
  let d ← entry M (c + nc) c
  let e ← entry M (c + nc) (c + nc)
  return !![a, b; d, e]

/-- Variances of the four coefficients (confidence.py 229-234). -/
def varXuOf (G : Matrix (Fin 2) (Fin 2) ℂ) : ℝ := (G 0 0 + G 1 1 + 2 * G 0 1).re / 2
def varYuOf (H : Matrix (Fin 2) (Fin 2) ℂ) : ℝ := (H 0 0 + H 1 1 - 2 * H 0 1).re / 2
def varXvOf (H : Matrix (Fin 2) (Fin 2) ℂ) : ℝ := (H 0 0 + H 1 1 + 2 * H 0 1).re / 2
def varYvOf (G : Matrix (Fin 2) (Fin 2) ℂ) : ℝ := (G 0 0 + G 1 1 - 2 * G 0 1).re / 2

/-- The confidence interval of one constituent: `A_ci, g_ci` are `maj, g` in the scalar case. -/
structure Ci1 where
  maj : Fl
  min : Fl
  theta : Fl
  g : Fl

/-- The variances kept for the inference step, `varcov[c, i, i]`. -/
structure Vars where
  xu : Fl
  yu : Fl
  xv : Fl
  yv : Fl

/-- `P * var / den` (confidence.py 240-242, 250-252). -/
def rescale (P : Fl) (v den : ℝ) : Fl := (P * Fl.fin v).div (.fin den)

/-- Linearised intervals, scalar case (confidence.py 237-246); `P` is `none` for white noise. -/
def linear1 (P : Option Fl) (Xu Yu vXu vYu : ℝ) : Ci1 × Vars :=
  let vs := match P with
    | none => (Fl.fin vXu, Fl.fin vYu)
    | some p => (rescale p vXu (vXu + vYu), rescale p vYu (vXu + vYu))
  let s := utLinci Xu Yu 0 0 vs.1.sqrt vs.2.sqrt (.fin 0) (.fin 0)
  (⟨Fl.fin 1.96 * s.sMaj, .fin 0, .fin 0, Fl.fin 1.96 * s.sG⟩, ⟨vs.1, vs.2, .fin 0, .fin 0⟩)

/-- Linearised intervals, vector case (confidence.py 247-266). Only the `v` variances are rescaled. -/
def linear2 (P : Option Fl) (Xu Yu Xv Yv vXu vYu vXv vYv : ℝ) : Ci1 × Vars :=
  let vs := match P with
    | none => (Fl.fin vXv, Fl.fin vYv)
    | some p => (rescale p vXv (vXv + vYv), rescale p vYv (vXv + vYv))
  let s := utLinci2 Xu Yu Xv Yv (Fl.fin vXu).sqrt (Fl.fin vYu).sqrt vs.1.sqrt vs.2.sqrt
  (⟨Fl.fin 1.96 * s.sMaj, Fl.fin 1.96 * s.sMin, Fl.fin 1.96 * s.sTheta, Fl.fin 1.96 * s.sG⟩,
   ⟨.fin vXu, .fin vYu, vs.1, vs.2⟩)

/-- A covariance matrix with non-finite entries makes numpy's SVD raise LinAlgError. -/
def finMatrix {n : ℕ} (M : Matrix (Fin n) (Fin n) Fl) : Except PyErr (Matrix (Fin n) (Fin n) ℝ) :=
  if ∀ i j, (M i j).isFinite = true then .ok (Matrix.of fun i j => ((M i j).toReal?).getD 0)
  else .error .linAlgError

/-- Replacing the first sample (confidence.py 295, 344, 349). -/
def setFirst (x : ℝ) : List ℝ → Except PyErr (List ℝ)
  | [] => .error .indexError
  | _ :: l => .ok (x :: l)

/-- `opt.nrlzn` (_solve.py 546). -/
def nrlzn : ℕ := 200

/-- Spread of an angle: first sample replaced, clustered with 360 degrees, median absolute deviation
(confidence.py 295-299, 344-353). -/
def angleCi (first : ℝ) (x : List ℝ) : Except PyErr Fl := do
  let x ← setFirst first x
  let x ← cluster 360 x
  return .fin (madCi x)

/-- Monte-Carlo intervals, scalar case (confidence.py 269-299). -/
def monteCarlo1 (N : Num) (c : ℕ) (P : Option Fl) (Xu Yu g : ℝ) (H : Matrix (Fin 2) (Fin 2) ℂ) (vXu vYu : ℝ) :
    Except PyErr Ci1 := do
  let cov := (H 0 0 - H 0 1 + H 1 0 - H 1 1).im / 2
  let D : Matrix (Fin 2) (Fin 2) ℝ := !![vXu, cov; cov, vYu]
  let M ← (match P with
    | none => .ok D
    | some p => do
      let A ← finMatrix (Matrix.of fun i j => (p * Fl.fin (D i j)).div (.fin (vXu + vYu)))
      return nearestSPD N A)
  let s := (N.mvn c 2 ![Xu, Yu] M nrlzn).map fun r => cs2cep1 (r 0) (r 1)
  let gci ← angleCi g (s.map Ell.g)
  return ⟨.fin (madCi (s.map Ell.Lsmaj)), .fin 0, .fin 0, gci⟩

/-- The covariance matrix of `(Xu, Yu, Xv, Yv)` under white noise (confidence.py 269-271, 301-303, 308-314). -/
def mcCov (G H : Matrix (Fin 2) (Fin 2) ℂ) : Matrix (Fin 4) (Fin 4) ℝ :=
  let covXuYu := (H 0 0 - H 0 1 + H 1 0 - H 1 1).im / 2
  let covXvYv := (G 0 0 - G 0 1 + G 1 0 - G 1 1).im / 2
  let covXuXv := (-H 0 0 - H 0 1 - H 1 0 - H 1 1).im / 2
  let covXuYv := (G 0 0 - G 1 1).re / 2
  let covYuXv := (-H 0 0 + H 1 1).re / 2
  let covYuYv := (-G 0 0 + G 0 1 + G 1 0 - G 1 1).im / 2
  !![varXuOf G, covXuYu, covXuXv, covXuYv;
     covXuYu, varYuOf H, covYuXv, covYuYv;
     covXuXv, covYuXv, varXvOf H, covXvYv;
     covXuYv, covYuYv, covXvYv, varYvOf G]

/-- The rescaled covariance matrix (confidence.py 273-275, 305-307, 316-323), before `nearestSPD`. -/
def mcScaled (M : Matrix (Fin 4) (Fin 4) ℝ) (pu pv puv : Fl) : Matrix (Fin 4) (Fin 4) Fl :=
  let s := |M 0 2| + |M 0 3| + |M 1 2| + |M 1 3|
  Matrix.of fun i j =>
    if i.val < 2 ∧ j.val < 2 then (pu * Fl.fin (M i j)).div (.fin (M 0 0 + M 1 1))
    else if 2 ≤ i.val ∧ 2 ≤ j.val then (pv * Fl.fin (M i j)).div (.fin (M 2 2 + M 3 3))
    else if 0 < s then (puv * Fl.fin (M i j)).div (.fin s) else Fl.fin 0

/-- Monte-Carlo intervals, vector case (confidence.py 269-275, 300-353). -/
def monteCarlo2 (N : Num) (c : ℕ) (P : Option (Fl × Fl × Fl)) (Xu Yu Xv Yv g theta : ℝ)
    (G H : Matrix (Fin 2) (Fin 2) ℂ) : Except PyErr Ci1 := do
  let M ← (match P with
    | none => .ok (mcCov G H)
    | some p => do
      let A ← finMatrix (mcScaled (mcCov G H) p.1 p.2.1 p.2.2)
      return nearestSPD N A)
  let s := (N.mvn c 4 ![Xu, Yu, Xv, Yv] M nrlzn).map fun r => cs2cep2 (r 0) (r 1) (r 2) (r 3)
  let tci ← angleCi theta (s.map Ell.theta)
  let gci ← angleCi g (s.map Ell.g)
  return ⟨.fin (madCi (s.map Ell.Lsmaj)), .fin (madCi (s.map Ell.Lsmin)), tci, gci⟩

/-- The loop body for constituent `c` (confidence.py 222-353). Results of the Monte-Carlo branch carry no
variances for inference (NaN), see line 398. -/
def ciOne (N : Num) (i : ConfIn) (pw : Option Power) (GH : Matrix (Fin i.nm) (Fin i.nm) ℂ × Matrix (Fin i.nm) (Fin i.nm) ℂ)
    (nc c : ℕ) : Except PyErr (Ci1 × Vars) := do
  let G ← block GH.1 nc c
  let H ← block GH.2 nc c
  let Xu ← getIdx i.Xu c
  let Yu ← getIdx i.Yu c
  let g ← getIdx i.g c
  let pu : Option Fl ← (match pw with | none => .ok none | some p => (getIdx p.Puu c).map some)
  let noVars : Vars := ⟨.nan, .nan, .nan, .nan⟩
  if i.twodim then do
    let Xv ← getIdx i.Xv c
    let Yv ← getIdx i.Yv c
    let pv : Option Fl ← (match pw with | none => .ok none | some p => (getIdx p.Pvv c).map some)
    if i.linci then
      return linear2 pv Xu Yu Xv Yv (varXuOf G) (varYuOf H) (varXvOf H) (varYvOf G)
    else do
      let theta ← getIdx i.theta c
      let puv : Option Fl ← (match pw with | none => .ok none | some p => (getIdx p.Puv c).map some)
      let ps := match pu, pv, puv with
        | some a, some b, some d => some (a, b, d)
        | _, _, _ => none
      let r ← monteCarlo2 N c ps Xu Yu Xv Yv g theta G H
      return (r, noVars)
  else if i.linci then
    return linear1 pu Xu Yu (varXuOf G) (varYuOf H)
  else do
    let r ← monteCarlo1 N c pu Xu Yu g H (varXuOf G) (varYuOf H)
    return (r, noVars)

/-- Intervals of one inferred constituent (confidence.py 362-395), from the variances of its reference. -/
def inferOne (twodim : Bool) (v : Vars) (Xu Yu Xv Yv : ℝ) (q : InfCon) : Ci1 :=
  let quarter := Fl.fin 0.25
  let re := if twodim then quarter * v.xu + quarter * v.yv else quarter * v.xu
  let im := if twodim then quarter * v.yu + quarter * v.xv else quarter * v.yu
  let cr := Fl.fin (q.Rp.re ^ 2 + q.Rm.re ^ 2)
  let ci := Fl.fin (q.Rp.im ^ 2 + q.Rm.im ^ 2)
  let varX := cr * re + ci * im
  let varY := cr * im + ci * re
  let k := Fl.fin 1.96
  if twodim then
    let s := utLinci2 Xu Yu Xv Yv varX.sqrt varY.sqrt varY.sqrt varX.sqrt
    ⟨k * s.sMaj, k * s.sMin, k * s.sTheta, k * s.sG⟩
  else
    let s := utLinci Xu Yu 0 0 varX.sqrt varY.sqrt (.fin 0) (.fin 0)
    ⟨k * s.sMaj, .fin 0, .fin 0, k * s.sG⟩

/-- The inferred constituents of reference `k` (confidence.py 360-396). -/
def inferRef (i : ConfIn) (vars : List Vars) (rk : RefCon × ℕ) : Except PyErr (List Ci1) := do
  let c := i.sel.nNR + rk.2
  let v ← getIdx vars c
  let Xu ← getIdx i.Xu c
  let Yu ← getIdx i.Yu c
  if i.twodim then do
    let Xv ← getIdx i.Xv c
    let Yv ← getIdx i.Yv c
    return rk.1.inf.map (inferOne true v Xu Yu Xv Yv)
  else return rk.1.inf.map (inferOne false v Xu Yu 0 0)

/-- `if opt.infer: ...` (confidence.py 357-398). -/
def inferCi (i : ConfIn) (vars : List Vars) : Except PyErr (List Ci1) :=
  if i.infer then
    (if i.linci then do
      let l ← i.sel.refs.zipIdx.mapM (inferRef i vars)
      return l.flatten
    else .error .notImplementedError)
  else .ok []

/-- The arrays of intervals. -/
def packCi (twodim : Bool) (l : List Ci1) : CiArr :=
  if twodim then .two (l.map Ci1.maj) (l.map Ci1.min) (l.map Ci1.theta) (l.map Ci1.g)
  else .one (l.map Ci1.maj) (l.map Ci1.g)

/-- `_confidence` (confidence.py 148-400). -/
def confidence (N : Num) (i : ConfIn) : Except PyErr CiArr := do
  let pw ← (if i.white then .ok none else (residualPower N i.ed i.e i.frq).map some)
  let GH ← covariances N i
  let rows ← (List.range i.Xu.length).mapM (ciOne N i pw GH i.Xu.length)
  let inf ← inferCi i (rows.map Prod.snd)
  return packCi i.twodim (rows.map Prod.fst ++ inf)

end

end UTide
