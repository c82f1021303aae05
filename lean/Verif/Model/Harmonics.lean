import Mathlib.Analysis.SpecialFunctions.Complex.Arg
import Mathlib.Analysis.SpecialFunctions.Pow.Real
import Verif.Model.Astronomy
import Verif.Model.ConstTable
import Verif.Model.Options

/-!
# `utide/harmonics.py`

An array over the 146 catalogue positions is a function of the position. Arrays `(nt, nc)` are functions
of one time and one catalogue position: every operation of the file acts on the times one by one.
-/

namespace UTide

noncomputable section

open Complex (I)

/-- `np.dot(const.doodson, a)` for one constituent and one time (harmonics.py 26, 174). -/
def Doodson.dot (d : Doodson) (a : Six) : ℝ :=
  d.d1 * a.tau + d.d2 * a.s + d.d3 * a.h + d.d4 * a.p + d.d5 * a.np + d.d6 * a.pp

/-- The kind of catalogue entry `k`. -/
def kindOf (k : ℕ) : Option Kind := catalogue[k]?.map Con.kind

/-- The rows `zip(ishallow, nshallow, kshallow)` with their components (harmonics.py 15-20, 28, 149, 179):
position of the compound and its (parent, weight) pairs, in catalogue order. -/
def shallowRows : List (ℕ × List (ℕ × Dy)) :=
  catalogue.zipIdx.filterMap fun c => match c.1.kind with
    | .shallow parts => some (c.2, parts)
    | .primary _ _ => none

/-- The loops `for i0, nshal, k in zip(...): v[k] = step(v, components of k)` (harmonics.py 28-30, 149-155,
179-183): array entries are overwritten one after the other, each step reading the current array. -/
def loopShallow {α : Type} (step : (ℕ → α) → List (ℕ × Dy) → α) (rows : List (ℕ × List (ℕ × Dy)))
    (v : ℕ → α) : ℕ → α :=
  rows.foldl (fun v r => Function.update v r.1 (step v r.2)) v

/-- `(v[j] * coef).sum()` (harmonics.py 30, 155, 183). -/
def sumStep (v : ℕ → ℝ) (parts : List (ℕ × Dy)) : ℝ := (parts.map fun p => v p.1 * p.2.toReal).sum

/-- `np.prod(F[j] ** abs(coef))` (harmonics.py 153-154). -/
def prodStep (v : ℕ → ℝ) (parts : List (ℕ × Dy)) : ℝ := (parts.map fun p => v p.1 ^ |p.2.toReal|).prod

/-- `linearized_freqs(tref)[k]` (harmonics.py 23-31). -/
def linFreqs (tref : ℝ) : ℕ → ℝ :=
  loopShallow sumStep shallowRows fun k => match catalogue[k]? with
    | some c => match c.kind with
      | .primary d _ => d.dot (ader tref) / 24
      | .shallow _ => c.freq.toReal
    | none => 0

/-- harmonics.py 121-122 -/
def clampLat (lat : ℝ) : ℝ := if |lat| < 5 then SignType.sign lat * 5 else lat

/-- harmonics.py 124 -/
def slat (lat : ℝ) : ℝ := Real.sin (clampLat lat * Real.pi / 180)

/-- `rr` for one satellite (harmonics.py 125-131). Division by `slat = 0` gives an infinity in the code;
see `nodalSingular`. -/
def satRatio (lat : ℝ) (s : Sat) : ℝ :=
  if s.ilatfac = 1 then s.amprat.toReal * (0.36309 * (1.0 - 5.0 * slat lat ^ 2) / slat lat)
  else if s.ilatfac = 2 then s.amprat.toReal * (2.59808 * slat lat)
  else s.amprat.toReal

/-- `uu` for one satellite (harmonics.py 134-135). -/
def satPhase (a : Six) (s : Sat) : ℝ :=
  fmod1 (s.d4 * a.p + s.d5 * a.np + s.d6 * a.pp + s.phcorr.toReal)

/-- The satellites of catalogue entry `k` (`iconst == ii`, harmonics.py 141-144). -/
def satsOf (k : ℕ) : List Sat := match catalogue[k]? with
  | some c => c.sats
  | none => []

/-- The complex array `F` before the compounds are filled in (harmonics.py 136-144); entries without
satellites keep the value 1. -/
def satSum (lat : ℝ) (tt : ℝ) (k : ℕ) : ℂ :=
  1 + ((satsOf k).map fun s =>
    (satRatio lat s : ℂ) * Complex.exp (I * 2 * Real.pi * satPhase (astro tt) s)).sum

/-- `F` of `FUV` (harmonics.py 109-157). -/
def nodF (fl : Flags) (tref lat t : ℝ) (k : ℕ) : ℝ :=
  if fl.nodsatnone then 1
  else
    let tt := if fl.nodsatlint then tref else t
    loopShallow prodStep shallowRows (fun j => ‖satSum lat tt j‖) k

/-- `U` of `FUV`, cycles (harmonics.py 109-158). -/
def nodU (fl : Flags) (tref lat t : ℝ) (k : ℕ) : ℝ :=
  if fl.nodsatnone then 0
  else
    let tt := if fl.nodsatlint then tref else t
    loopShallow sumStep shallowRows (fun j => Complex.arg (satSum lat tt j) / (2 * Real.pi)) k

/-- The array `V` at line 177, before the compounds are filled in. For compounds the code has NaN there;
the placeholder `junk` stands for it (it is overwritten before it can be read, theorem
`C39_placeholder_unused`). -/
def vPrimary (junk : ℕ → ℝ) (tt : ℝ) (k : ℕ) : ℝ := match kindOf k with
  | some (.primary d semi) => fmod1 (d.dot (astro tt) + semi.toReal)
  | _ => junk k

/-- `V` at line 185 for one time (harmonics.py 172-185). -/
def vGreenwich (tt : ℝ) (k : ℕ) : ℝ := loopShallow sumStep shallowRows (vPrimary (fun _ => 0) tt) k

/-- `V` of `FUV`, cycles (harmonics.py 160-189). -/
def gwV (fl : Flags) (tref t : ℝ) (k : ℕ) : ℝ :=
  if fl.gwchnone then 24 * (t - tref) * linFreqs tref k
  else if fl.gwchlint then vGreenwich tref k + 24 * (t - tref) * linFreqs tref k
  else vGreenwich t k

/-- One entry of `ut_E` (harmonics.py 34-82), `frq` being the frequency handed in for position `k`. -/
def utE (fl : Flags) (tref lat t : ℝ) (frq : ℝ) (k : ℕ) : ℂ :=
  if fl.nodsatnone ∧ fl.gwchnone then
    ((1 : ℝ) : ℂ) * Complex.exp (I * ((0 + 24 * (t - tref) * frq : ℝ) : ℂ) * 2 * Real.pi)
  else
    (nodF fl tref lat t k : ℂ) *
      Complex.exp (I * ((nodU fl tref lat t k + gwV fl tref t k : ℝ) : ℂ) * 2 * Real.pi)

/-- Does entry `k`, or for a compound one of its parents, have a satellite whose ratio is divided by
`slat`? -/
def latSensitive (k : ℕ) : Bool := match kindOf k with
  | some (.primary _ _) => (satsOf k).any fun s => s.ilatfac == 1
  | some (.shallow parts) => parts.any fun p => (satsOf p.1).any fun s => s.ilatfac == 1
  | none => false

open Classical in
/-- The basis function of `k` is not a finite number: the division of harmonics.py 128 is by zero and
enters entry `k`. -/
def nodalSingular (fl : Flags) (lat : ℝ) (k : ℕ) : Bool :=
  !fl.nodsatnone && decide (slat lat = 0) && latSensitive k

end

end UTide
