import Mathlib.Analysis.Real.Sqrt
import Mathlib.Algebra.Order.Floor.Ring
import Mathlib.Algebra.Order.Archimedean.Real.Basic

/-!
# `utide/astronomy.py`
-/

namespace UTide

noncomputable section

/-- `np.trunc`: rounding towards zero. -/
def truncR (x : ℝ) : ℤ := if 0 ≤ x then ⌊x⌋ else ⌈x⌉

/-- `np.fmod(x, 1)`: the remainder has the sign of `x`. -/
def fmod1 (x : ℝ) : ℝ := x - truncR x

/-- A column of the `(6, nt)` arrays of `ut_astron`: tau, s, h, p, np, pp. -/
structure Six where
  tau : ℝ
  s : ℝ
  h : ℝ
  p : ℝ
  np : ℝ
  pp : ℝ

/-- Four coefficients of one of the rows `_sc`, `_hc`, `_pc`, `_npc`, `_ppc` (astronomy.py 5-12). -/
structure Cubic where
  c0 : ℝ
  c1 : ℝ
  c2 : ℝ
  c3 : ℝ

/-- astronomy.py 5 -/
def scCoef : Cubic := ⟨270.434164, 13.1763965268, -0.0000850, 0.000000039⟩
/-- astronomy.py 6 -/
def hcCoef : Cubic := ⟨279.696678, 0.9856473354, 0.00002267, 0.000000000⟩
/-- astronomy.py 7 -/
def pcCoef : Cubic := ⟨334.329556, 0.1114040803, -0.0007739, -0.00000026⟩
/-- astronomy.py 8 -/
def npcCoef : Cubic := ⟨-259.183275, 0.0529539222, -0.0001557, -0.000000050⟩
/-- astronomy.py 10 -/
def ppcCoef : Cubic := ⟨281.220844, 0.0000470684, 0.0000339, 0.000000070⟩

/-- astronomy.py 62 -/
def daten : ℝ := 693595.5

/-- A row of `np.dot(_coefs, args)` with `args = (1, d, D*D, D**3)`, `d = jd - daten`, `D = d/10000`
(astronomy.py 64-69). -/
def Cubic.dotArgs (c : Cubic) (jd : ℝ) : ℝ :=
  let d := jd - daten
  let D := d / 10000
  c.c0 * 1 + c.c1 * d + c.c2 * (D * D) + c.c3 * D ^ 3

/-- A row of `np.dot(_coefs, dargs)` with `dargs = (0, 1, 2e-4 D, 3e-4 D D)` (astronomy.py 78-82). -/
def Cubic.dotDargs (c : Cubic) (jd : ℝ) : ℝ :=
  let d := jd - daten
  let D := d / 10000
  c.c0 * 0 + c.c1 * 1 + c.c2 * (2.0e-4 * D) + c.c3 * (3.0e-4 * D * D)

/-- First result of `ut_astron` at one time (astronomy.py 57-75): cycles. -/
def astro (jd : ℝ) : Six :=
  let s := fmod1 (scCoef.dotArgs jd / 360)
  let h := fmod1 (hcCoef.dotArgs jd / 360)
  let p := fmod1 (pcCoef.dotArgs jd / 360)
  let np := fmod1 (npcCoef.dotArgs jd / 360)
  let pp := fmod1 (ppcCoef.dotArgs jd / 360)
  { tau := Int.fract jd + h - s, s := s, h := h, p := p, np := np, pp := pp }

/-- Second result of `ut_astron` at one time (astronomy.py 77-86): cycles per day. -/
def ader (jd : ℝ) : Six :=
  let s := scCoef.dotDargs jd / 360.0
  let h := hcCoef.dotDargs jd / 360.0
  let p := pcCoef.dotDargs jd / 360.0
  let np := npcCoef.dotDargs jd / 360.0
  let pp := ppcCoef.dotDargs jd / 360.0
  { tau := 1.0 + h - s, s := s, h := h, p := p, np := np, pp := pp }

end

end UTide
