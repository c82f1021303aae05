import Mathlib.Analysis.SpecialFunctions.Complex.Arg
import Mathlib.Algebra.Order.Floor.Ring

/-!
# `utide/ellipse_params.py`, and the inverse used by `_reconstruct.py`

`ut_cs2cep` acts element-wise; the definitions are for one constituent.
-/

namespace UTide

noncomputable section

open Complex (I)

/-- Python's `x % m` for `m > 0`. -/
def pymod (x m : ℝ) : ℝ := x - m * ⌊x / m⌋

/-- `np.angle(z, deg=True)`. -/
def angleDeg (z : ℂ) : ℝ := Complex.arg z * (180 / Real.pi)

/-- Ellipse parameters of one constituent. -/
structure Ell where
  Lsmaj : ℝ
  Lsmin : ℝ
  theta : ℝ
  g : ℝ

/-- `ut_cs2cep(Xu, Yu)` (ellipse_params.py 55-61). -/
def cs2cep1 (Xu Yu : ℝ) : Ell :=
  let ap : ℂ := Xu - I * Yu
  { Lsmaj := ‖ap‖, Lsmin := 0, theta := 0, g := pymod (-angleDeg ap) 360 }

/-- `ut_cs2cep(Xu, Yu, Xv, Yv)` (ellipse_params.py 63-76). -/
def cs2cep2 (Xu Yu Xv Yv : ℝ) : Ell :=
  let ap : ℂ := ((Xu + Yv : ℝ) + I * (Xv - Yu : ℝ)) / 2
  let am : ℂ := ((Xu - Yv : ℝ) + I * (Xv + Yu : ℝ)) / 2
  let Ap := ‖ap‖
  let Am := ‖am‖
  let epsp := angleDeg ap
  let epsm := angleDeg am
  let theta := pymod ((epsp + epsm) / 2) 180
  { Lsmaj := Ap + Am, Lsmin := Ap - Am, theta := theta, g := pymod (-epsp + theta) 360 }

/-- Cosine and sine coefficients from the fitted complex coefficients, 1-D (`_solve.py` 338-342, 380-384). -/
def ell1 (ap am : ℂ) : Ell := cs2cep1 (ap + am).re (-(ap - am).im)

/-- The same, 2-D (`_solve.py` 338-350, 380-390). -/
def ell2 (ap am : ℂ) : Ell := cs2cep2 (ap + am).re (-(ap - am).im) (ap + am).im (ap - am).re

/-- `ap`, `am` in `_reconstruct`, 2-D (`_reconstruct.py` 114-123). -/
def recAp2 (e : Ell) : ℂ :=
  0.5 * (((e.Lsmaj + e.Lsmin : ℝ) : ℂ) * Complex.exp (I * ((e.theta - e.g : ℝ) : ℂ) * ((Real.pi / 180 : ℝ) : ℂ)))
def recAm2 (e : Ell) : ℂ :=
  0.5 * (((e.Lsmaj - e.Lsmin : ℝ) : ℂ) * Complex.exp (I * ((e.theta + e.g : ℝ) : ℂ) * ((Real.pi / 180 : ℝ) : ℂ)))

/-- `ap`, `am` in `_reconstruct`, 1-D (`_reconstruct.py` 125-126). -/
def recAp1 (e : Ell) : ℂ :=
  0.5 * (e.Lsmaj : ℂ) * Complex.exp (-I * (e.g : ℂ) * ((Real.pi / 180 : ℝ) : ℂ))
def recAm1 (e : Ell) : ℂ := (starRingEnd ℂ) (recAp1 e)

end

end UTide
