import Verif.Lemmas.Ellipse
import Mathlib.Analysis.SpecialFunctions.Trigonometric.Deriv

/-!
# C09, C10 for `ut_cs2cep`

The specification `current` is the velocity (as `u + i v`) with cosine/sine coefficients `(Xu, Yu, Xv, Yv)` at
phase `φ` degrees of the cycle; it does not use anything of `ellipse_params.py`.
-/

namespace UTide

open Complex (I)

/-- `u`-component at phase `φ` (degrees). -/
noncomputable def uAt (Xu Yu φ : ℝ) : ℝ := Xu * Real.cos (φ * Real.pi / 180) + Yu * Real.sin (φ * Real.pi / 180)

/-- The velocity vector at phase `φ` as a complex number. -/
noncomputable def current (Xu Yu Xv Yv φ : ℝ) : ℂ := ⟨uAt Xu Yu φ, uAt Xv Yv φ⟩

/-- Twice the rate at which the radius vector sweeps area per radian of phase, `u v' - v u'`: positive iff
the vector turns counter-clockwise. The derivatives are those of `uAt`, see `uAt_deriv`. -/
noncomputable def turning (Xu Yu Xv Yv φ : ℝ) : ℝ :=
  uAt Xu Yu φ * uAt Yv (-Xv) φ - uAt Xv Yv φ * uAt Yu (-Xu) φ

/-- `uAt Y (-X)` is the derivative of `uAt X Y` with respect to the phase in radians. -/
theorem uAt_deriv (X Y φ : ℝ) :
    HasDerivAt (fun x : ℝ => X * Real.cos x + Y * Real.sin x) (uAt Y (-X) φ) (φ * Real.pi / 180) := by
  have h := ((Real.hasDerivAt_cos (φ * Real.pi / 180)).const_mul X).add
    ((Real.hasDerivAt_sin (φ * Real.pi / 180)).const_mul Y)
  have e : uAt Y (-X) φ = X * -Real.sin (φ * Real.pi / 180) + Y * Real.cos (φ * Real.pi / 180) := by
    unfold uAt; ring
  rw [e]
  exact h

theorem cisd_eq (φ : ℝ) : cisd φ = ⟨Real.cos (φ * Real.pi / 180), Real.sin (φ * Real.pi / 180)⟩ := by
  unfold cisd
  rw [show I * (φ : ℂ) * ((Real.pi / 180 : ℝ) : ℂ) = ((φ * Real.pi / 180 : ℝ) : ℂ) * I by push_cast; ring,
    Complex.exp_mul_I, ← Complex.ofReal_cos, ← Complex.ofReal_sin]
  generalize φ * Real.pi / 180 = x
  apply Complex.ext <;> simp [-Complex.ofReal_cos, -Complex.ofReal_sin]

/-- The rotary decomposition used by the code. -/
noncomputable def rotP (Xu Yu Xv Yv : ℝ) : ℂ := ((Xu + Yv : ℝ) + I * (Xv - Yu : ℝ)) / 2
noncomputable def rotM (Xu Yu Xv Yv : ℝ) : ℂ := ((Xu - Yv : ℝ) + I * (Xv + Yu : ℝ)) / 2

theorem current_rot (Xu Yu Xv Yv φ : ℝ) :
    current Xu Yu Xv Yv φ = rotP Xu Yu Xv Yv * cisd φ + rotM Xu Yu Xv Yv * cisd (-φ) := by
  rw [← conj_cisd, cisd_eq]
  unfold current uAt rotP rotM
  apply Complex.ext
  · simp; ring
  · simp; ring

theorem cs2cep2_ell2 (Xu Yu Xv Yv : ℝ) :
    cs2cep2 Xu Yu Xv Yv = ell2 (rotP Xu Yu Xv Yv) (rotM Xu Yu Xv Yv) := by
  rw [ell2_eq]
  rfl

theorem C09_cs2cep_ranges (Xu Yu Xv Yv : ℝ) :
    0 ≤ (cs2cep1 Xu Yu).Lsmaj ∧ 0 ≤ (cs2cep1 Xu Yu).g ∧ (cs2cep1 Xu Yu).g < 360 ∧
    |(cs2cep2 Xu Yu Xv Yv).Lsmin| ≤ (cs2cep2 Xu Yu Xv Yv).Lsmaj ∧
    0 ≤ (cs2cep2 Xu Yu Xv Yv).theta ∧ (cs2cep2 Xu Yu Xv Yv).theta < 180 ∧
    0 ≤ (cs2cep2 Xu Yu Xv Yv).g ∧ (cs2cep2 Xu Yu Xv Yv).g < 360 := by
  refine ⟨norm_nonneg _, pymod_nonneg _ (by norm_num), pymod_lt _ (by norm_num), ?_,
    pymod_nonneg _ (by norm_num), pymod_lt _ (by norm_num), pymod_nonneg _ (by norm_num),
    pymod_lt _ (by norm_num)⟩
  unfold cs2cep2
  dsimp only
  rw [abs_le]
  constructor <;> nlinarith [norm_nonneg (((Xu + Yv : ℝ) + I * (Xv - Yu : ℝ)) / 2 : ℂ),
    norm_nonneg (((Xu - Yv : ℝ) + I * (Xv + Yu : ℝ)) / 2 : ℂ)]

/-- The ranges are not trivial: a pure clockwise rotation has a negative minor axis. -/
example : (cs2cep2 1 0 0 (-1)).Lsmaj = 1 ∧ (cs2cep2 1 0 0 (-1)).Lsmin = -1 := by
  unfold cs2cep2; norm_num

/-- The scalar series `Xu cos φ + Yu sin φ` is `A cos(φ - g)`. -/
theorem C10_scalar (Xu Yu φ : ℝ) :
    uAt Xu Yu φ = (cs2cep1 Xu Yu).Lsmaj * Real.cos ((φ - (cs2cep1 Xu Yu).g) * Real.pi / 180) := by
  set z : ℂ := Xu - I * Yu with hz
  have h1 : uAt Xu Yu φ = (z * cisd φ).re := by
    rw [cisd_eq, hz]; unfold uAt; simp
  obtain ⟨k, hk⟩ := pymod_eq_sub (-angleDeg z) 360
  have hg : (cs2cep1 Xu Yu).g = -angleDeg z - 360 * k := hk
  have hA : (cs2cep1 Xu Yu).Lsmaj = ‖z‖ := rfl
  rw [h1, hA, ← norm_mul_cisd_angle z, mul_assoc, ← cisd_add]
  rw [show ‖(‖z‖ : ℂ) * cisd (angleDeg z)‖ = ‖z‖ by rw [norm_mul_cisd_angle]]
  rw [cisd_congr (angleDeg z + φ) (φ - (cs2cep1 Xu Yu).g) ⟨-k, by rw [hg]; push_cast; ring⟩]
  rw [cisd_eq]
  simp

/-- At phase `g` the current points along `+theta` with speed `Lsmaj`. -/
theorem C10_direction (Xu Yu Xv Yv : ℝ) :
    current Xu Yu Xv Yv (cs2cep2 Xu Yu Xv Yv).g =
      ((cs2cep2 Xu Yu Xv Yv).Lsmaj : ℂ) *
        ⟨Real.cos ((cs2cep2 Xu Yu Xv Yv).theta * Real.pi / 180),
         Real.sin ((cs2cep2 Xu Yu Xv Yv).theta * Real.pi / 180)⟩ := by
  rw [← cisd_eq, current_rot]
  have hp := recAp2_ell2 (rotP Xu Yu Xv Yv) (rotM Xu Yu Xv Yv)
  have hm := recAm2_ell2 (rotP Xu Yu Xv Yv) (rotM Xu Yu Xv Yv)
  rw [← cs2cep2_ell2, recAp2_cisd] at hp
  rw [← cs2cep2_ell2, recAm2_cisd] at hm
  generalize cs2cep2 Xu Yu Xv Yv = e at *
  rw [← hp, ← hm, mul_assoc, mul_assoc, ← cisd_add, ← cisd_add,
    show e.theta - e.g + e.g = e.theta by ring, show e.theta + e.g + -e.g = e.theta by ring]
  push_cast; ring

/-- The greatest speed over the cycle is `Lsmaj`. -/
theorem C10_max_speed (Xu Yu Xv Yv : ℝ) :
    IsGreatest (Set.range fun φ => ‖current Xu Yu Xv Yv φ‖) (cs2cep2 Xu Yu Xv Yv).Lsmaj := by
  constructor
  · refine ⟨(cs2cep2 Xu Yu Xv Yv).g, ?_⟩
    dsimp only
    rw [C10_direction, ← cisd_eq, norm_mul, norm_cisd, mul_one, Complex.norm_real, Real.norm_eq_abs,
      abs_of_nonneg]
    exact le_trans (abs_nonneg _) (C09_cs2cep_ranges Xu Yu Xv Yv).2.2.2.1
  · rintro _ ⟨φ, rfl⟩
    dsimp only
    rw [current_rot, cs2cep2_ell2, ell2_eq]
    refine (norm_add_le _ _).trans ?_
    rw [norm_mul, norm_mul, norm_cisd, norm_cisd, mul_one, mul_one]

/-- The least speed over the cycle is `|Lsmin|`. -/
theorem C10_min_speed (Xu Yu Xv Yv : ℝ) :
    IsLeast (Set.range fun φ => ‖current Xu Yu Xv Yv φ‖) |(cs2cep2 Xu Yu Xv Yv).Lsmin| := by
  constructor
  · refine ⟨(cs2cep2 Xu Yu Xv Yv).g + 90, ?_⟩
    dsimp only
    rw [current_rot]
    have hp := recAp2_ell2 (rotP Xu Yu Xv Yv) (rotM Xu Yu Xv Yv)
    have hm := recAm2_ell2 (rotP Xu Yu Xv Yv) (rotM Xu Yu Xv Yv)
    rw [← cs2cep2_ell2, recAp2_cisd] at hp
    rw [← cs2cep2_ell2, recAm2_cisd] at hm
    generalize cs2cep2 Xu Yu Xv Yv = e at *
    rw [← hp, ← hm, mul_assoc, mul_assoc, ← cisd_add, ← cisd_add,
      show e.theta - e.g + (e.g + 90) = e.theta + 90 by ring,
      show e.theta + e.g + -(e.g + 90) = (e.theta + 90) + -180 by ring, cisd_add _ (-180)]
    have h180 : cisd (-180) = -1 := by
      rw [cisd_eq]
      apply Complex.ext
      · simp
        rw [show -(180 * Real.pi) / 180 = -Real.pi by ring]; simp
      · simp
        rw [show -(180 * Real.pi) / 180 = -Real.pi by ring]; simp
    rw [h180]
    rw [show (((e.Lsmaj + e.Lsmin) / 2 : ℝ) : ℂ) * cisd (e.theta + 90) +
        (((e.Lsmaj - e.Lsmin) / 2 : ℝ) : ℂ) * (cisd (e.theta + 90) * -1) =
        (e.Lsmin : ℂ) * cisd (e.theta + 90) by push_cast; ring]
    rw [norm_mul, norm_cisd, mul_one, Complex.norm_real, Real.norm_eq_abs]
  · rintro _ ⟨φ, rfl⟩
    dsimp only
    rw [current_rot, cs2cep2_ell2, ell2_eq]
    have h := abs_norm_sub_norm_le (rotP Xu Yu Xv Yv * cisd φ) (-(rotM Xu Yu Xv Yv * cisd (-φ)))
    rw [norm_neg, norm_mul, norm_mul, norm_cisd, norm_cisd, mul_one, mul_one, sub_neg_eq_add] at h
    exact h

theorem turning_eq (Xu Yu Xv Yv φ : ℝ) :
    turning Xu Yu Xv Yv φ = (cs2cep2 Xu Yu Xv Yv).Lsmaj * (cs2cep2 Xu Yu Xv Yv).Lsmin := by
  rw [cs2cep2_ell2, ell2_eq]
  dsimp only
  have e1 : ∀ z : ℂ, ‖z‖ * ‖z‖ = z.re * z.re + z.im * z.im := fun z => by
    rw [← Complex.normSq_apply, Complex.normSq_eq_norm_sq, sq]
  have : (‖rotP Xu Yu Xv Yv‖ + ‖rotM Xu Yu Xv Yv‖) * (‖rotP Xu Yu Xv Yv‖ - ‖rotM Xu Yu Xv Yv‖)
      = ‖rotP Xu Yu Xv Yv‖ * ‖rotP Xu Yu Xv Yv‖ - ‖rotM Xu Yu Xv Yv‖ * ‖rotM Xu Yu Xv Yv‖ := by ring
  rw [this, e1, e1]
  unfold turning uAt rotP rotM
  simp
  have := Real.sin_sq_add_cos_sq (φ * Real.pi / 180)
  linear_combination (Xu * Yv - Xv * Yu) * this

/-- The current rotates counter-clockwise (throughout the cycle) iff `Lsmin > 0`, clockwise iff `Lsmin < 0`. -/
theorem C10_rotation (Xu Yu Xv Yv : ℝ) :
    ((∀ φ, 0 < turning Xu Yu Xv Yv φ) ↔ 0 < (cs2cep2 Xu Yu Xv Yv).Lsmin) ∧
    ((∀ φ, turning Xu Yu Xv Yv φ < 0) ↔ (cs2cep2 Xu Yu Xv Yv).Lsmin < 0) := by
  have hr := (C09_cs2cep_ranges Xu Yu Xv Yv).2.2.2.1
  simp only [turning_eq, forall_const]
  generalize cs2cep2 Xu Yu Xv Yv = e at *
  rw [abs_le] at hr
  constructor
  · constructor
    · intro h
      by_contra hn
      push Not at hn
      nlinarith
    · intro h
      have : 0 < e.Lsmaj := by linarith
      positivity
  · constructor
    · intro h
      by_contra hn
      push Not at hn
      nlinarith
    · intro h
      have : 0 < e.Lsmaj := by linarith
      nlinarith

/-- Non-vacuity: an anticlockwise ellipse with semi-axes 2 and 1. -/
example : 0 < (cs2cep2 2 0 0 1).Lsmin ∧ (cs2cep2 2 0 0 1).Lsmaj = 2 := by
  unfold cs2cep2; norm_num

end UTide
