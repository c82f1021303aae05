import Verif.Model.Ellipse
import Mathlib.Algebra.Order.Archimedean.Real.Basic
import Mathlib.Analysis.SpecialFunctions.Complex.Log

/-!
# Ellipse parameters determine the complex coefficients
-/

namespace UTide

open Complex (I)

theorem pymod_nonneg (x : ℝ) {m : ℝ} (hm : 0 < m) : 0 ≤ pymod x m := by
  unfold pymod
  have := Int.floor_le (x / m)
  rw [le_div_iff₀ hm] at this
  linarith

theorem pymod_lt (x : ℝ) {m : ℝ} (hm : 0 < m) : pymod x m < m := by
  unfold pymod
  have := Int.lt_floor_add_one (x / m)
  rw [div_lt_iff₀ hm] at this
  linarith

theorem pymod_eq_sub (x m : ℝ) : ∃ n : ℤ, pymod x m = x - m * n := ⟨_, rfl⟩

/-- `pymod` is determined by its range and congruence. -/
theorem pymod_unique (x y m : ℝ) (hm : 0 < m) (h0 : 0 ≤ y) (h1 : y < m) (h : ∃ n : ℤ, x - y = m * n) :
    pymod x m = y := by
  obtain ⟨n, hn⟩ := h
  unfold pymod
  have : ⌊x / m⌋ = n := by
    rw [Int.floor_eq_iff]
    constructor
    · rw [le_div_iff₀ hm]; linarith
    · rw [div_lt_iff₀ hm]; linarith
  rw [this]; linarith

theorem pymod_congr (x y m : ℝ) (hm : 0 < m) (h : ∃ n : ℤ, x - y = m * n) : pymod x m = pymod y m := by
  obtain ⟨k, hk⟩ := pymod_eq_sub y m
  obtain ⟨n, hn⟩ := h
  exact pymod_unique x _ m hm (pymod_nonneg y hm) (pymod_lt y hm) ⟨n + k, by push_cast; rw [hk]; linarith⟩

/-- `exp(i x)` with `x` in degrees. -/
noncomputable def cisd (x : ℝ) : ℂ := Complex.exp (I * (x : ℂ) * ((Real.pi / 180 : ℝ) : ℂ))

theorem cisd_add (x y : ℝ) : cisd (x + y) = cisd x * cisd y := by
  unfold cisd; rw [← Complex.exp_add]; congr 1; push_cast; ring

theorem cisd_360 (n : ℤ) : cisd (360 * n) = 1 := by
  unfold cisd
  rw [Complex.exp_eq_one_iff]
  exact ⟨n, by push_cast; ring⟩

theorem cisd_zero : cisd 0 = 1 := by unfold cisd; simp

theorem cisd_neg_mul (x : ℝ) : cisd (-x) * cisd x = 1 := by rw [← cisd_add, neg_add_cancel, cisd_zero]

theorem cisd_ne_zero (x : ℝ) : cisd x ≠ 0 := Complex.exp_ne_zero _

theorem norm_cisd (x : ℝ) : ‖cisd x‖ = 1 := by
  unfold cisd
  rw [show I * (x : ℂ) * ((Real.pi / 180 : ℝ) : ℂ) = ((x * (Real.pi / 180) : ℝ) : ℂ) * I by push_cast; ring,
    Complex.norm_exp_ofReal_mul_I]

theorem conj_cisd (x : ℝ) : (starRingEnd ℂ) (cisd x) = cisd (-x) := by
  unfold cisd
  rw [← Complex.exp_conj]
  congr 1
  simp only [map_mul, Complex.conj_I, Complex.conj_ofReal]
  push_cast; ring

theorem cisd_congr (x y : ℝ) (h : ∃ n : ℤ, x - y = 360 * n) : cisd x = cisd y := by
  obtain ⟨n, hn⟩ := h
  rw [show x = y + 360 * n by linarith, cisd_add, cisd_360, mul_one]

theorem cisd_eq_iff (x y : ℝ) : cisd x = cisd y ↔ ∃ n : ℤ, x - y = 360 * n := by
  refine ⟨fun h => ?_, cisd_congr x y⟩
  unfold cisd at h
  rw [Complex.exp_eq_exp_iff_exists_int] at h
  obtain ⟨n, hn⟩ := h
  refine ⟨n, ?_⟩
  have hpi : (Real.pi : ℂ) ≠ 0 := by exact_mod_cast Real.pi_ne_zero
  have hI : I ≠ 0 := Complex.I_ne_zero
  have : ((x : ℂ) - y) * (I * Real.pi) = (360 * n) * (I * Real.pi) := by
    push_cast at hn
    linear_combination (180 : ℂ) * hn
  have := mul_right_cancel₀ (mul_ne_zero hI hpi) this
  exact_mod_cast this

theorem norm_mul_cisd_angle (z : ℂ) : (‖z‖ : ℂ) * cisd (angleDeg z) = z := by
  unfold cisd angleDeg
  conv_rhs => rw [← Complex.norm_mul_exp_arg_mul_I z]
  congr 2
  have : (Real.pi : ℂ) ≠ 0 := by exact_mod_cast Real.pi_ne_zero
  push_cast
  field_simp

theorem re_add_I_im (a b : ℂ) : (((a + b).re + (a - b).re : ℝ) + I * ((a + b).im - -(a - b).im : ℝ) : ℂ) / 2 = a := by
  apply Complex.ext
  · simp
  · simp; ring

theorem re_sub_I_im (a b : ℂ) : (((a + b).re - (a - b).re : ℝ) + I * ((a + b).im + -(a - b).im : ℝ) : ℂ) / 2 = b := by
  apply Complex.ext
  · simp
  · simp; ring

theorem ell2_eq (ap am : ℂ) :
    ell2 ap am = { Lsmaj := ‖ap‖ + ‖am‖, Lsmin := ‖ap‖ - ‖am‖,
                   theta := pymod ((angleDeg ap + angleDeg am) / 2) 180,
                   g := pymod (-angleDeg ap + pymod ((angleDeg ap + angleDeg am) / 2) 180) 360 } := by
  unfold ell2 cs2cep2
  rw [re_add_I_im, re_sub_I_im]

/-- `Xu - i Yu` for the 1-D case. -/
theorem ell1_eq (ap am : ℂ) :
    ell1 ap am = { Lsmaj := ‖ap + (starRingEnd ℂ) am‖, Lsmin := 0, theta := 0,
                   g := pymod (-angleDeg (ap + (starRingEnd ℂ) am)) 360 } := by
  have : (((ap + am).re : ℝ) : ℂ) - I * ((-(ap - am).im : ℝ) : ℂ) = ap + (starRingEnd ℂ) am := by
    apply Complex.ext
    · simp
    · simp; ring
  unfold ell1 cs2cep1
  rw [this]

theorem recAp2_cisd (e : Ell) : recAp2 e = (((e.Lsmaj + e.Lsmin) / 2 : ℝ) : ℂ) * cisd (e.theta - e.g) := by
  unfold recAp2 cisd; push_cast; ring

theorem recAm2_cisd (e : Ell) : recAm2 e = (((e.Lsmaj - e.Lsmin) / 2 : ℝ) : ℂ) * cisd (e.theta + e.g) := by
  unfold recAm2 cisd; push_cast; ring

theorem recAp1_cisd (e : Ell) : recAp1 e = ((e.Lsmaj / 2 : ℝ) : ℂ) * cisd (-e.g) := by
  unfold recAp1 cisd
  rw [show -I * (e.g : ℂ) * ((Real.pi / 180 : ℝ) : ℂ) = I * ((-e.g : ℝ) : ℂ) * ((Real.pi / 180 : ℝ) : ℂ) by
    push_cast; ring]
  push_cast; ring

/-- Reconstruction recovers the positive-frequency coefficient. -/
theorem recAp2_ell2 (ap am : ℂ) : recAp2 (ell2 ap am) = ap := by
  rw [recAp2_cisd, ell2_eq]
  dsimp only
  obtain ⟨j, hj⟩ := pymod_eq_sub (-angleDeg ap + pymod ((angleDeg ap + angleDeg am) / 2) 180) 360
  rw [hj, show (‖ap‖ + ‖am‖ + (‖ap‖ - ‖am‖)) / 2 = ‖ap‖ by ring]
  rw [cisd_congr _ (angleDeg ap) ⟨j, by ring⟩, norm_mul_cisd_angle]

/-- Reconstruction recovers the negative-frequency coefficient. -/
theorem recAm2_ell2 (ap am : ℂ) : recAm2 (ell2 ap am) = am := by
  rw [recAm2_cisd, ell2_eq]
  dsimp only
  obtain ⟨k, hk⟩ := pymod_eq_sub ((angleDeg ap + angleDeg am) / 2) 180
  rw [hk]
  obtain ⟨j, hj⟩ := pymod_eq_sub (-angleDeg ap + ((angleDeg ap + angleDeg am) / 2 - 180 * k)) 360
  rw [hj, show (‖ap‖ + ‖am‖ - (‖ap‖ - ‖am‖)) / 2 = ‖am‖ by ring]
  rw [cisd_congr _ (angleDeg am) ⟨-k - j, by push_cast; ring⟩, norm_mul_cisd_angle]

theorem recAp1_ell1 (ap am : ℂ) : recAp1 (ell1 ap am) = (ap + (starRingEnd ℂ) am) / 2 := by
  rw [recAp1_cisd, ell1_eq]
  dsimp only
  obtain ⟨k, hk⟩ := pymod_eq_sub (-angleDeg (ap + (starRingEnd ℂ) am)) 360
  rw [hk, cisd_congr _ (angleDeg (ap + (starRingEnd ℂ) am)) ⟨k, by ring⟩]
  conv_rhs => rw [← norm_mul_cisd_angle (ap + (starRingEnd ℂ) am)]
  push_cast; ring

/-- The real part of the reconstructed 1-D signal is that of the fitted one. -/
theorem rec1_re (E ap am : ℂ) :
    (E * recAp1 (ell1 ap am) + (starRingEnd ℂ) E * recAm1 (ell1 ap am)).re =
      (E * ap + (starRingEnd ℂ) E * am).re := by
  unfold recAm1
  rw [recAp1_ell1]
  simp [Complex.conj_ofNat]
  ring

end UTide
