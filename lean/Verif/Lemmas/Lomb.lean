import Verif.Lemmas.Dft
import Mathlib.Analysis.SpecialFunctions.Trigonometric.Basic

/-!
# The Lomb-Scargle sums
-/

namespace UTide

noncomputable section

open Complex (I)

local notation "conj" => starRingEnd ℂ

/-- Sum of the doubled phases. -/
def phaseSum (t : List ℝ) (w : ℝ) : ℂ := (t.map fun x => Complex.exp (((2 * w * x : ℝ) : ℂ) * I)).sum

theorem exp_ofReal_I (x : ℝ) : Complex.exp ((x : ℂ) * I) = ⟨Real.cos x, Real.sin x⟩ := by
  apply Complex.ext
  · simp [Complex.exp_ofReal_mul_I_re]
  · simp [Complex.exp_ofReal_mul_I_im]

theorem sum_mk {α : Type} (l : List α) (f g : α → ℝ) :
    (l.map fun x => (⟨f x, g x⟩ : ℂ)).sum = ⟨(l.map f).sum, (l.map g).sum⟩ := by
  induction l with
  | nil => rfl
  | cons a l ih =>
    simp only [List.map_cons, List.sum_cons, ih]
    rfl

theorem lsTau_eq (t : List ℝ) (w : ℝ) : lsTau t w = 0.5 * Complex.arg (phaseSum t w) := by
  unfold lsTau phaseSum
  simp only [exp_ofReal_I, sum_mk]

/-- Phases counted from `tau`. -/
theorem phaseSum_tau (t : List ℝ) (w : ℝ) :
    (t.map fun x => Real.cos (2 * (w * x - lsTau t w))).sum = ‖phaseSum t w‖ ∧
    (t.map fun x => Real.sin (2 * (w * x - lsTau t w))).sum = 0 := by
  have h : (t.map fun x => (⟨Real.cos (2 * (w * x - lsTau t w)), Real.sin (2 * (w * x - lsTau t w))⟩ : ℂ)).sum =
      (‖phaseSum t w‖ : ℂ) := by
    have e : ∀ x : ℝ, (⟨Real.cos (2 * (w * x - lsTau t w)), Real.sin (2 * (w * x - lsTau t w))⟩ : ℂ) =
        Complex.exp (((2 * w * x : ℝ) : ℂ) * I) * Complex.exp (-((Complex.arg (phaseSum t w) : ℝ) : ℂ) * I) := by
      intro x
      rw [← exp_ofReal_I, ← Complex.exp_add, lsTau_eq]
      congr 1
      push_cast
      ring
    simp only [e]
    rw [List.sum_map_mul_right]
    show phaseSum t w * _ = _
    conv_lhs => rw [← Complex.norm_mul_exp_arg_mul_I (phaseSum t w)]
    rw [mul_assoc, ← Complex.exp_add, neg_mul, Complex.norm_mul_exp_arg_mul_I, add_neg_cancel, Complex.exp_zero, mul_one]
  rw [sum_mk] at h
  exact ⟨congrArg Complex.re h, congrArg Complex.im h⟩

theorem lsCC_eq (t : List ℝ) (w : ℝ) : lsCC t w = (t.length + ‖phaseSum t w‖) / 2 := by
  rw [← (phaseSum_tau t w).1]
  unfold lsCC
  generalize lsTau t w = τ
  induction t with
  | nil => simp
  | cons a t ih =>
    simp only [List.map_cons, List.sum_cons, ih, List.length_cons, Real.cos_two_mul]
    push_cast; ring

theorem lsSS_eq (t : List ℝ) (w : ℝ) : lsSS t w = (t.length - ‖phaseSum t w‖) / 2 := by
  rw [← (phaseSum_tau t w).1]
  unfold lsSS
  generalize lsTau t w = τ
  induction t with
  | nil => simp
  | cons a t ih =>
    simp only [List.map_cons, List.sum_cons, ih, List.length_cons, Real.cos_two_mul (w * a - τ)]
    rw [Real.sin_sq (w * a - τ)]
    push_cast; ring

/-- Cosine and sine are orthogonal on the sample times. -/
theorem lsCS_eq (t : List ℝ) (w : ℝ) :
    (t.map fun x => Real.cos (w * x - lsTau t w) * Real.sin (w * x - lsTau t w)).sum = 0 := by
  have h := (phaseSum_tau t w).2
  simp only [Real.sin_two_mul] at h
  have : (t.map fun x => 2 * Real.sin (w * x - lsTau t w) * Real.cos (w * x - lsTau t w)).sum =
      2 * (t.map fun x => Real.cos (w * x - lsTau t w) * Real.sin (w * x - lsTau t w)).sum := by
    rw [← List.sum_map_mul_left]
    congr 1
    refine List.map_congr_left fun x _ => ?_
    ring
  rw [this] at h
  linarith

/-! ## Shifted times -/

theorem phaseSum_shift (t : List ℝ) (w s : ℝ) :
    phaseSum (t.map (· + s)) w = phaseSum t w * Complex.exp (((2 * w * s : ℝ) : ℂ) * I) := by
  unfold phaseSum
  rw [List.map_map, ← List.sum_map_mul_right]
  congr 1
  refine List.map_congr_left fun x _ => ?_
  simp only [Function.comp]
  rw [← Complex.exp_add]
  congr 1
  push_cast; ring

theorem lsCC_shift (t : List ℝ) (w s : ℝ) : lsCC (t.map (· + s)) w = lsCC t w := by
  rw [lsCC_eq, lsCC_eq, phaseSum_shift, norm_mul, Complex.norm_exp_ofReal_mul_I, mul_one, List.length_map]

theorem lsSS_shift (t : List ℝ) (w s : ℝ) : lsSS (t.map (· + s)) w = lsSS t w := by
  rw [lsSS_eq, lsSS_eq, phaseSum_shift, norm_mul, Complex.norm_exp_ofReal_mul_I, mul_one, List.length_map]

/-- The phase shift follows the shift of the times, up to half turns, unless the doubled phases cancel. -/
theorem lsTau_shift (t : List ℝ) (w s : ℝ) (h : phaseSum t w ≠ 0) :
    ∃ n : ℤ, lsTau (t.map (· + s)) w = lsTau t w + w * s + n * Real.pi := by
  rw [lsTau_eq, lsTau_eq, phaseSum_shift]
  set z := phaseSum t w
  have h1 : Complex.exp (((Complex.arg (z * Complex.exp (((2 * w * s : ℝ) : ℂ) * I)) : ℝ) : ℂ) * I) =
      Complex.exp (((Complex.arg z + 2 * w * s : ℝ) : ℂ) * I) := by
    have e1 := Complex.norm_mul_exp_arg_mul_I (z * Complex.exp (((2 * w * s : ℝ) : ℂ) * I))
    have e2 := Complex.norm_mul_exp_arg_mul_I z
    rw [norm_mul, Complex.norm_exp_ofReal_mul_I, mul_one] at e1
    have hz : (‖z‖ : ℂ) ≠ 0 := by simpa using h
    apply mul_left_cancel₀ hz
    rw [e1]
    conv_lhs => rw [← e2]
    rw [mul_assoc, ← Complex.exp_add]
    congr 2
    push_cast; ring
  obtain ⟨n, hn⟩ := Complex.exp_eq_exp_iff_exists_int.1 h1
  refine ⟨n, ?_⟩
  have h2 : ((Complex.arg (z * Complex.exp (((2 * w * s : ℝ) : ℂ) * I)) : ℝ) : ℂ) =
      ((Complex.arg z + 2 * w * s + n * (2 * Real.pi) : ℝ) : ℂ) := by
    have hI : (I : ℂ) ≠ 0 := Complex.I_ne_zero
    apply mul_right_cancel₀ hI
    rw [hn]
    push_cast; ring
  rw [Complex.ofReal_inj.1 h2]
  ring

end

end UTide
