import Verif.Lemmas.Gram
import Mathlib.MeasureTheory.Integral.Bochner.Basic
import Mathlib.MeasureTheory.Integral.Bochner.ContinuousLinearMap
import Mathlib.MeasureTheory.Measure.Typeclasses.Probability

/-!
# Least squares with random errors in the data
-/

namespace UTide

noncomputable section

open Matrix MeasureTheory

local notation "conj" => starRingEnd ℂ

variable {Ω : Type} [MeasurableSpace Ω] {μ : Measure Ω} {n k : ℕ}

/-- The mean of a linear combination of a fixed vector plus errors of mean zero. -/
theorem mean_combination [IsProbabilityMeasure μ] (s b : Fin n → ℂ) (η : Fin n → Ω → ℂ) (hi : ∀ j, Integrable (η j) μ)
    (h0 : ∀ j, ∫ ω, η j ω ∂μ = 0) :
    Integrable (fun ω => ∑ j, s j * (b j + η j ω)) μ ∧ ∫ ω, ∑ j, s j * (b j + η j ω) ∂μ = ∑ j, s j * b j := by
  have h1 : ∀ j, Integrable (fun ω => s j * (b j + η j ω)) μ := fun j =>
    ((integrable_const (b j)).add (hi j)).const_mul _
  refine ⟨integrable_finsetSum _ fun j _ => h1 j, ?_⟩
  rw [integral_finsetSum _ fun j _ => h1 j]
  refine Finset.sum_congr rfl fun j _ => ?_
  rw [integral_const_mul, integral_add (integrable_const _) (hi j), h0 j]
  simp

/-- The mean square of a linear combination of uncorrelated errors. -/
theorem mean_square (s : Fin n → ℂ) (η : Fin n → Ω → ℂ) (σ2 : ℝ)
    (hi : ∀ i j, Integrable (fun ω => η i ω * conj (η j ω)) μ)
    (h0 : ∀ i j, ∫ ω, η i ω * conj (η j ω) ∂μ = if i = j then (σ2 : ℂ) else 0) :
    Integrable (fun ω => ‖∑ j, s j * η j ω‖ ^ 2) μ ∧ ∫ ω, ‖∑ j, s j * η j ω‖ ^ 2 ∂μ = σ2 * ∑ j, ‖s j‖ ^ 2 := by
  have e : ∀ ω, ‖∑ j, s j * η j ω‖ ^ 2 = (∑ i, ∑ j, s i * conj (s j) * (η i ω * conj (η j ω))).re := by
    intro ω
    rw [← Complex.normSq_eq_norm_sq, ← Complex.ofReal_re (Complex.normSq _), ← Complex.mul_conj, map_sum, Finset.sum_mul_sum]
    congr 1
    refine Finset.sum_congr rfl fun i _ => Finset.sum_congr rfl fun j _ => ?_
    rw [map_mul]; ring
  have hint : ∀ i j, Integrable (fun ω => s i * conj (s j) * (η i ω * conj (η j ω))) μ := fun i j => (hi i j).const_mul _
  have hsum : Integrable (fun ω => ∑ i, ∑ j, s i * conj (s j) * (η i ω * conj (η j ω))) μ :=
    integrable_finsetSum _ fun i _ => integrable_finsetSum _ fun j _ => hint i j
  simp only [e]
  refine ⟨hsum.re, ?_⟩
  have h1 : ∫ ω, (∑ i, ∑ j, s i * conj (s j) * (η i ω * conj (η j ω))).re ∂μ =
      (∫ ω, ∑ i, ∑ j, s i * conj (s j) * (η i ω * conj (η j ω)) ∂μ).re := integral_re hsum
  rw [h1, integral_finsetSum _ fun i _ => integrable_finsetSum _ fun j _ => hint i j]
  have h2 : ∀ i, ∫ ω, ∑ j, s i * conj (s j) * (η i ω * conj (η j ω)) ∂μ = (((σ2 * ‖s i‖ ^ 2 : ℝ)) : ℂ) := by
    intro i
    rw [integral_finsetSum _ fun j _ => hint i j]
    simp only [integral_const_mul, h0]
    simp only [mul_ite, mul_zero, Finset.sum_ite_eq, Finset.mem_univ, if_true]
    rw [Complex.mul_conj, Complex.normSq_eq_norm_sq]
    push_cast
    ring
  simp only [h2]
  rw [← Complex.ofReal_sum, Complex.ofReal_re, Finset.mul_sum]

/-- The trace of the hat matrix is the number of columns. -/
theorem trace_hat {D : Matrix (Fin n) (Fin k) ℂ} (hd : (Dᴴ * D).det ≠ 0) : (hat D).trace = k := by
  unfold hat
  rw [trace_mul_comm, solver_mul hd, trace_one]
  simp

/-- The mean of the residual sum of squares. -/
theorem mean_residual {D : Matrix (Fin n) (Fin k) ℂ} (hd : (Dᴴ * D).det ≠ 0) (f : Fin k → ℂ) (η : Fin n → Ω → ℂ) (σ2 : ℝ)
    (hi : ∀ i j, Integrable (fun ω => η i ω * conj (η j ω)) μ)
    (h0 : ∀ i j, ∫ ω, η i ω * conj (η j ω) ∂μ = if i = j then (σ2 : ℂ) else 0) :
    let x : Ω → Fin n → ℂ := fun ω j => (D *ᵥ f) j + η j ω
    Integrable (fun ω => ∑ j, ‖x ω j - (D *ᵥ (solver D *ᵥ x ω)) j‖ ^ 2) μ ∧
      ∫ ω, ∑ j, ‖x ω j - (D *ᵥ (solver D *ᵥ x ω)) j‖ ^ 2 ∂μ = σ2 * ((n : ℝ) - k) := by
  intro x
  have e : ∀ ω j, x ω j - (D *ᵥ (solver D *ᵥ x ω)) j = ∑ l, (1 - hat D) j l * η l ω := by
    intro ω j
    have h1 : D *ᵥ (solver D *ᵥ x ω) = D *ᵥ f + hat D *ᵥ fun l => η l ω := by
      have : x ω = D *ᵥ f + fun l => η l ω := rfl
      rw [this, mulVec_mulVec, mulVec_add, mulVec_mulVec]
      show (hat D * D) *ᵥ f + _ = _
      rw [hat_mul hd]
      rfl
    rw [h1]
    have h2 : ∑ l, (1 - hat D) j l * η l ω = ((1 - hat D) *ᵥ fun l => η l ω) j := rfl
    rw [h2, sub_mulVec, one_mulVec]
    show (D *ᵥ f) j + η j ω - ((D *ᵥ f) j + (hat D *ᵥ fun l => η l ω) j) = η j ω - _
    ring
  simp only [e]
  have hj := fun j => mean_square (μ := μ) (fun l => (1 - hat D) j l) η σ2 hi h0
  refine ⟨integrable_finsetSum _ fun j _ => (hj j).1, ?_⟩
  rw [integral_finsetSum _ fun j _ => (hj j).1]
  simp only [(hj _).2]
  rw [← Finset.mul_sum]
  congr 1
  have hQ : (1 - hat D) * (1 - hat D)ᴴ = 1 - hat D := by
    rw [conjTranspose_sub, conjTranspose_one, hat_herm, sub_mul, mul_sub, mul_sub, hat_mul_hat hd]
    simp
  have htr : ((1 - hat D).trace).re = (n : ℝ) - k := by
    rw [trace_sub, trace_one, trace_hat hd]; simp
  rw [← htr]
  conv_rhs => rw [← hQ]
  simp only [trace, diag_apply, mul_apply, Complex.re_sum]
  refine Finset.sum_congr rfl fun j _ => Finset.sum_congr rfl fun l _ => ?_
  rw [conjTranspose_apply, RCLike.star_def, Complex.mul_conj, Complex.normSq_eq_norm_sq, Complex.ofReal_re]

/-- A linear function of the fitted coefficients is right on average. -/
theorem mean_linear [IsProbabilityMeasure μ] {D : Matrix (Fin n) (Fin k) ℂ} (hd : (Dᴴ * D).det ≠ 0) (L f : Fin k → ℂ)
    (η : Fin n → Ω → ℂ) (hi : ∀ j, Integrable (η j) μ) (h0 : ∀ j, ∫ ω, η j ω ∂μ = 0) :
    Integrable (fun ω => L ⬝ᵥ (solver D *ᵥ fun j => (D *ᵥ f) j + η j ω)) μ ∧
      ∫ ω, L ⬝ᵥ (solver D *ᵥ fun j => (D *ᵥ f) j + η j ω) ∂μ = L ⬝ᵥ f := by
  have h := mean_combination (μ := μ) (L ᵥ* solver D) (D *ᵥ f) η hi h0
  simp only [dotProduct_mulVec]
  refine ⟨h.1, h.2.trans ?_⟩
  show (L ᵥ* solver D) ⬝ᵥ (D *ᵥ f) = _
  rw [← dotProduct_mulVec, mulVec_mulVec, solver_mul hd, one_mulVec]

/-- The error of the fitted values. -/
theorem fit_error {D : Matrix (Fin n) (Fin k) ℂ} (hd : (Dᴴ * D).det ≠ 0) (f : Fin k → ℂ) (η : Fin n → ℂ) (j : Fin n) :
    (D *ᵥ (solver D *ᵥ fun j => (D *ᵥ f) j + η j)) j - (D *ᵥ f) j = ∑ l, hat D j l * η l := by
  have h1 : D *ᵥ (solver D *ᵥ fun j => (D *ᵥ f) j + η j) = D *ᵥ f + hat D *ᵥ η := by
    have : (fun j => (D *ᵥ f) j + η j) = D *ᵥ f + η := rfl
    rw [this, mulVec_mulVec, mulVec_add, mulVec_mulVec]
    show (hat D * D) *ᵥ f + _ = _
    rw [hat_mul hd]
    rfl
  rw [h1]
  show (D *ᵥ f) j + (hat D *ᵥ η) j - (D *ᵥ f) j = _
  rw [add_sub_cancel_left]
  rfl

/-- The mean of the squared errors of the fitted values. -/
theorem mean_fit_error {D : Matrix (Fin n) (Fin k) ℂ} (hd : (Dᴴ * D).det ≠ 0) (f : Fin k → ℂ) (η : Fin n → Ω → ℂ) (σ2 : ℝ)
    (hi : ∀ i j, Integrable (fun ω => η i ω * conj (η j ω)) μ)
    (h0 : ∀ i j, ∫ ω, η i ω * conj (η j ω) ∂μ = if i = j then (σ2 : ℂ) else 0) :
    Integrable (fun ω => ∑ j, ‖(D *ᵥ (solver D *ᵥ fun j => (D *ᵥ f) j + η j ω)) j - (D *ᵥ f) j‖ ^ 2) μ ∧
      ∫ ω, ∑ j, ‖(D *ᵥ (solver D *ᵥ fun j => (D *ᵥ f) j + η j ω)) j - (D *ᵥ f) j‖ ^ 2 ∂μ = σ2 * k := by
  simp only [fun ω j => fit_error hd f (fun l => η l ω) j]
  have hj := fun j => mean_square (μ := μ) (fun l => hat D j l) η σ2 hi h0
  refine ⟨integrable_finsetSum _ fun j _ => (hj j).1, ?_⟩
  rw [integral_finsetSum _ fun j _ => (hj j).1]
  simp only [(hj _).2]
  rw [← Finset.mul_sum]
  congr 1
  have hQ : hat D * (hat D)ᴴ = hat D := by rw [hat_herm, hat_mul_hat hd]
  have htr : ((hat D).trace).re = k := by rw [trace_hat hd]; simp
  rw [← htr]
  conv_rhs => rw [← hQ]
  simp only [trace, diag_apply, mul_apply, Complex.re_sum]
  refine Finset.sum_congr rfl fun j _ => Finset.sum_congr rfl fun l _ => ?_
  rw [conjTranspose_apply, RCLike.star_def, Complex.mul_conj, Complex.normSq_eq_norm_sq, Complex.ofReal_re]

end

end UTide
