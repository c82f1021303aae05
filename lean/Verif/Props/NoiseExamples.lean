import Verif.Props.NoiseProps
import Verif.Props.PerfectFit
import Mathlib.Probability.ProbabilityMassFunction.Integrals
import Mathlib.Probability.Distributions.Uniform

/-!
# Random errors in the data: a case of C121
-/

namespace UTide.Props

noncomputable section

open Classical MeasureTheory

local notation "conj" => starRingEnd ℂ

/-- An error of 2 or -2, each with probability one half, in one of four samples chosen at random. -/
def strayError (i : ℕ) (ω : Fin 4 × Bool) : ℝ := if ω.1.val = i then (if ω.2 then 2 else -2) else 0

def strayMeasure : Measure (Fin 4 × Bool) := (PMF.uniformOfFintype (Fin 4 × Bool)).toMeasure

instance : IsProbabilityMeasure strayMeasure := PMF.toMeasure.isProbabilityMeasure _

theorem stray_integral (f : Fin 4 × Bool → ℂ) : ∫ ω, f ω ∂strayMeasure = (∑ ω, f ω) / 8 := by
  unfold strayMeasure
  rw [PMF.integral_eq_sum, Finset.sum_div]
  refine Finset.sum_congr rfl fun ω _ => ?_
  simp [PMF.uniformOfFintype_apply, Fintype.card_prod]
  ring

theorem stray_integrable (f : Fin 4 × Bool → ℂ) : Integrable f strayMeasure := .of_finite

theorem stray_centred : Centred strayMeasure (Finset.range 4) fun i ω => (strayError i ω : ℂ) := by
  intro i hi
  refine ⟨stray_integrable _, ?_⟩
  rw [stray_integral, Fintype.sum_prod_type]
  simp only [Fintype.sum_bool, strayError, Fin.sum_univ_four]
  rw [Finset.mem_range] at hi
  interval_cases i <;> simp

theorem stray_uncorrelated : Uncorrelated strayMeasure (Finset.range 4) (fun i ω => (strayError i ω : ℂ)) 1 := by
  intro i hi j hj
  refine ⟨stray_integrable _, ?_⟩
  rw [stray_integral, Fintype.sum_prod_type]
  simp only [Fintype.sum_bool, strayError, Fin.sum_univ_four]
  rw [Finset.mem_range] at hi hj
  interval_cases i <;> interval_cases j <;> simp <;> (rw [map_ofNat]; norm_num)

/-- M2 with amplitude 1 at four samples, with such errors. -/
def strayU (z : ℂ) (ω : Fin 4 × Bool) : Series :=
  quadSeries (z.re + strayError 0 ω) (1 + strayError 1 ω) (z.re + strayError 2 ω) (z.re + strayError 3 ω)

theorem stray_runs : ∃ (z : ℂ) (c : Fin 4 × Bool → Coef), (∀ ω, (c ω).name = ["M2"] ∧ (c ω).opt = ciOpt false true true) ∧
    NoisyRuns idealEnv quadT (some 45) (ciOpts "linear" true) (strayU z) (fun _ => none) c none quadTn false
      (Finset.range 4) (fun _ => 1 / 2) (fun _ => 1 / 2) 0 0 fun i ω => (strayError i ω : ℂ) := by
  obtain ⟨z, m0, m5, m1, hne, hne2⟩ := m2_values
  have hex := fun ω => quad_ci (z.re + strayError 0 ω) (1 + strayError 1 ω) (z.re + strayError 2 ω) (z.re + strayError 3 ω)
    none (.inl rfl) true
  choose c Q _ using hex
  refine ⟨z, c, fun ω => ⟨(Q ω).name, (Q ω).opt⟩, ?_⟩
  refine
    { ready := fun ω => quad_ready _ _ _ _ none (.inl rfl)
      kind := fun _ => rfl
      keys := by decide
      ols := ⟨.str "ols", rfl, .inl rfl⟩
      returned := fun ω => (Q ω).returned
      kept := fun ω => (Q ω).kept
      infer := fun ω => by rw [(Q ω).opt]; rfl
      exact := fun s hs => by cases hs
      time := fun ω => by rw [(Q ω).opt]; exact quad_times
      used := ?_
      separated := ?_
      tied := ⟨fun s hs => (by cases hs), fun s hs => (by cases hs)⟩
      flat := fun _ _ => rfl
      data := ?_ }
  · intro i hi
    rw [Finset.mem_range] at hi
    interval_cases i <;> exact ⟨_, rfl⟩
  · intro ω
    have h := (Q ω).over.separated
    refine ⟨h.names, fun P M mean slope hT hs hz => h.indep P M mean slope hT hs fun τ hτ => hz τ ?_⟩
    obtain ⟨i, x, h1, -⟩ := hτ
    refine ⟨i, ?_, h1⟩
    rw [Finset.mem_range]
    exact (List.getElem?_eq_some_iff.1 h1).1
  · intro ω i τ hτ
    have hh := quad_m2 (Q ω)
    unfold rotaryCurve
    rw [(Q ω).name]
    have hsum : ∀ w : ℂ, w * (1 / 2) + conj w * (1 / 2) = (w.re : ℂ) := by
      intro w
      rw [← add_mul, Complex.add_conj]
      push_cast; ring
    simp only [List.map_cons, List.map_nil, List.sum_cons, List.sum_nil, hh, hsum, add_zero, zero_mul]
    match i with
    | 0 =>
      obtain rfl : (0 : ℝ) = τ := by simpa [quadTn] using hτ
      simp [strayU, sampleValues, quadSeries, Cell.value?, Fl.toReal?, m0]
    | 1 =>
      obtain rfl : (0.5 : ℝ) = τ := by simpa [quadTn] using hτ
      simp [strayU, sampleValues, quadSeries, Cell.value?, Fl.toReal?, m5]
    | 2 =>
      obtain rfl : (1 : ℝ) = τ := by simpa [quadTn] using hτ
      simp [strayU, sampleValues, quadSeries, Cell.value?, Fl.toReal?, m1]
    | 3 =>
      obtain rfl : (1 : ℝ) = τ := by simpa [quadTn] using hτ
      simp [strayU, sampleValues, quadSeries, Cell.value?, Fl.toReal?, m1]
    | i + 4 => simp [quadTn] at hτ

/-- The mean over these errors of the component is 1/2, and of the estimated noise variance 1. -/
example : ∃ (z : ℂ) (c : Fin 4 × Bool → Coef) (s2 : Fin 4 × Bool → ℝ),
    NoisyRuns idealEnv quadT (some 45) (ciOpts "linear" true) (strayU z) (fun _ => none) c none quadTn false
      (Finset.range 4) (fun _ => 1 / 2) (fun _ => 1 / 2) 0 0 (fun i ω => (strayError i ω : ℂ)) ∧
    ∫ ω, ccwOf (c ω) "M2" ∂strayMeasure = 1 / 2 ∧ ∫ ω, s2 ω ∂strayMeasure = 1 ∧
    ∀ ω, NoiseVariance (c ω) (sampleTimes quadTn (strayU z ω) none) (sampleU quadTn (strayU z ω) none) (s2 ω) := by
  obtain ⟨z, c, hn, H⟩ := stray_runs
  obtain ⟨s2, ⟨-, h1⟩, h2, -⟩ := C121_calibrated idealNum_ok.inv H (fun _ => by simp [Complex.conj_ofNat]) rfl rfl
    (fun ω => by rw [(hn ω).2]; exact ⟨rfl, rfl, rfl⟩) 1 stray_uncorrelated
  exact ⟨z, c, s2, H, ((C121_unbiased H stray_centred).1 "M2" ⟨(0, true), by rw [(hn _).1]; simp⟩).1.2, h1, h2⟩

end

end UTide.Props
