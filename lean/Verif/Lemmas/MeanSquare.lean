import Mathlib.Analysis.SpecificLimits.Normed
import Mathlib.Analysis.Complex.Basic
import Mathlib.Algebra.Field.GeomSum

/-!
# The mean square of a sum of rotations
-/

namespace UTide

noncomputable section

open Filter Topology

local notation "conj" => starRingEnd ℂ

/-- The mean of the powers of a number of modulus one other than one tends to zero. -/
theorem mean_pow {w : ℂ} (h : ‖w‖ = 1) (h1 : w ≠ 1) :
    Tendsto (fun m : ℕ => (∑ j ∈ Finset.range m, w ^ j) / (m : ℂ)) atTop (𝓝 0) := by
  refine squeeze_zero_norm (a := fun m : ℕ => 2 / ‖w - 1‖ / (m : ℝ)) (fun m => ?_) (tendsto_const_div_atTop_nhds_zero_nat _)
  rw [norm_div, Complex.norm_natCast, geom_sum_eq h1, norm_div]
  refine div_le_div_of_nonneg_right (div_le_div_of_nonneg_right ?_ (norm_nonneg _)) (Nat.cast_nonneg m)
  refine (norm_sub_le _ _).trans ?_
  rw [norm_pow, h, one_pow, norm_one]
  norm_num

theorem mean_one : Tendsto (fun m : ℕ => (∑ j ∈ Finset.range m, (1 : ℂ) ^ j) / (m : ℂ)) atTop (𝓝 1) := by
  refine tendsto_const_nhds.congr' ?_
  filter_upwards [eventually_ge_atTop 1] with m hm
  have : (m : ℂ) ≠ 0 := by exact_mod_cast (by omega : m ≠ 0)
  simp [this]

/-- Rotations with different angles: the mean square of the sum tends to the sum of the squares. -/
theorem mean_square_turns {ι : Type} (s : Finset ι) (a z : ι → ℂ) (hz : ∀ i ∈ s, ‖z i‖ = 1) (hinj : Set.InjOn z s) :
    Tendsto (fun m : ℕ => (∑ j ∈ Finset.range m, ‖∑ i ∈ s, a i * z i ^ j‖ ^ 2) / (m : ℝ)) atTop (𝓝 (∑ i ∈ s, ‖a i‖ ^ 2)) := by
  classical
  have key : Tendsto (fun m : ℕ => ∑ i ∈ s, ∑ k ∈ s, a i * conj (a k) *
      ((∑ j ∈ Finset.range m, (z i * conj (z k)) ^ j) / (m : ℂ))) atTop
      (𝓝 (∑ i ∈ s, ∑ k ∈ s, a i * conj (a k) * (if k = i then 1 else 0))) := by
    refine tendsto_finset_sum _ fun i hi => tendsto_finset_sum _ fun k hk => Tendsto.const_mul _ ?_
    have hunit : ∀ i ∈ s, z i * conj (z i) = 1 := fun i hi => by
      rw [Complex.mul_conj, Complex.normSq_eq_norm_sq, hz i hi]; simp
    by_cases hik : k = i
    · subst hik
      rw [if_pos rfl, hunit _ hk]
      exact mean_one
    · rw [if_neg hik]
      refine mean_pow (by rw [norm_mul, RCLike.norm_conj, hz i hi, hz k hk, one_mul]) fun h => hik ?_
      refine hinj hk hi ?_
      have := congrArg (· * z k) h
      simp only [mul_assoc, one_mul] at this
      rw [mul_comm (conj (z k)), hunit k hk, mul_one] at this
      exact this.symm
  have hlim : ∑ i ∈ s, ∑ k ∈ s, a i * conj (a k) * (if k = i then 1 else 0) = ((∑ i ∈ s, ‖a i‖ ^ 2 : ℝ) : ℂ) := by
    push_cast
    refine Finset.sum_congr rfl fun i hi => ?_
    rw [Finset.sum_eq_single i (fun k _ hk => by rw [if_neg hk, mul_zero]) (fun h => absurd hi h), if_pos rfl, mul_one,
      Complex.mul_conj, Complex.normSq_eq_norm_sq]
    push_cast
    rfl
  rw [hlim] at key
  have hre := (Complex.continuous_re.tendsto _).comp key
  rw [Complex.ofReal_re] at hre
  refine hre.congr fun m => ?_
  have e : ∑ i ∈ s, ∑ k ∈ s, a i * conj (a k) * ((∑ j ∈ Finset.range m, (z i * conj (z k)) ^ j) / (m : ℂ)) =
      (((∑ j ∈ Finset.range m, ‖∑ i ∈ s, a i * z i ^ j‖ ^ 2) / (m : ℝ) : ℝ) : ℂ) := by
    push_cast
    have : ∀ j, ((‖∑ i ∈ s, a i * z i ^ j‖ : ℂ)) ^ 2 = ∑ i ∈ s, ∑ k ∈ s, a i * conj (a k) * (z i * conj (z k)) ^ j := by
      intro j
      have h1 : ((‖∑ i ∈ s, a i * z i ^ j‖ : ℂ)) ^ 2 = (∑ i ∈ s, a i * z i ^ j) * conj (∑ i ∈ s, a i * z i ^ j) := by
        rw [Complex.mul_conj, Complex.normSq_eq_norm_sq]
        push_cast
        rfl
      rw [h1, map_sum, Finset.sum_mul_sum]
      refine Finset.sum_congr rfl fun i _ => Finset.sum_congr rfl fun k _ => ?_
      rw [map_mul, map_pow, mul_pow]
      ring
    simp only [this, div_eq_mul_inv, Finset.sum_mul, Finset.mul_sum]
    refine (Finset.sum_congr rfl fun i _ => ?_).trans (Finset.sum_comm)
    rw [Finset.sum_comm]
    exact Finset.sum_congr rfl fun _ _ => Finset.sum_congr rfl fun _ _ => by ring
  show (∑ i ∈ s, ∑ k ∈ s, _ : ℂ).re = _
  rw [e, Complex.ofReal_re]

end

end UTide
