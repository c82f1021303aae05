import Mathlib.Algebra.Polynomial.Eval.Degree
import Mathlib.Algebra.Polynomial.Derivative
import Mathlib.Algebra.Polynomial.BigOperators
import Mathlib.Analysis.SpecialFunctions.Complex.Log
import Mathlib.Data.Complex.Basic

/-!
# Sums of powers that vanish at consecutive exponents
-/

namespace UTide

open Polynomial

/-- A combination of values of powers, and of the derivative at 1, extends to polynomials. -/
theorem pencil_poly {ι : Type} [Fintype ι] (z a : ι → ℂ) (b d : ℂ) (N : ℕ)
    (h : ∀ j : ℕ, j < N → ∑ i, a i * z i ^ j + b + d * j = 0) (p : ℂ[X]) (hp : p.natDegree < N) :
    ∑ i, a i * p.eval (z i) + b * p.eval 1 + d * (derivative p).eval 1 = 0 := by
  have he : ∀ x, p.eval x = ∑ j ∈ Finset.range N, p.coeff j * x ^ j := fun x => eval_eq_sum_range' hp x
  have hd : (derivative p).eval 1 = ∑ j ∈ Finset.range N, p.coeff j * j := by
    conv_lhs => rw [p.as_sum_range_C_mul_X_pow' hp]
    simp [eval_finset_sum, derivative_X_pow]
  rw [hd]
  simp only [he, one_pow, mul_one, Finset.mul_sum]
  rw [Finset.sum_comm, ← Finset.sum_add_distrib, ← Finset.sum_add_distrib]
  refine Finset.sum_eq_zero fun j hj => ?_
  have := h j (Finset.mem_range.1 hj)
  have e : ∑ i, a i * (p.coeff j * z i ^ j) = p.coeff j * ∑ i, a i * z i ^ j := by
    rw [Finset.mul_sum]; exact Finset.sum_congr rfl fun i _ => by ring
  rw [e]
  linear_combination p.coeff j * this

/-- Distinct powers, a constant and a linear term are independent on consecutive exponents, as many as there are
unknowns. -/
theorem pencil {ι : Type} [Fintype ι] [DecidableEq ι] (z a : ι → ℂ) (b d : ℂ) (N : ℕ) (hz : Function.Injective z)
    (h1 : ∀ i, z i ≠ 1) (hN : Fintype.card ι + 2 ≤ N ∨ (d = 0 ∧ Fintype.card ι + 1 ≤ N))
    (h : ∀ j : ℕ, j < N → ∑ i, a i * z i ^ j + b + d * j = 0) : (∀ i, a i = 0) ∧ b = 0 ∧ d = 0 := by
  have key := pencil_poly z a b d N h
  have hdeg : ∀ s : Finset ι, (∏ i ∈ s, (X - C (z i))).natDegree = s.card := fun s => by
    rw [natDegree_prod_of_monic _ _ fun i _ => monic_X_sub_C _]; simp
  have hmon : ∀ s : Finset ι, (∏ i ∈ s, (X - C (z i))).Monic := fun s => monic_prod_of_monic _ _ fun i _ => monic_X_sub_C _
  have hq : ∀ s : Finset ι, ∀ x, (∏ i ∈ s, (X - C (z i))).eval x = ∏ i ∈ s, (x - z i) := fun s x => by
    rw [eval_prod]; simp
  have hd : d = 0 := by
    rcases hN with hN | ⟨h0, -⟩
    · have := key ((X - 1) * ∏ i, (X - C (z i))) (by
        rw [← C_1, (monic_X_sub_C 1).natDegree_mul (hmon _), hdeg, natDegree_X_sub_C, Finset.card_univ]; omega)
      rw [derivative_mul] at this
      simp only [eval_mul, eval_add, hq, eval_sub, eval_X, eval_one, sub_self, zero_mul, mul_zero, add_zero,
        derivative_sub, derivative_X, derivative_one, sub_zero, one_mul] at this
      have hs : ∑ i, a i * ((z i - 1) * ∏ k, (z i - z k)) = 0 := Finset.sum_eq_zero fun i _ => by
        rw [Finset.prod_eq_zero (Finset.mem_univ i) (sub_self _)]; ring
      rw [hs, zero_add] at this
      exact (mul_eq_zero.1 this).resolve_right (Finset.prod_ne_zero_iff.2 fun i _ => sub_ne_zero.2 (h1 i).symm)
    · exact h0
  subst hd
  have hN' : Fintype.card ι + 1 ≤ N := by omega
  have ha : ∀ i, a i = 0 := by
    intro i
    have := key ((X - 1) * ∏ k ∈ Finset.univ.erase i, (X - C (z k))) (by
      rw [← C_1, (monic_X_sub_C 1).natDegree_mul (hmon _), hdeg, natDegree_X_sub_C,
        Finset.card_erase_of_mem (Finset.mem_univ i), Finset.card_univ]
      have := Fintype.card_pos_iff.2 ⟨i⟩
      omega)
    simp only [eval_mul, hq, eval_sub, eval_X, eval_one, sub_self, zero_mul, mul_zero, add_zero] at this
    rw [Finset.sum_eq_single i] at this
    · refine (mul_eq_zero.1 this).resolve_right (mul_ne_zero (sub_ne_zero.2 (h1 i)) (Finset.prod_ne_zero_iff.2 ?_))
      intro k hk
      exact sub_ne_zero.2 fun he => (Finset.mem_erase.1 hk).1 (hz he).symm
    · intro k _ hk
      rw [Finset.prod_eq_zero (Finset.mem_erase.2 ⟨hk, Finset.mem_univ k⟩) (sub_self _)]; ring
    · exact fun h => absurd (Finset.mem_univ i) h
  refine ⟨ha, ?_, rfl⟩
  have := h 0 (by omega)
  simpa [ha] using this

end UTide
