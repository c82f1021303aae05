import Verif.Model.Periodogram
import Mathlib.RingTheory.RootsOfUnity.Complex
import Mathlib.Algebra.Ring.GeomSum
import Mathlib.Data.List.GetD
import Mathlib.Tactic.Ring
import Mathlib.Tactic.Linarith
import Mathlib.Tactic.FieldSimp

/-!
# Discrete Fourier transform: Parseval's identity
-/

namespace UTide

noncomputable section

open Complex (I)

local notation "conj" => starRingEnd ℂ

/-- The `n`-th root of unity of the transform. -/
def unitRoot (n : ℕ) : ℂ := Complex.exp (2 * Real.pi * I / n)

theorem unitRoot_prim (n : ℕ) (hn : n ≠ 0) : IsPrimitiveRoot (unitRoot n) n := Complex.isPrimitiveRoot_exp n hn

theorem unitRoot_conj (n : ℕ) : conj (unitRoot n) = (unitRoot n)⁻¹ := by
  unfold unitRoot
  rw [← Complex.exp_conj, ← Complex.exp_neg]
  congr 1
  rw [map_div₀, map_mul, map_mul, Complex.conj_I, Complex.conj_ofReal, map_natCast, map_ofNat]
  ring

/-- The transform with positive exponent of a real sequence. -/
def ft (n : ℕ) (x : ℕ → ℝ) (k : ℕ) : ℂ := ∑ j ∈ Finset.range n, (x j : ℂ) * unitRoot n ^ (j * k)

theorem ft_parseval (n : ℕ) (hn : n ≠ 0) (x : ℕ → ℝ) :
    ∑ k ∈ Finset.range n, ‖ft n x k‖ ^ 2 = n * ∑ j ∈ Finset.range n, x j ^ 2 := by
  have hz : unitRoot n ≠ 0 := (unitRoot_prim n hn).ne_zero hn
  have hC : ((∑ k ∈ Finset.range n, ‖ft n x k‖ ^ 2 : ℝ) : ℂ) =
      ((n * ∑ j ∈ Finset.range n, x j ^ 2 : ℝ) : ℂ) := by
    push_cast
    have h1 : ∀ k, (‖ft n x k‖ : ℂ) ^ 2 = ∑ j ∈ Finset.range n, ∑ l ∈ Finset.range n,
        ((x j : ℂ) * x l) * (unitRoot n ^ j * (unitRoot n ^ l)⁻¹) ^ k := by
      intro k
      rw [← Complex.mul_conj', ft, map_sum, Finset.sum_mul_sum]
      refine Finset.sum_congr rfl fun j _ => Finset.sum_congr rfl fun l _ => ?_
      rw [map_mul, map_pow, unitRoot_conj, Complex.conj_ofReal, mul_pow, inv_pow, inv_pow, ← pow_mul,
        ← pow_mul]
      ring
    simp only [h1]
    rw [Finset.sum_comm]
    have h2 : ∀ j ∈ Finset.range n, ∑ k ∈ Finset.range n, ∑ l ∈ Finset.range n,
        ((x j : ℂ) * x l) * (unitRoot n ^ j * (unitRoot n ^ l)⁻¹) ^ k = n * (x j : ℂ) ^ 2 := by
      intro j hj
      rw [Finset.sum_comm, Finset.sum_eq_single j]
      · rw [mul_inv_cancel₀ (pow_ne_zero _ hz)]
        simp only [one_pow, mul_one, Finset.sum_const, Finset.card_range, nsmul_eq_mul]
        ring
      · intro l hl hlj
        rw [← Finset.mul_sum]
        have hne : unitRoot n ^ j * (unitRoot n ^ l)⁻¹ ≠ 1 := by
          intro h
          rw [mul_inv_eq_one₀ (pow_ne_zero _ hz)] at h
          exact hlj ((unitRoot_prim n hn).pow_inj (Finset.mem_range.1 hl) (Finset.mem_range.1 hj) h.symm)
        have hpow : (unitRoot n ^ j * (unitRoot n ^ l)⁻¹) ^ n = 1 := by
          rw [mul_pow, inv_pow, ← pow_mul, ← pow_mul, mul_comm j n, mul_comm l n, pow_mul, pow_mul,
            (unitRoot_prim n hn).pow_eq_one]
          simp
        have hg := geom_sum_mul (unitRoot n ^ j * (unitRoot n ^ l)⁻¹) n
        rw [hpow, sub_self, mul_eq_zero] at hg
        rcases hg with hg | hg
        · rw [hg, mul_zero]
        · exact absurd (sub_eq_zero.1 hg) hne
      · intro h; exact absurd hj h
    rw [Finset.sum_congr rfl h2, Finset.mul_sum]
  exact_mod_cast hC

/-- Symmetry of the spectrum of a real series. -/
theorem ft_reflect (n : ℕ) (hn : n ≠ 0) (x : ℕ → ℝ) (k : ℕ) (hk : k ≤ n) : ‖ft n x (n - k)‖ = ‖ft n x k‖ := by
  have hz : unitRoot n ≠ 0 := (unitRoot_prim n hn).ne_zero hn
  have : ft n x (n - k) = conj (ft n x k) := by
    unfold ft
    rw [map_sum]
    refine Finset.sum_congr rfl fun j _ => ?_
    rw [map_mul, map_pow, unitRoot_conj, Complex.conj_ofReal]
    congr 1
    rw [inv_pow]
    refine eq_inv_of_mul_eq_one_left ?_
    rw [← pow_add, ← Nat.mul_add, Nat.sub_add_cancel hk,
      mul_comm, pow_mul, (unitRoot_prim n hn).pow_eq_one, one_pow]
  rw [this, Complex.norm_conj]

/-- The one-sided sum: inner frequencies counted twice. -/
theorem ft_onesided (m : ℕ) (hm : m ≠ 0) (x : ℕ → ℝ) :
    ∑ k ∈ Finset.range (m + 1), (if 1 ≤ k ∧ k < m then 2 else 1) * ‖ft (2 * m) x k‖ ^ 2 =
      (2 * m : ℕ) * ∑ j ∈ Finset.range (2 * m), x j ^ 2 := by
  rw [← ft_parseval (2 * m) (by omega) x]
  obtain ⟨q, rfl⟩ : ∃ q, m = q + 1 := ⟨m - 1, by omega⟩
  have e1 : 2 * (q + 1) = (q + 1 + 1) + q := by ring
  have hL : ∑ k ∈ Finset.range (q + 1 + 1), (if 1 ≤ k ∧ k < q + 1 then (2 : ℝ) else 1) * ‖ft (2 * (q + 1)) x k‖ ^ 2 =
      ∑ k ∈ Finset.range (q + 1 + 1), ‖ft (2 * (q + 1)) x k‖ ^ 2 +
      ∑ k ∈ Finset.range q, ‖ft (2 * (q + 1)) x (k + 1)‖ ^ 2 := by
    rw [Finset.sum_range_succ, Finset.sum_range_succ', Finset.sum_range_succ (n := q + 1),
      Finset.sum_range_succ' (n := q)]
    have : ∀ k ∈ Finset.range q, (if 1 ≤ k + 1 ∧ k + 1 < q + 1 then (2 : ℝ) else 1) *
        ‖ft (2 * (q + 1)) x (k + 1)‖ ^ 2 =
        ‖ft (2 * (q + 1)) x (k + 1)‖ ^ 2 + ‖ft (2 * (q + 1)) x (k + 1)‖ ^ 2 := by
      intro k hk
      have := Finset.mem_range.1 hk
      rw [if_pos ⟨by omega, by omega⟩]
      ring
    rw [Finset.sum_congr rfl this, Finset.sum_add_distrib]
    simp
    ring
  rw [hL]
  conv_rhs => rw [e1, Finset.sum_range_add]
  rw [e1] at *
  congr 1
  rw [← Finset.sum_range_reflect]
  refine Finset.sum_congr rfl fun k hk => ?_
  have hk := Finset.mem_range.1 hk
  rw [← ft_reflect (q + 1 + 1 + q) (by omega) x (q - 1 - k + 1) (by omega)]
  congr 3
  omega

/-- A sum over a list with positions. -/
theorem zipIdx_sum {α : Type} (l : List α) (d : α) (f : α → ℕ → ℂ) :
    (l.zipIdx.map fun p => f p.1 p.2).sum = ∑ j ∈ Finset.range l.length, f (l.getD j d) j := by
  induction l using List.reverseRecOn with
  | nil => simp
  | append_singleton l a ih =>
    rw [List.zipIdx_append, List.map_append, List.sum_append, ih, List.length_append, List.length_singleton,
      Finset.sum_range_succ]
    congr 1
    · refine Finset.sum_congr rfl fun j hj => ?_
      have := Finset.mem_range.1 hj
      rw [List.getD_append _ _ _ _ this]
    · simp

theorem dft_norm (x : List ℝ) (k : ℕ) : ‖dft x k‖ = ‖ft x.length (fun j => x.getD j 0) k‖ := by
  have : dft x k = conj (ft x.length (fun j => x.getD j 0) k) := by
    unfold dft ft
    rw [zipIdx_sum x 0 (fun a j => (a : ℂ) * Complex.exp (-2 * Real.pi * I * j * k / x.length)), map_sum]
    refine Finset.sum_congr rfl fun j _ => ?_
    rw [map_mul, Complex.conj_ofReal, map_pow, unitRoot_conj]
    congr 1
    unfold unitRoot
    rw [← Complex.exp_neg, ← Complex.exp_nat_mul]
    congr 1
    push_cast
    ring
  rw [this, Complex.norm_conj]

/-- **Parseval for `rfft`**: the inner values counted twice. -/
theorem dft_onesided (x : List ℝ) (m : ℕ) (hx : x.length = 2 * m) (hm : m ≠ 0) :
    ∑ k ∈ Finset.range (m + 1), (if 1 ≤ k ∧ k < m then 2 else 1) * ‖dft x k‖ ^ 2 =
      (x.length : ℝ) * (x.map fun a => a ^ 2).sum := by
  simp only [dft_norm, hx]
  rw [ft_onesided m hm]
  congr 1
  have h := zipIdx_sum x 0 (fun a _ => ((a ^ 2 : ℝ) : ℂ))
  rw [hx] at h
  have e : (x.zipIdx.map fun p => ((p.1 ^ 2 : ℝ) : ℂ)) = (x.map fun a => ((a ^ 2 : ℝ) : ℂ)) := by
    have := congrArg (List.map fun a : ℝ => ((a ^ 2 : ℝ) : ℂ)) (List.zipIdx_map_fst 0 x)
    rwa [List.map_map] at this
  rw [e] at h
  have h2 : (((x.map fun a => a ^ 2).sum : ℝ) : ℂ) = (x.map fun a => ((a ^ 2 : ℝ) : ℂ)).sum := by
    have := map_list_sum Complex.ofRealHom (x.map fun a => a ^ 2)
    rw [List.map_map] at this
    exact this
  have h3 : (((x.map fun a => a ^ 2).sum : ℝ) : ℂ) = ((∑ j ∈ Finset.range (2 * m), x.getD j 0 ^ 2 : ℝ) : ℂ) := by
    rw [h2, h]
    push_cast
    rfl
  exact (Complex.ofReal_injective h3).symm

end

end UTide
