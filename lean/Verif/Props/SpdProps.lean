import Verif.Lemmas.Ideal
import Verif.Model.Confidence
import Mathlib.Analysis.Matrix.PosDef
import Mathlib.Algebra.Order.BigOperators.Ring.Finset
import Mathlib.Algebra.Order.Star.Real

/-!
# C57: `nearestSPD`
-/

namespace UTide

namespace Props

noncomputable section

open Classical Matrix

/-- Specification: squared Frobenius norm. -/
def frob {n : ℕ} (M : Matrix (Fin n) (Fin n) ℝ) : ℝ := ∑ i, ∑ j, M i j ^ 2

/-- The inner product of the Frobenius norm. -/
def frobIn {n : ℕ} (M K : Matrix (Fin n) (Fin n) ℝ) : ℝ := ∑ i, ∑ j, M i j * K i j

theorem frob_add {n : ℕ} (M K : Matrix (Fin n) (Fin n) ℝ) :
    frob (M + K) = frob M + 2 * frobIn M K + frob K := by
  unfold frob frobIn
  rw [Finset.mul_sum, ← Finset.sum_add_distrib, ← Finset.sum_add_distrib]
  refine Finset.sum_congr rfl fun i _ => ?_
  rw [Finset.mul_sum, ← Finset.sum_add_distrib, ← Finset.sum_add_distrib]
  refine Finset.sum_congr rfl fun j _ => ?_
  rw [Matrix.add_apply]
  ring

theorem frob_nonneg {n : ℕ} (M : Matrix (Fin n) (Fin n) ℝ) : 0 ≤ frob M :=
  Finset.sum_nonneg fun _ _ => Finset.sum_nonneg fun _ _ => sq_nonneg _

theorem frob_eq_zero {n : ℕ} (M : Matrix (Fin n) (Fin n) ℝ) (h : frob M = 0) : M = 0 := by
  unfold frob at h
  ext i j
  have hi := (Finset.sum_eq_zero_iff_of_nonneg
    (fun i _ => Finset.sum_nonneg fun j _ => sq_nonneg (M i j))).1 h i (Finset.mem_univ i)
  have hj := (Finset.sum_eq_zero_iff_of_nonneg (fun j _ => sq_nonneg (M i j))).1 hi j (Finset.mem_univ j)
  exact pow_eq_zero_iff (two_ne_zero) |>.1 hj

theorem frobIn_trace {n : ℕ} (M K : Matrix (Fin n) (Fin n) ℝ) (hK : K.IsSymm) : frobIn M K = (M * K).trace := by
  unfold frobIn Matrix.trace
  refine Finset.sum_congr rfl fun i _ => ?_
  rw [Matrix.diag_apply, Matrix.mul_apply]
  refine Finset.sum_congr rfl fun j _ => ?_
  rw [hK.apply]

theorem frobIn_sub {n : ℕ} (M K L : Matrix (Fin n) (Fin n) ℝ) : frobIn (M - K) L = frobIn M L - frobIn K L := by
  unfold frobIn
  rw [← Finset.sum_sub_distrib]
  refine Finset.sum_congr rfl fun i _ => ?_
  rw [← Finset.sum_sub_distrib]
  refine Finset.sum_congr rfl fun j _ => ?_
  rw [Matrix.sub_apply]
  ring

/-- A symmetric and a skew matrix are orthogonal. -/
theorem frobIn_skew {n : ℕ} (M K : Matrix (Fin n) (Fin n) ℝ) (hM : M.IsSymm) (hK : K.transpose = -K) :
    frobIn M K = 0 := by
  have h : frobIn M K = -frobIn M K := by
    conv_lhs => unfold frobIn
    rw [Finset.sum_comm]
    unfold frobIn
    rw [← Finset.sum_neg_distrib]
    refine Finset.sum_congr rfl fun i _ => ?_
    rw [← Finset.sum_neg_distrib]
    refine Finset.sum_congr rfl fun j _ => ?_
    have h1 : K j i = -K i j := by
      have := congrFun (congrFun hK i) j
      simpa using this
    rw [hM.apply j i, h1]
    ring
  linarith

theorem isHermitian_of_symm {n : ℕ} {M : Matrix (Fin n) (Fin n) ℝ} (h : M.IsSymm) : M.IsHermitian := by
  rw [Matrix.IsHermitian, Matrix.conjTranspose_eq_transpose_of_trivial]; exact h

theorem symm_of_isHermitian {n : ℕ} {M : Matrix (Fin n) (Fin n) ℝ} (h : M.IsHermitian) : M.IsSymm := by
  rw [Matrix.IsHermitian, Matrix.conjTranspose_eq_transpose_of_trivial] at h; exact h

/-- The trace of a product of positive semidefinite matrices. -/
theorem trace_mul_nonneg {n : ℕ} (X Q : Matrix (Fin n) (Fin n) ℝ) (hX : X.PosSemidef) (hQ : Q.PosSemidef) :
    0 ≤ (X * Q).trace := by
  have hh := hX.isHermitian
  set U : Matrix (Fin n) (Fin n) ℝ := (hh.eigenvectorUnitary : Matrix (Fin n) (Fin n) ℝ) with hU
  have hs : X = U * Matrix.diagonal hh.eigenvalues * Uᴴ := by
    have := hh.spectral_theorem
    rw [Unitary.conjStarAlgAut_apply] at this
    exact this
  have e : (X * Q).trace = (Matrix.diagonal hh.eigenvalues * (Uᴴ * Q * U)).trace := by
    conv_lhs => rw [hs]
    rw [Matrix.mul_assoc (U * _), Matrix.mul_assoc U, Matrix.trace_mul_comm, Matrix.mul_assoc, Matrix.mul_assoc]
  rw [e]
  refine Finset.sum_nonneg fun i _ => ?_
  rw [Matrix.diag_apply, Matrix.diagonal_mul]
  exact mul_nonneg (hX.eigenvalues_nonneg i) (hQ.conjTranspose_mul_mul_same U).diag_nonneg

/-- An orthogonal matrix does not lengthen. -/
theorem orth_quad {n : ℕ} (W : Matrix (Fin n) (Fin n) ℝ) (hW : Wᵀ * W = 1) (y : Fin n → ℝ) :
    |y ⬝ᵥ (W *ᵥ y)| ≤ y ⬝ᵥ y := by
  have h1 : (W *ᵥ y) ⬝ᵥ (W *ᵥ y) = y ⬝ᵥ y := by
    rw [Matrix.dotProduct_mulVec, Matrix.vecMul_mulVec, ← Matrix.dotProduct_mulVec, hW, Matrix.one_mulVec]
  have h2 : (y ⬝ᵥ (W *ᵥ y)) ^ 2 ≤ (y ⬝ᵥ y) ^ 2 := by
    calc (y ⬝ᵥ (W *ᵥ y)) ^ 2 ≤ (∑ i, y i ^ 2) * ∑ i, (W *ᵥ y) i ^ 2 :=
          Finset.sum_mul_sq_le_sq_mul_sq Finset.univ y (W *ᵥ y)
      _ = (y ⬝ᵥ y) * ((W *ᵥ y) ⬝ᵥ (W *ᵥ y)) := by
          unfold dotProduct; simp only [pow_two]
      _ = (y ⬝ᵥ y) ^ 2 := by rw [h1]; ring
  have h0 : 0 ≤ y ⬝ᵥ y := by
    unfold dotProduct; exact Finset.sum_nonneg fun i _ => mul_self_nonneg _
  exact abs_le_of_sq_le_sq h2 h0

/-- The symmetric polar factor of a symmetric matrix, from a singular value decomposition. -/
structure Polar {n : ℕ} (B H : Matrix (Fin n) (Fin n) ℝ) : Prop where
  symm : H.IsSymm
  sq : H * H = B * B
  comm : H * B = B * H
  bound : ∀ x : Fin n → ℝ, |x ⬝ᵥ (B *ᵥ x)| ≤ x ⬝ᵥ (H *ᵥ x)

theorem polar_of_svd {n : ℕ} (B U V : Matrix (Fin n) (Fin n) ℝ) (s : Fin n → ℝ) (hB : B.IsSymm)
    (hs : B = U * diagonal s * V) (hU : Uᵀ * U = 1) (hV : V * Vᵀ = 1) (h0 : ∀ i, 0 ≤ s i) :
    Polar B (Vᵀ * diagonal s * V) := by
  have hV' : Vᵀ * V = 1 := mul_eq_one_comm.1 hV
  have hU' : U * Uᵀ = 1 := mul_eq_one_comm.1 hU
  obtain ⟨S, hS⟩ : ∃ S, S = diagonal s := ⟨_, rfl⟩
  have hSt : Sᵀ = S := by rw [hS]; exact Matrix.diagonal_transpose s
  obtain ⟨W, hW⟩ : ∃ W, W = V * U := ⟨_, rfl⟩
  have hWW : Wᵀ * W = 1 := by
    rw [hW, Matrix.transpose_mul, Matrix.mul_assoc, ← Matrix.mul_assoc Vᵀ, hV', Matrix.one_mul, hU]
  rw [← hS] at hs ⊢
  -- symmetry of `B` says `W S = S Wᵀ`
  have hsym : W * S = S * Wᵀ := by
    have h1 : V * B * Vᵀ = W * S := by
      rw [hs, hW]
      calc V * (U * S * V) * Vᵀ = V * U * S * (V * Vᵀ) := by simp only [Matrix.mul_assoc]
        _ = _ := by rw [hV, Matrix.mul_one]
    have h2 : (V * B * Vᵀ)ᵀ = V * B * Vᵀ := by
      rw [Matrix.transpose_mul, Matrix.transpose_mul, Matrix.transpose_transpose, hB.eq, Matrix.mul_assoc]
    rw [h1, Matrix.transpose_mul, hSt] at h2
    exact h2.symm
  have hsym2 : S * W = Wᵀ * S := by
    calc S * W = Wᵀ * W * S * W := by rw [hWW, Matrix.one_mul]
      _ = Wᵀ * (W * S) * W := by simp only [Matrix.mul_assoc]
      _ = Wᵀ * S * (Wᵀ * W) := by rw [hsym]; simp only [Matrix.mul_assoc]
      _ = _ := by rw [hWW, Matrix.mul_one]
  have hsq : W * (S * S) = S * S * W := by
    rw [← Matrix.mul_assoc, hsym, Matrix.mul_assoc, ← hsym2, Matrix.mul_assoc]
  -- hence `W` commutes with every function of `S`
  have hcomm : ∀ g : ℝ → ℝ, W * diagonal (fun i => g (s i)) = diagonal (fun i => g (s i)) * W := by
    intro g
    ext i j
    rw [Matrix.mul_diagonal, Matrix.diagonal_mul]
    have h1 := congrFun (congrFun hsq i) j
    rw [hS, Matrix.diagonal_mul_diagonal, Matrix.mul_diagonal, Matrix.diagonal_mul] at h1
    by_cases hw : W i j = 0
    · rw [hw]; ring
    · have h2 : s j * s j = s i * s i := by
        have : W i j * (s j * s j) = W i j * (s i * s i) := by rw [h1]; ring
        exact mul_left_cancel₀ hw this
      have h3 : s j = s i := by
        have := mul_self_eq_mul_self_iff.1 h2
        rcases this with h | h
        · exact h
        · have a := h0 i; have b := h0 j; linarith
      rw [h3]; ring
  have hSW : W * S = S * W := by rw [hS]; exact hcomm id
  obtain ⟨R, hR⟩ : ∃ R, R = diagonal (fun i => Real.sqrt (s i)) := ⟨_, rfl⟩
  have hRt : Rᵀ = R := by rw [hR]; exact Matrix.diagonal_transpose _
  have hRW : W * R = R * W := by rw [hR]; exact hcomm Real.sqrt
  have hRR : R * R = S := by
    rw [hR, hS, Matrix.diagonal_mul_diagonal]
    congr 1
    funext i
    exact Real.mul_self_sqrt (h0 i)
  have hBW : B = Vᵀ * (W * S) * V := by
    rw [hs, hW]
    calc U * S * V = (Vᵀ * V) * U * S * V := by rw [hV', Matrix.one_mul]
      _ = _ := by simp only [Matrix.mul_assoc]
  have hcollapse : ∀ X Y : Matrix (Fin n) (Fin n) ℝ, Vᵀ * X * V * (Vᵀ * Y * V) = Vᵀ * (X * Y) * V := by
    intro X Y
    calc Vᵀ * X * V * (Vᵀ * Y * V) = Vᵀ * X * (V * Vᵀ) * Y * V := by simp only [Matrix.mul_assoc]
      _ = _ := by rw [hV, Matrix.mul_one]; simp only [Matrix.mul_assoc]
  refine ⟨?_, ?_, ?_, ?_⟩
  · show (Vᵀ * S * V)ᵀ = Vᵀ * S * V
    rw [Matrix.transpose_mul, Matrix.transpose_mul, Matrix.transpose_transpose, hSt, Matrix.mul_assoc]
  · rw [hBW, hcollapse, hcollapse]
    congr 2
    calc S * S = S * (Wᵀ * W) * S := by rw [hWW, Matrix.mul_one]
      _ = (S * Wᵀ) * (W * S) := by simp only [Matrix.mul_assoc]
      _ = _ := by rw [← hsym]
  · rw [hBW, hcollapse, hcollapse]
    congr 2
    rw [hSW, Matrix.mul_assoc, hSW]
  · intro x
    have e1 : x ⬝ᵥ (B *ᵥ x) = (R *ᵥ (V *ᵥ x)) ⬝ᵥ (W *ᵥ (R *ᵥ (V *ᵥ x))) := by
      rw [hBW, ← hRR, ← Matrix.mul_assoc W, hRW]
      simp only [← Matrix.mulVec_mulVec]
      rw [Matrix.dotProduct_mulVec, Matrix.vecMul_transpose, Matrix.dotProduct_mulVec (V *ᵥ x), ← Matrix.mulVec_transpose,
        hRt]
    have e2 : x ⬝ᵥ ((Vᵀ * S * V) *ᵥ x) = (R *ᵥ (V *ᵥ x)) ⬝ᵥ (R *ᵥ (V *ᵥ x)) := by
      rw [← hRR]
      simp only [← Matrix.mulVec_mulVec]
      rw [Matrix.dotProduct_mulVec, Matrix.vecMul_transpose, Matrix.dotProduct_mulVec (V *ᵥ x), ← Matrix.mulVec_transpose,
        hRt]
    rw [e1, e2]
    exact orth_quad W hWW _

/-- The positive and negative parts. -/
theorem polar_nearest {n : ℕ} (A H : Matrix (Fin n) (Fin n) ℝ) (h : Polar ((1 / 2 : ℝ) • (A + Aᵀ)) H) :
    let P := (1 / 2 : ℝ) • ((1 / 2 : ℝ) • (A + Aᵀ) + H)
    P.IsSymm ∧ P.PosSemidef ∧ ∀ X : Matrix (Fin n) (Fin n) ℝ, X.PosSemidef →
      frob (A - P) + frob (P - X) ≤ frob (A - X) := by
  intro P
  obtain ⟨B, hB⟩ : ∃ B, B = (1 / 2 : ℝ) • (A + Aᵀ) := ⟨_, rfl⟩
  have hBs : B.IsSymm := by
    show Bᵀ = B
    rw [hB, Matrix.transpose_smul, Matrix.transpose_add, Matrix.transpose_transpose, add_comm]
  rw [← hB] at h
  have hP : P = (1 / 2 : ℝ) • (B + H) := by show (1 / 2 : ℝ) • (_ + H) = _; rw [hB]
  obtain ⟨Q, hQ⟩ : ∃ Q, Q = (1 / 2 : ℝ) • (H - B) := ⟨_, rfl⟩
  have hPs : P.IsSymm := by
    show Pᵀ = P
    rw [hP, Matrix.transpose_smul, Matrix.transpose_add, hBs.eq, h.symm.eq]
  have hQs : Q.IsSymm := by
    show Qᵀ = Q
    rw [hQ, Matrix.transpose_smul, Matrix.transpose_sub, hBs.eq, h.symm.eq]
  have hPp : P.PosSemidef := by
    refine Matrix.PosSemidef.of_dotProduct_mulVec_nonneg (isHermitian_of_symm hPs) fun x => ?_
    rw [star_trivial, hP, Matrix.smul_mulVec, dotProduct_smul, Matrix.add_mulVec, dotProduct_add, smul_eq_mul]
    have := abs_le.1 (h.bound x)
    linarith
  have hQp : Q.PosSemidef := by
    refine Matrix.PosSemidef.of_dotProduct_mulVec_nonneg (isHermitian_of_symm hQs) fun x => ?_
    rw [star_trivial, hQ, Matrix.smul_mulVec, dotProduct_smul, Matrix.sub_mulVec, dotProduct_sub, smul_eq_mul]
    have := abs_le.1 (h.bound x)
    linarith
  have hPQ : P * Q = 0 := by
    rw [hP, hQ, Matrix.smul_mul, Matrix.mul_smul, Matrix.add_mul, Matrix.mul_sub, Matrix.mul_sub, h.sq, h.comm]
    simp
  have hBPQ : B = P - Q := by
    rw [hP, hQ]
    ext i j
    simp
    ring
  refine ⟨hPs, hPp, fun X hX => ?_⟩
  have hXs := symm_of_isHermitian hX.isHermitian
  obtain ⟨K, hK⟩ : ∃ K, K = A - B := ⟨_, rfl⟩
  have hKt : Kᵀ = -K := by
    rw [hK, Matrix.transpose_sub, hBs.eq]
    ext i j
    rw [hB]
    simp
    ring
  have e1 : A - P = -Q + K := by rw [hK, hBPQ]; abel
  have e2 : A - X = (P - X + -Q) + K := by rw [hK, hBPQ]; abel
  have hsQ : (-Q).IsSymm := by
    show (-Q)ᵀ = -Q
    rw [Matrix.transpose_neg, hQs.eq]
  have hsX : (P - X + -Q).IsSymm := by
    show (P - X + -Q)ᵀ = _
    rw [Matrix.transpose_add, Matrix.transpose_sub, hPs.eq, hXs.eq, hsQ.eq]
  rw [e1, e2, frob_add, frob_add (P - X + -Q), frob_add (P - X), frobIn_skew _ K hsQ hKt, frobIn_skew _ K hsX hKt,
    frobIn_sub, frobIn_trace P _ hsQ, frobIn_trace X _ hsQ, Matrix.mul_neg, Matrix.mul_neg, hPQ, Matrix.trace_neg,
    Matrix.trace_neg]
  have := trace_mul_nonneg X Q hX hQp
  simp only [Matrix.trace_zero]
  linarith

theorem spdStart_eq (N : Num) {n : ℕ} (A : Matrix (Fin n) (Fin n) ℝ) :
    ∃ M, spdStart N A = (1 / 2 : ℝ) • (M + Mᵀ) ∧ M = (1 / 2 : ℝ) • ((1 / 2 : ℝ) • (A + Aᵀ) +
      (N.svd n ((1 / 2 : ℝ) • (A + Aᵀ))).2.2ᵀ * diagonal (N.svd n ((1 / 2 : ℝ) • (A + Aᵀ))).2.1 *
        (N.svd n ((1 / 2 : ℝ) • (A + Aᵀ))).2.2) := by
  refine ⟨_, rfl, ?_⟩
  congr 3
  ext i j
  rw [Matrix.mul_diagonal]
  rfl

/-- **C57, closest matrix.** Before adjustment the matrix is symmetric, positive semidefinite, and closer to the
argument in the Frobenius norm than every other positive semidefinite matrix. -/
theorem C57_nearest (N : Num) (hN : SvdOk N.svd) {n : ℕ} (A : Matrix (Fin n) (Fin n) ℝ) :
    (spdStart N A).PosSemidef ∧
    ∀ X : Matrix (Fin n) (Fin n) ℝ, X.PosSemidef → X ≠ spdStart N A → frob (A - spdStart N A) < frob (A - X) := by
  obtain ⟨M, h1, h2⟩ := spdStart_eq N A
  have hBs : ((1 / 2 : ℝ) • (A + Aᵀ)).IsSymm := by
    show ((1 / 2 : ℝ) • (A + Aᵀ))ᵀ = _
    rw [Matrix.transpose_smul, Matrix.transpose_add, Matrix.transpose_transpose, add_comm]
  obtain ⟨s1, s2, s3, s4⟩ := hN n _ hBs
  have hpol := polar_of_svd _ _ _ _ hBs s1 s2 s3 s4
  obtain ⟨p1, p2, p3⟩ := polar_nearest A _ hpol
  rw [← h2] at p1 p2 p3
  have e : spdStart N A = M := by
    rw [h1, p1.eq]
    ext i j
    simp
    ring
  rw [e]
  refine ⟨p2, fun X hX hne => ?_⟩
  have := p3 X hX
  have hpos : 0 < frob (M - X) := by
    rcases (frob_nonneg (M - X)).lt_or_eq with h | h
    · exact h
    · exact absurd (sub_eq_zero.1 (frob_eq_zero _ h.symm)).symm hne
  linarith

/-- **C57, bounded loop.** Whatever the positive-definiteness test answers, one of two things happens: after `k`
adjustments, `1 ≤ k ≤ 100`, the test succeeds for the first time and the matrix is returned; or the test fails
after each of the first hundred adjustments and the diagonal part of the argument is returned. -/
theorem C57_bounded (N : Num) {n : ℕ} (A : Matrix (Fin n) (Fin n) ℝ) :
    (∃ k, 1 ≤ k ∧ k ≤ 100 ∧ nearestSPD N A = (spdNudge N)^[k] (spdStart N A) ∧ N.isPD n (nearestSPD N A) = true ∧
      ∀ j, 1 ≤ j → j < k → N.isPD n ((spdNudge N)^[j] (spdStart N A)) = false) ∨
    ((∀ j, 1 ≤ j → j ≤ 100 → N.isPD n ((spdNudge N)^[j] (spdStart N A)) = false) ∧
      nearestSPD N A = Matrix.diagonal fun i => A i i) := by
  unfold nearestSPD
  generalize spdStart N A = M0
  have key : ∀ d k fuel, d = 101 - k → 1 ≤ k → k ≤ 100 → 101 - k < fuel →
      (∀ j, 1 ≤ j → j < k → N.isPD n ((spdNudge N)^[j] M0) = false) →
      (∃ k', 1 ≤ k' ∧ k' ≤ 100 ∧ spdLoop N A fuel k ((spdNudge N)^[k] M0) = (spdNudge N)^[k'] M0 ∧
        N.isPD n (spdLoop N A fuel k ((spdNudge N)^[k] M0)) = true ∧
        ∀ j, 1 ≤ j → j < k' → N.isPD n ((spdNudge N)^[j] M0) = false) ∨
      ((∀ j, 1 ≤ j → j ≤ 100 → N.isPD n ((spdNudge N)^[j] M0) = false) ∧
        spdLoop N A fuel k ((spdNudge N)^[k] M0) = Matrix.diagonal fun i => A i i) := by
    intro d
    induction d with
    | zero => intro k fuel hd h1 h2; omega
    | succ d ih =>
      intro k fuel hd h1 h2 hf hall
      obtain ⟨fuel, rfl⟩ : ∃ f, fuel = f + 1 := ⟨fuel - 1, by omega⟩
      unfold spdLoop
      by_cases hpd : N.isPD n ((spdNudge N)^[k] M0) = false
      · rw [if_pos (Or.inr hpd)]
        have hall' : ∀ j, 1 ≤ j → j < k + 1 → N.isPD n ((spdNudge N)^[j] M0) = false := by
          intro j hj1 hj2
          rcases Nat.lt_or_eq_of_le (Nat.lt_succ_iff.1 hj2) with h | h
          · exact hall j hj1 h
          · rw [h]; exact hpd
        dsimp only
        by_cases hk : k + 1 > 100
        · rw [if_pos hk]
          exact Or.inr ⟨fun j hj1 hj2 => hall' j hj1 (by omega), rfl⟩
        · rw [if_neg hk]
          have := ih (k + 1) fuel (by omega) (by omega) (by omega) (by omega) hall'
          rwa [Function.iterate_succ_apply'] at this
      · rw [if_neg (by rw [not_or]; exact ⟨by omega, hpd⟩)]
        exact Or.inl ⟨k, h1, h2, rfl, by simpa using hpd, hall⟩
  have h1 := key 100 1 101 rfl le_rfl (by norm_num) (by norm_num) (by intro j a b; omega)
  have e : spdLoop N A 102 0 M0 = spdLoop N A 101 1 ((spdNudge N)^[1] M0) := by
    conv_lhs => unfold spdLoop
    rw [if_pos (Or.inl rfl)]
    rfl
  rw [e]
  exact h1

theorem nudge_symm (N : Num) {n : ℕ} (M : Matrix (Fin n) (Fin n) ℝ) (h : M.IsSymm) : (spdNudge N M).IsSymm := by
  show (spdNudge N M)ᵀ = _
  unfold spdNudge
  rw [Matrix.transpose_add, h.eq, Matrix.transpose_smul, Matrix.transpose_one]

/-- **C57, symmetry.** The result is symmetric, whatever the numerical routines return. -/
theorem C57_symmetric (N : Num) {n : ℕ} (A : Matrix (Fin n) (Fin n) ℝ) : (nearestSPD N A).IsSymm := by
  have h0 : (spdStart N A).IsSymm := by
    obtain ⟨M, h1, -⟩ := spdStart_eq N A
    show (spdStart N A)ᵀ = _
    rw [h1, Matrix.transpose_smul, Matrix.transpose_add, Matrix.transpose_transpose, add_comm]
  have hk : ∀ k, ((spdNudge N)^[k] (spdStart N A)).IsSymm := by
    intro k
    induction k with
    | zero => exact h0
    | succ k ih => rw [Function.iterate_succ_apply']; exact nudge_symm N _ ih
  rcases C57_bounded N A with ⟨k, -, -, h, -⟩ | ⟨-, h⟩
  · rw [h]; exact hk k
  · rw [h]; exact Matrix.isSymm_diagonal _

/-- **C57, exact arithmetic.** With routines meeting their contracts one adjustment is enough: the result is
positive definite and differs from the closest positive semidefinite matrix by a positive multiple of the
identity. -/
theorem C57_exact (N : Num) (hsvd : SvdOk N.svd) (hchol : CholeskyOk N.isPD) (hnudge : NudgeOk N.nudge) {n : ℕ}
    (A : Matrix (Fin n) (Fin n) ℝ) :
    (nearestSPD N A).PosDef ∧ ∃ ε : ℝ, 0 < ε ∧ nearestSPD N A = spdStart N A + ε • 1 := by
  obtain ⟨hp, -⟩ := C57_nearest N hsvd A
  have hone : (N.nudge n (spdStart N A) • (1 : Matrix (Fin n) (Fin n) ℝ)).PosDef :=
    Matrix.PosDef.one.smul (hnudge n _)
  have hpd : (spdNudge N (spdStart N A)).PosDef := hone.posSemidef_add hp
  have hs : (spdNudge N (spdStart N A)).IsSymm := nudge_symm N _ (symm_of_isHermitian hp.isHermitian)
  have htrue : N.isPD n (spdNudge N (spdStart N A)) = true := (hchol n _ hs).2 hpd
  have hres : nearestSPD N A = spdNudge N (spdStart N A) := by
    rcases C57_bounded N A with ⟨k, h1, -, h, -, hall⟩ | ⟨hall, -⟩
    · have : k = 1 := by
        by_contra hk
        have := hall 1 le_rfl (by omega)
        rw [Function.iterate_one] at this
        rw [this] at htrue
        cases htrue
      rw [h, this, Function.iterate_one]
    · have := hall 1 le_rfl (by norm_num)
      rw [Function.iterate_one, htrue] at this
      cases this
  rw [hres]
  exact ⟨hpd, _, hnudge n _, rfl⟩

/-- Non-vacuity: routines meeting the contracts exist, and an indefinite argument. -/
example : SvdOk idealNum.svd ∧ CholeskyOk idealNum.isPD ∧ NudgeOk idealNum.nudge ∧
    ¬ (!![0, 1; 1, 0] : Matrix (Fin 2) (Fin 2) ℝ).PosSemidef := by
  refine ⟨idealNum_ok.svd, idealNum_ok.cholesky, idealNum_ok.nudge, fun h => ?_⟩
  have := h.dotProduct_mulVec_nonneg ![1, -1]
  norm_num [Matrix.mulVec, dotProduct, Fin.sum_univ_two] at this

end

end Props

end UTide
