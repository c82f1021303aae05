import Verif.Lemmas.White
import Verif.Lemmas.Blue

/-!
# Normal equations with weights

Weighted rows `√w · row` keep the conjugate pairs of columns, so what holds for unit weights holds for them.
-/

namespace UTide

noncomputable section

open Classical Matrix
open scoped ComplexOrder

local notation "conj" => starRingEnd ℂ

/-- Rows multiplied by the roots of the weights. -/
def weighted {n k : ℕ} (w : Fin n → ℝ) (D : Matrix (Fin n) (Fin k) ℂ) : Matrix (Fin n) (Fin k) ℂ :=
  Matrix.of fun j i => (Real.sqrt (w j) : ℂ) * D j i

theorem Paired.weighted {n k : ℕ} {D : Matrix (Fin n) (Fin k) ℂ} {σ : Equiv.Perm (Fin k)} (h : Paired D σ)
    (w : Fin n → ℝ) : Paired (weighted w D) σ :=
  ⟨h.inv, fun j i => by
    show conj ((Real.sqrt (w j) : ℂ) * D j i) = (Real.sqrt (w j) : ℂ) * D j (σ i)
    rw [map_mul, Complex.conj_ofReal, h.pair]⟩

/-- `Bᴴ W B` and `Bᵀ W B`. -/
theorem gram_weighted (b : Bool) (nm : ℕ) (B : List (List ℂ)) (w : Fin B.length → ℝ) (hw : ∀ j, 0 ≤ w j) :
    gram b nm B (List.ofFn w) =
      if b then (weighted w (designM nm B))ᴴ * weighted w (designM nm B)
      else (weighted w (designM nm B))ᵀ * weighted w (designM nm B) := by
  have hs : ∀ j, (w j : ℂ) = (Real.sqrt (w j) : ℂ) * (Real.sqrt (w j) : ℂ) := by
    intro j; rw [← Complex.ofReal_mul, Real.mul_self_sqrt (hw j)]
  have key : gram b nm B (List.ofFn w) = Matrix.of fun (i j : Fin nm) => ∑ l : Fin B.length,
      (if b then conj (B[l].getD i 0) else B[l].getD i 0) * ((w l : ℂ) * B[l].getD j 0) := by
    unfold gram
    congr 1
    funext i j
    rw [zipWith_sum_fin _ _ _ (by simp)]
    refine Finset.sum_congr rfl fun l _ => ?_
    rw [List.getElem_ofFn]
  rw [key]
  cases b with
  | true =>
    ext i j
    simp only [if_true, Matrix.of_apply, Matrix.mul_apply, conjTranspose_apply]
    refine Finset.sum_congr rfl fun l _ => ?_
    show _ = star ((Real.sqrt (w l) : ℂ) * B[l].getD i 0) * ((Real.sqrt (w l) : ℂ) * B[l].getD j 0)
    rw [hs l, Complex.star_def, map_mul, Complex.conj_ofReal]
    ring
  | false =>
    ext i j
    simp only [Bool.false_eq_true, if_false, Matrix.of_apply, Matrix.mul_apply, transpose_apply]
    refine Finset.sum_congr rfl fun l _ => ?_
    show _ = ((Real.sqrt (w l) : ℂ) * B[l].getD i 0) * ((Real.sqrt (w l) : ℂ) * B[l].getD j 0)
    rw [hs l]
    ring

/-- If `covariances` returns, the weighted columns are independent and `nt ≠ nm`; `Gall` and `Hall` then. -/
theorem covariances_weighted {N : Num} (hI : InvOk N.inv) (c : ConfIn) (w : Fin c.B.length → ℝ) (hw : ∀ j, 0 ≤ w j)
    (hW : c.W = List.ofFn w) (σ : Equiv.Perm (Fin c.nm)) (hP : Paired (designM c.nm c.B) σ) {GH}
    (h : covariances N c = .ok GH) :
    c.xraw.length ≠ c.nm ∧ ((weighted w (designM c.nm c.B))ᴴ * weighted w (designM c.nm c.B)).det ≠ 0 ∧
    GH = (((msmNum c / ((c.xraw.length : ℝ) - c.nm) : ℝ) : ℂ) • invGram (weighted w (designM c.nm c.B)) +
          (pseudoNum c / (((c.xraw.length : ℝ) - c.nm : ℝ) : ℂ)) •
            (invGram (weighted w (designM c.nm c.B))).submatrix (Equiv.refl _) σ,
        ((msmNum c / ((c.xraw.length : ℝ) - c.nm) : ℝ) : ℂ) • invGram (weighted w (designM c.nm c.B)) -
          (pseudoNum c / (((c.xraw.length : ℝ) - c.nm : ℝ) : ℂ)) •
            (invGram (weighted w (designM c.nm c.B))).submatrix (Equiv.refl _) σ) := by
  have hPw := hP.weighted w
  unfold covariances at h
  dsimp only at h
  split at h
  · cases h
  rename_i hdof
  rw [hW, gram_weighted _ _ _ _ hw, gram_weighted _ _ _ _ hw] at h
  simp only [if_true, Bool.false_eq_true, if_false] at h
  have hd : ((weighted w (designM c.nm c.B))ᴴ * weighted w (designM c.nm c.B)).det ≠ 0 := by
    intro h0
    cases h1 : N.inv c.nm ((weighted w (designM c.nm c.B))ᴴ * weighted w (designM c.nm c.B)) with
    | none => rw [h1] at h; cases h
    | some M' =>
      have h2 := congrArg Matrix.det ((hI c.nm _).1 M' h1)
      rw [Matrix.det_mul, h0, zero_mul, Matrix.det_one] at h2
      exact zero_ne_one h2
  refine ⟨fun h0 => hdof (by rw [h0]; simp), hd, ?_⟩
  rw [inv_some hI hd, inv_some hI (hPw.transpose_det hd), hPw.transpose_inv] at h
  exact (Except.ok.inj h).symm

/-- `varMSM` and the factor of `gamP` for real data and real fitted values. -/
theorem msm_real (c : ConfIn) {n : ℕ} (w u y : Fin n → ℝ) (hW : c.W = List.ofFn w)
    (hx : c.xraw = List.ofFn fun j => (u j : ℂ)) (hy : c.xmod = List.ofFn fun j => (y j : ℂ)) :
    msmNum c = ∑ j, w j * u j * (u j - y j) ∧ pseudoNum c = ((∑ j, w j * u j * (u j - y j) : ℝ) : ℂ) := by
  have hz : List.zipWith (fun (w : ℝ) z => (w : ℂ) * z) c.W c.xraw = List.ofFn fun j => ((w j * u j : ℝ) : ℂ) := by
    rw [hW, hx]
    apply List.ext_getElem
    · simp
    · intro i h1 h2
      simp
  have h2 : pseudoNum c = ((∑ j, w j * u j * (u j - y j) : ℝ) : ℂ) := by
    unfold pseudoNum wdot
    rw [hz, hx, hy, dot_ofFn, dot_ofFn, ← Finset.sum_sub_distrib]
    push_cast
    refine Finset.sum_congr rfl fun j _ => by ring
  refine ⟨?_, h2⟩
  have h3 : msmNum c = (pseudoNum c).re := by
    unfold msmNum pseudoNum wdot
    rw [hz, hx, hy, List.map_ofFn, List.map_ofFn]
    have : ∀ f : Fin n → ℝ, (starRingEnd ℂ) ∘ (fun j => (f j : ℂ)) = fun j => (f j : ℂ) := by
      intro f; funext j; simp
    rw [this, this]
  rw [h3, h2, Complex.ofReal_re]

/-- The two variances of column pair `i` for a real series. -/
theorem vars_real {n k : ℕ} {D : Matrix (Fin n) (Fin k) ℂ} {σ : Equiv.Perm (Fin k)} (hP : Paired D σ)
    (hd : (Dᴴ * D).det ≠ 0) (s : ℝ) (i : Fin k) (G H : Matrix (Fin k) (Fin k) ℂ)
    (hG : G = (s : ℂ) • invGram D + (s : ℂ) • (invGram D).submatrix (Equiv.refl _) σ)
    (hH : H = (s : ℂ) • invGram D - (s : ℂ) • (invGram D).submatrix (Equiv.refl _) σ) :
    varXuOf !![G i i, G i (σ i); G (σ i) i, G (σ i) (σ i)] = s * ∑ j, cosForm D i j ^ 2 ∧
    varYuOf !![H i i, H i (σ i); H (σ i) i, H (σ i) (σ i)] = s * ∑ j, sinForm D i j ^ 2 := by
  rw [hP.sum_cos hd, hP.sum_sin hd]
  have k1 : invGram D (σ i) (σ i) = conj (invGram D i i) := hP.invGram i i
  have k2 : invGram D (σ i) i = conj (invGram D i (σ i)) := by
    have := hP.invGram i (σ i); rwa [hP.inv] at this
  simp only [varXuOf, varYuOf, hG, hH, Matrix.of_apply, Matrix.cons_val_zero, Matrix.cons_val_one,
    Matrix.cons_val', Matrix.add_apply, Matrix.sub_apply, Matrix.smul_apply, submatrix_apply, Equiv.refl_apply,
    smul_eq_mul, hP.inv, k1, k2, Matrix.cons_val_fin_one, Complex.add_re, Complex.sub_re,
    Complex.conj_re, Complex.mul_re, Complex.re_ofNat, Complex.im_ofNat, Complex.ofReal_re, Complex.ofReal_im]
  constructor <;> ring

/-- Independent weighted columns are independent. -/
theorem indep_of_weighted (nm : ℕ) (B : List (List ℂ)) (hB : ∀ r ∈ B, r.length = nm) (w : Fin B.length → ℝ)
    (hd : ((weighted w (designM nm B))ᴴ * weighted w (designM nm B)).det ≠ 0) : IndepColumns nm B := by
  intro m hm hz x hx
  obtain ⟨f, rfl⟩ : ∃ f : Fin nm → ℂ, m = List.ofFn f := by
    refine ⟨fun i => m[i.val]'(by rw [hm]; exact i.isLt), ?_⟩
    apply List.ext_getElem
    · simp [hm]
    · intro i _ _; simp
  have h3 : (weighted w (designM nm B)).mulVec f = 0 := by
    funext j
    have h4 : (designM nm B).mulVec f j = 0 := by
      rw [designM_mulVec nm B hB]
      exact hz _ (List.getElem_mem _)
    have : (weighted w (designM nm B) *ᵥ f) j = (Real.sqrt (w j) : ℂ) * (designM nm B *ᵥ f) j := by
      simp only [mulVec, dotProduct, Finset.mul_sum]
      refine Finset.sum_congr rfl fun l _ => ?_
      show (Real.sqrt (w j) : ℂ) * designM nm B j l * f l = _
      ring
    rw [this, h4]
    simp
  have h4 : f = 0 := by
    have := congrArg (fun z => solver (weighted w (designM nm B)) *ᵥ z) h3
    simpa [Matrix.mulVec_mulVec, solver_mul hd] using this
  rw [h4, List.mem_ofFn] at hx
  obtain ⟨i, rfl⟩ := hx
  rfl

/-- The weighted columns are independent when only zero coefficients give a curve that vanishes at all rows of
non-zero weight. -/
theorem weighted_det (nm : ℕ) (B : List (List ℂ)) (hB : ∀ r ∈ B, r.length = nm) (w : Fin B.length → ℝ)
    (hw : ∀ j, 0 ≤ w j) :
    ((weighted w (designM nm B))ᴴ * weighted w (designM nm B)).det ≠ 0 ↔
      ∀ m : List ℂ, m.length = nm → (∀ j : Fin B.length, w j ≠ 0 → dot B[j] m = 0) → ∀ x ∈ m, x = 0 := by
  have key : ∀ (f : Fin nm → ℂ) (j : Fin B.length), (weighted w (designM nm B) *ᵥ f) j =
      (Real.sqrt (w j) : ℂ) * dot B[j] (List.ofFn f) := by
    intro f j
    have h := designM_mulVec nm B hB f j
    rw [show dot B[j] (List.ofFn f) = (designM nm B *ᵥ f) j from h.symm]
    simp only [mulVec, dotProduct, Finset.mul_sum]
    refine Finset.sum_congr rfl fun l _ => ?_
    show (Real.sqrt (w j) : ℂ) * designM nm B j l * f l = _
    ring
  constructor
  · intro hd m hm hz x hx
    obtain ⟨f, rfl⟩ := exists_ofFn nm m hm
    have h3 : (weighted w (designM nm B)).mulVec f = 0 := by
      funext j
      rw [key]
      by_cases h0 : w j = 0
      · rw [h0]; simp
      · rw [hz j h0]; simp
    have h4 : f = 0 := by
      have := congrArg (fun z => solver (weighted w (designM nm B)) *ᵥ z) h3
      simpa [Matrix.mulVec_mulVec, solver_mul hd] using this
    rw [h4, List.mem_ofFn] at hx
    obtain ⟨i, rfl⟩ := hx
    rfl
  · intro h hd
    obtain ⟨f, hf, h0⟩ := Matrix.exists_mulVec_eq_zero_iff.2 hd
    rw [← Matrix.mulVec_mulVec] at h0
    have h1 : weighted w (designM nm B) *ᵥ f = 0 := by
      have : star (weighted w (designM nm B) *ᵥ f) ⬝ᵥ (weighted w (designM nm B) *ᵥ f) = 0 := by
        rw [Matrix.star_mulVec, ← Matrix.dotProduct_mulVec, h0, dotProduct_zero]
      exact dotProduct_star_self_eq_zero.1 this
    apply hf
    funext i
    refine h (List.ofFn f) (by simp) (fun j hj => ?_) _ (List.mem_ofFn.2 ⟨i, rfl⟩)
    have h2 := congrFun h1 j
    rw [key, Pi.zero_apply] at h2
    rcases mul_eq_zero.1 h2 with h3 | h3
    · exact absurd ((Real.sqrt_eq_zero (hw j)).1 (by exact_mod_cast h3)) hj
    · exact h3

/-- `Gall` and `Hall` can be computed if the weighted columns are independent and `nt ≠ nm`. -/
theorem covariances_weighted_total {N : Num} (hI : InvOk N.inv) (c : ConfIn) (w : Fin c.B.length → ℝ) (hw : ∀ j, 0 ≤ w j)
    (hW : c.W = List.ofFn w) (σ : Equiv.Perm (Fin c.nm)) (hP : Paired (designM c.nm c.B) σ)
    (hd : ((weighted w (designM c.nm c.B))ᴴ * weighted w (designM c.nm c.B)).det ≠ 0) (hn : c.xraw.length ≠ c.nm) :
    ∃ GH, covariances N c = .ok GH := by
  have hPw := hP.weighted w
  have hdof : (c.xraw.length : ℝ) - c.nm ≠ 0 := by
    intro h; apply hn
    have : (c.xraw.length : ℝ) = c.nm := by linarith
    exact_mod_cast this
  unfold covariances
  dsimp only
  rw [if_neg hdof, hW, gram_weighted _ _ _ _ hw, gram_weighted _ _ _ _ hw]
  simp only [if_true, Bool.false_eq_true, if_false]
  rw [inv_some hI hd, inv_some hI (hPw.transpose_det hd)]
  exact ⟨_, rfl⟩

/-- A sample of weight zero does not enter the estimates. -/
theorem solver_weightless {n k : ℕ} (w : Fin n → ℝ) (D : Matrix (Fin n) (Fin k) ℂ) (i : Fin k) (j : Fin n)
    (h : w j = 0) : solver (weighted w D) i j = 0 := by
  unfold solver
  rw [Matrix.mul_apply]
  refine Finset.sum_eq_zero fun l _ => ?_
  rw [conjTranspose_apply]
  show _ * star ((Real.sqrt (w j) : ℂ) * D j l) = 0
  rw [h]
  simp

theorem realCurve_weighted {n k : ℕ} (w : Fin n → ℝ) (D : Matrix (Fin n) (Fin k) ℂ) (f : Fin k → ℂ) (j : Fin n) :
    realCurve (weighted w D) f j = Real.sqrt (w j) * realCurve D f j := by
  have : (weighted w D *ᵥ f) j = (Real.sqrt (w j) : ℂ) * (D *ᵥ f) j := by
    simp only [mulVec, dotProduct, Finset.mul_sum]
    refine Finset.sum_congr rfl fun l _ => ?_
    show (Real.sqrt (w j) : ℂ) * D j l * f l = _
    ring
  unfold realCurve
  rw [this, Complex.re_ofReal_mul]

end

end UTide
