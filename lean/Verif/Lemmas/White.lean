import Verif.Lemmas.Gram
import Verif.Model.Confidence
import Mathlib.Analysis.Complex.Order

/-!
# `Gall`, `Hall` and the variances for unit weights
-/

namespace UTide

noncomputable section

open Matrix Classical
open scoped ComplexOrder

local notation "conj" => starRingEnd ℂ

/-- The rows `B` as a matrix with `ncol` columns. -/
def designM (ncol : ℕ) (B : List (List ℂ)) : Matrix (Fin B.length) (Fin ncol) ℂ :=
  Matrix.of fun j i => (B[j]).getD i 0

theorem zipWith_sum_fin {α β : Type} (f : α → β → ℂ) (l : List α) (l' : List β) (h : l'.length = l.length) :
    (List.zipWith f l l').sum = ∑ j : Fin l.length, f l[j] (l'[j.val]'(by rw [h]; exact j.isLt)) := by
  rw [← List.sum_ofFn]
  congr 1
  apply List.ext_getElem
  · simp [h]
  · intro i h1 h2
    simp

theorem gram_ones (b : Bool) (nm : ℕ) (B : List (List ℂ)) :
    gram b nm B (B.map fun _ => 1) = (if b then (designM nm B)ᴴ else (designM nm B)ᵀ) * designM nm B := by
  ext i j
  unfold gram
  rw [Matrix.of_apply, zipWith_sum_fin _ _ _ (by simp), mul_apply]
  refine Finset.sum_congr rfl fun l _ => ?_
  cases b
  · simp [designM, transpose_apply]
  · simp [designM, conjTranspose_apply]

theorem dot_fin (ncol : ℕ) (r : List ℂ) (f : Fin ncol → ℂ) (hr : r.length = ncol) :
    dot r (List.ofFn f) = ∑ i : Fin ncol, r.getD i 0 * f i := by
  subst hr
  unfold dot
  rw [zipWith_sum_fin _ _ _ (by simp)]
  refine Finset.sum_congr rfl fun i _ => ?_
  simp

theorem designM_mulVec (ncol : ℕ) (B : List (List ℂ)) (hB : ∀ r ∈ B, r.length = ncol) (f : Fin ncol → ℂ)
    (j : Fin B.length) : (designM ncol B).mulVec f j = dot B[j] (List.ofFn f) := by
  exact (dot_fin ncol _ f (hB _ (List.getElem_mem j.isLt))).symm

theorem gram_det (ncol : ℕ) (B : List (List ℂ)) (hB : ∀ r ∈ B, r.length = ncol) (hi : IndepColumns ncol B) :
    ((designM ncol B)ᴴ * designM ncol B).det ≠ 0 := by
  intro h0
  obtain ⟨f, hf, hz⟩ := Matrix.exists_mulVec_eq_zero_iff.2 h0
  apply hf
  set D := designM ncol B with hD
  have h1 : star (D.mulVec f) ⬝ᵥ (D.mulVec f) = 0 := by
    rw [Matrix.star_mulVec, ← Matrix.dotProduct_mulVec, Matrix.mulVec_mulVec, hz, dotProduct_zero]
  have h2 : D.mulVec f = 0 := dotProduct_star_self_eq_zero.1 h1
  have h3 := hi (List.ofFn f) (by simp) (by
    intro r hr
    obtain ⟨j, hj, rfl⟩ := List.mem_iff_getElem.1 hr
    have := congrFun h2 ⟨j, hj⟩
    rwa [designM_mulVec ncol B hB] at this)
  funext i
  exact h3 (f i) (by simp)

variable {σ : Equiv.Perm (Fin nm)} {B : List (List ℂ)}

theorem Paired.transpose_gram {n k : ℕ} {D : Matrix (Fin n) (Fin k) ℂ} {σ : Equiv.Perm (Fin k)} (h : Paired D σ) :
    Dᵀ * D = (Dᴴ * D).submatrix σ (Equiv.refl _) := by
  ext i j
  simp only [submatrix_apply, mul_apply, transpose_apply, conjTranspose_apply, Equiv.refl_apply]
  refine Finset.sum_congr rfl fun l _ => ?_
  rw [← h.pair]
  simp

theorem Paired.transpose_inv {n k : ℕ} {D : Matrix (Fin n) (Fin k) ℂ} {σ : Equiv.Perm (Fin k)} (h : Paired D σ) :
    (Dᵀ * D)⁻¹ = (UTide.invGram D).submatrix (Equiv.refl _) σ := by
  rw [h.transpose_gram, inv_submatrix_equiv]
  rfl

theorem Paired.transpose_det {n k : ℕ} {D : Matrix (Fin n) (Fin k) ℂ} {σ : Equiv.Perm (Fin k)} (h : Paired D σ)
    (hd : (Dᴴ * D).det ≠ 0) : (Dᵀ * D).det ≠ 0 := by
  have : IsUnit (Dᵀ * D) := by
    rw [h.transpose_gram, Matrix.isUnit_submatrix_equiv]
    exact (Matrix.isUnit_iff_isUnit_det _).2 (isUnit_iff_ne_zero.2 hd)
  exact isUnit_iff_ne_zero.1 ((Matrix.isUnit_iff_isUnit_det _).1 this)

theorem inv_some {N : Num} (hI : InvOk N.inv) {n : ℕ} {M : Matrix (Fin n) (Fin n) ℂ} (hd : M.det ≠ 0) :
    N.inv n M = some M⁻¹ := by
  obtain ⟨h1, h2⟩ := hI n M
  cases h : N.inv n M with
  | none => exact absurd (isUnit_iff_ne_zero.2 hd) (h2 h)
  | some M' => rw [Matrix.inv_eq_right_inv (h1 M' h)]

/-- With unit weights, paired columns and full rank, `Gall` and `Hall` in terms of one inverse matrix. -/
theorem covariances_total {N : Num} (hI : InvOk N.inv) (c : ConfIn) (hW : c.W = c.B.map fun _ => 1)
    (hB : ∀ r ∈ c.B, r.length = c.nm) (hi : IndepColumns c.nm c.B) (σ : Equiv.Perm (Fin c.nm))
    (hP : Paired (designM c.nm c.B) σ) (hn : c.xraw.length ≠ c.nm) :
    covariances N c =
      .ok (((msmNum c / ((c.xraw.length : ℝ) - c.nm) : ℝ) : ℂ) • invGram (designM c.nm c.B) +
          (pseudoNum c / (((c.xraw.length : ℝ) - c.nm : ℝ) : ℂ)) •
            (invGram (designM c.nm c.B)).submatrix (Equiv.refl _) σ,
        ((msmNum c / ((c.xraw.length : ℝ) - c.nm) : ℝ) : ℂ) • invGram (designM c.nm c.B) -
          (pseudoNum c / (((c.xraw.length : ℝ) - c.nm : ℝ) : ℂ)) •
            (invGram (designM c.nm c.B)).submatrix (Equiv.refl _) σ) := by
  have hd := gram_det c.nm c.B hB hi
  have hdof : (c.xraw.length : ℝ) - c.nm ≠ 0 := by
    intro h; apply hn
    have : (c.xraw.length : ℝ) = c.nm := by linarith
    exact_mod_cast this
  unfold covariances
  dsimp only
  rw [if_neg hdof, hW, gram_ones, gram_ones]
  simp only [if_true, Bool.false_eq_true, if_false]
  rw [inv_some hI hd, inv_some hI (hP.transpose_det hd), hP.transpose_inv]
  rfl

/-- If `covariances` returns, the columns are independent and there is a degree of freedom. -/
theorem covariances_ok {N : Num} (hI : InvOk N.inv) (c : ConfIn) (hW : c.W = c.B.map fun _ => 1)
    (hB : ∀ r ∈ c.B, r.length = c.nm) {GH} (h : covariances N c = .ok GH) :
    IndepColumns c.nm c.B ∧ c.xraw.length ≠ c.nm := by
  unfold covariances at h
  dsimp only at h
  split at h
  · cases h
  rename_i hdof
  refine ⟨?_, fun h0 => hdof (by rw [h0]; simp)⟩
  rw [hW, gram_ones, gram_ones] at h
  simp only [if_true] at h
  cases h1 : N.inv c.nm ((designM c.nm c.B)ᴴ * designM c.nm c.B) with
  | none => rw [h1] at h; cases h
  | some M' =>
    have h2 := (hI c.nm _).1 M' h1
    intro m hm hz x hx
    obtain ⟨f, rfl⟩ : ∃ f : Fin c.nm → ℂ, m = List.ofFn f := by
      refine ⟨fun i => m[i.val]'(by rw [hm]; exact i.isLt), ?_⟩
      apply List.ext_getElem
      · simp [hm]
      · intro i _ _; simp
    have h3 : (designM c.nm c.B).mulVec f = 0 := by
      funext j
      rw [designM_mulVec c.nm c.B hB]
      exact hz _ (List.getElem_mem _)
    have h4 : f = 0 := by
      have h5 : M' * ((designM c.nm c.B)ᴴ * designM c.nm c.B) = 1 := mul_eq_one_comm.1 h2
      have : (M' * ((designM c.nm c.B)ᴴ * designM c.nm c.B)).mulVec f = 0 := by
        rw [← Matrix.mulVec_mulVec, ← Matrix.mulVec_mulVec, h3]; simp
      rwa [h5, Matrix.one_mulVec] at this
    rw [h4, List.mem_ofFn] at hx
    obtain ⟨i, rfl⟩ := hx
    rfl

/-! ## Variances -/

theorem wdot_ones (x y : List ℂ) (B : List (List ℂ)) (hy : y.length = B.length) :
    wdot x (B.map fun _ => 1) y = dot x y := by
  unfold wdot
  congr 1
  apply List.ext_getElem
  · simp [hy]
  · intro i h1 h2
    simp

/-- The data and the fitted values, split into real and imaginary part. -/
structure Split (c : ConfIn) (u v : Fin c.B.length → ℝ) : Prop where
  xraw : c.xraw = List.ofFn fun j => (⟨u j, v j⟩ : ℂ)
  xmod : c.xmod = List.ofFn fun j => (⟨fitted (designM c.nm c.B) u j, fitted (designM c.nm c.B) v j⟩ : ℂ)

theorem dot_ofFn (n : ℕ) (f g : Fin n → ℂ) : dot (List.ofFn f) (List.ofFn g) = ∑ j, f j * g j := by
  unfold dot
  rw [zipWith_sum_fin _ _ _ (by simp)]
  refine Finset.sum_bij' (fun j _ => ⟨j.val, by simpa using j.isLt⟩) (fun j _ => ⟨j.val, by simp⟩) ?_ ?_ ?_ ?_ ?_ <;> simp

theorem msm_eq {c : ConfIn} {u v : Fin c.B.length → ℝ} {σ : Equiv.Perm (Fin c.nm)} (S : Split c u v)
    (hW : c.W = c.B.map fun _ => 1) (hP : Paired (designM c.nm c.B) σ)
    (hd : ((designM c.nm c.B)ᴴ * designM c.nm c.B).det ≠ 0) :
    msmNum c = ∑ j, gramRes (designM c.nm c.B) u j ^ 2 + ∑ j, gramRes (designM c.nm c.B) v j ^ 2 ∧
    (pseudoNum c).re = ∑ j, gramRes (designM c.nm c.B) u j ^ 2 - ∑ j, gramRes (designM c.nm c.B) v j ^ 2 ∧
    (pseudoNum c).im = 2 * ∑ j, gramRes (designM c.nm c.B) u j * gramRes (designM c.nm c.B) v j := by
  have hx : c.xraw.length = c.B.length := by rw [S.xraw]; simp
  have e1 : ∀ w : Fin c.B.length → ℝ, ∑ j, gramRes (designM c.nm c.B) w j ^ 2 =
      ∑ j, gramRes (designM c.nm c.B) w j * w j := by
    intro w; rw [hP.res_mul hd]; exact Finset.sum_congr rfl fun j _ => by ring
  have e2 := hP.res_mul hd u v
  have e3 := hP.res_mul hd v u
  have e4 : ∑ j, gramRes (designM c.nm c.B) v j * gramRes (designM c.nm c.B) u j =
      ∑ j, gramRes (designM c.nm c.B) u j * gramRes (designM c.nm c.B) v j :=
    Finset.sum_congr rfl fun j _ => mul_comm _ _
  unfold msmNum pseudoNum
  rw [hW, wdot_ones _ _ _ hx, wdot_ones _ _ _ hx, wdot_ones _ _ _ hx, wdot_ones _ _ _ hx, S.xraw, S.xmod,
    List.map_ofFn, List.map_ofFn, dot_ofFn, dot_ofFn, dot_ofFn, dot_ofFn, ← Finset.sum_sub_distrib,
    ← Finset.sum_sub_distrib, Complex.re_sum, Complex.re_sum, Complex.im_sum, e1, e1, two_mul]
  nth_rewrite 2 [← e4]
  rw [← e2, ← e3, ← Finset.sum_add_distrib, ← Finset.sum_sub_distrib, ← Finset.sum_add_distrib]
  refine ⟨Finset.sum_congr rfl fun j _ => ?_, Finset.sum_congr rfl fun j _ => ?_, Finset.sum_congr rfl fun j _ => ?_⟩
  all_goals
    unfold gramRes
    simp [Complex.mul_re, Complex.mul_im]
    ring

/-- Mean square of the residual of one component. -/
def resMS (c : ConfIn) (u : Fin c.B.length → ℝ) : ℝ :=
  (∑ j, gramRes (designM c.nm c.B) u j ^ 2) / ((c.xraw.length : ℝ) - c.nm)

theorem entry_ok {nm : ℕ} (M : Matrix (Fin nm) (Fin nm) ℂ) (i j : Fin nm) : entry M i.val j.val = .ok (M i j) := by
  unfold entry
  rw [dif_pos ⟨i.isLt, j.isLt⟩]

theorem block_ok {nm : ℕ} (M : Matrix (Fin nm) (Fin nm) ℂ) (nc : ℕ) (i j : Fin nm) (h : j.val = i.val + nc) :
    block M nc i.val = .ok !![M i i, M i j; M j i, M j j] := by
  unfold block
  rw [← h, entry_ok, entry_ok, entry_ok, entry_ok]
  rfl

/-- The four variances of column pair `i`. -/
theorem vars_eq {c : ConfIn} {u v : Fin c.B.length → ℝ} {σ : Equiv.Perm (Fin c.nm)} (S : Split c u v)
    (hW : c.W = c.B.map fun _ => 1) (hP : Paired (designM c.nm c.B) σ)
    (hd : ((designM c.nm c.B)ᴴ * designM c.nm c.B).det ≠ 0) (i : Fin c.nm)
    (G H : Matrix (Fin c.nm) (Fin c.nm) ℂ)
    (hG : G = ((msmNum c / ((c.xraw.length : ℝ) - c.nm) : ℝ) : ℂ) • invGram (designM c.nm c.B) +
          (pseudoNum c / (((c.xraw.length : ℝ) - c.nm : ℝ) : ℂ)) •
            (invGram (designM c.nm c.B)).submatrix (Equiv.refl _) σ)
    (hH : H = ((msmNum c / ((c.xraw.length : ℝ) - c.nm) : ℝ) : ℂ) • invGram (designM c.nm c.B) -
          (pseudoNum c / (((c.xraw.length : ℝ) - c.nm : ℝ) : ℂ)) •
            (invGram (designM c.nm c.B)).submatrix (Equiv.refl _) σ) :
    varXuOf !![G i i, G i (σ i); G (σ i) i, G (σ i) (σ i)] =
      resMS c u * ∑ j, cosForm (designM c.nm c.B) i j ^ 2 ∧
    varYuOf !![H i i, H i (σ i); H (σ i) i, H (σ i) (σ i)] =
      resMS c u * ∑ j, sinForm (designM c.nm c.B) i j ^ 2 ∧
    varXvOf !![H i i, H i (σ i); H (σ i) i, H (σ i) (σ i)] =
      resMS c v * ∑ j, cosForm (designM c.nm c.B) i j ^ 2 ∧
    varYvOf !![G i i, G i (σ i); G (σ i) i, G (σ i) (σ i)] =
      resMS c v * ∑ j, sinForm (designM c.nm c.B) i j ^ 2 := by
  obtain ⟨m1, m2, -⟩ := msm_eq S hW hP hd
  rw [hP.sum_cos hd, hP.sum_sin hd]
  unfold resMS
  generalize (c.xraw.length : ℝ) - c.nm = d at *
  generalize ∑ j, gramRes (designM c.nm c.B) u j ^ 2 = a at *
  generalize ∑ j, gramRes (designM c.nm c.B) v j ^ 2 = b at *
  have k1 : invGram (designM c.nm c.B) (σ i) (σ i) = conj (invGram (designM c.nm c.B) i i) := hP.invGram i i
  have k2 : invGram (designM c.nm c.B) (σ i) i = conj (invGram (designM c.nm c.B) i (σ i)) := by
    have := hP.invGram i (σ i); rwa [hP.inv] at this
  have k3 : (invGram (designM c.nm c.B) i i).im = 0 := by
    have := invGram_conj (designM c.nm c.B) i i
    have := congrArg Complex.im this
    rw [Complex.conj_im] at this
    linarith
  have hre : ∀ z : ℂ, ∀ w : ℂ, (z / (d : ℂ) * w).re = (z.re * w.re - z.im * w.im) / d := by
    intro z w
    rw [div_mul_eq_mul_div, Complex.div_ofReal_re, Complex.mul_re]
  simp only [varXuOf, varYuOf, varXvOf, varYvOf, hG, hH, Matrix.of_apply, Matrix.cons_val_zero, Matrix.cons_val_one,
    Matrix.cons_val', Matrix.add_apply, Matrix.sub_apply, Matrix.smul_apply, submatrix_apply, Equiv.refl_apply,
    smul_eq_mul, hP.inv, k1, k2, Matrix.cons_val_fin_one, Complex.add_re, Complex.sub_re, Complex.re_ofReal_mul, hre,
    Complex.conj_re, Complex.conj_im, Complex.mul_re, Complex.re_ofNat, Complex.im_ofNat, Complex.ofReal_re, Complex.ofReal_im, k3, m1, m2]
  refine ⟨?_, ?_, ?_, ?_⟩ <;> ring

end

end UTide
