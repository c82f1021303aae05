import Verif.Lemmas.White

/-!
# The covariance matrix of the Monte-Carlo samples for unit weights
-/

namespace UTide

noncomputable section

open Matrix Classical

local notation "conj" => starRingEnd ℂ

theorem Paired.sum_cos_sin {n k : ℕ} {D : Matrix (Fin n) (Fin k) ℂ} {σ : Equiv.Perm (Fin k)} (h : Paired D σ)
    (hd : (Dᴴ * D).det ≠ 0) (i : Fin k) :
    ∑ j, cosForm D i j * sinForm D i j = -2 * (UTide.invGram D i (σ i)).im := by
  have h1 : ∀ a b, UTide.invGram D a b = ∑ j, UTide.solver D a j * conj (UTide.solver D b j) := by
    intro a b
    rw [← solver_mul_self hd, mul_apply]
    rfl
  rw [h1, Complex.im_sum, Finset.mul_sum]
  refine Finset.sum_congr rfl fun j _ => ?_
  rw [h.solver, Complex.conj_conj]
  unfold cosForm sinForm
  simp only [Complex.mul_im]
  ring

/-- Mean product of the residuals of two components. -/
def resMP (c : ConfIn) (u v : Fin c.B.length → ℝ) : ℝ :=
  (∑ j, gramRes (designM c.nm c.B) u j * gramRes (designM c.nm c.B) v j) / ((c.xraw.length : ℝ) - c.nm)

/-- The ten different entries of the covariance matrix of column pair `i`. -/
theorem mcCov_eq {c : ConfIn} {u v : Fin c.B.length → ℝ} {σ : Equiv.Perm (Fin c.nm)} (S : Split c u v)
    (hW : c.W = c.B.map fun _ => 1) (hP : Paired (designM c.nm c.B) σ)
    (hd : ((designM c.nm c.B)ᴴ * designM c.nm c.B).det ≠ 0) (i : Fin c.nm)
    (G H : Matrix (Fin c.nm) (Fin c.nm) ℂ)
    (hG : G = ((msmNum c / ((c.xraw.length : ℝ) - c.nm) : ℝ) : ℂ) • invGram (designM c.nm c.B) +
          (pseudoNum c / (((c.xraw.length : ℝ) - c.nm : ℝ) : ℂ)) •
            (invGram (designM c.nm c.B)).submatrix (Equiv.refl _) σ)
    (hH : H = ((msmNum c / ((c.xraw.length : ℝ) - c.nm) : ℝ) : ℂ) • invGram (designM c.nm c.B) -
          (pseudoNum c / (((c.xraw.length : ℝ) - c.nm : ℝ) : ℂ)) •
            (invGram (designM c.nm c.B)).submatrix (Equiv.refl _) σ)
    (su sv suv vc vs vcs : ℝ) (hsu : su = resMS c u) (hsv : sv = resMS c v) (hsuv : suv = resMP c u v)
    (hvc : vc = ∑ j, cosForm (designM c.nm c.B) i j ^ 2) (hvs : vs = ∑ j, sinForm (designM c.nm c.B) i j ^ 2)
    (hvcs : vcs = ∑ j, cosForm (designM c.nm c.B) i j * sinForm (designM c.nm c.B) i j) :
    mcCov !![G i i, G i (σ i); G (σ i) i, G (σ i) (σ i)] !![H i i, H i (σ i); H (σ i) i, H (σ i) (σ i)] =
      !![su * vc, su * vcs, suv * vc, suv * vcs;
         su * vcs, su * vs, suv * vcs, suv * vs;
         suv * vc, suv * vcs, sv * vc, sv * vcs;
         suv * vcs, suv * vs, sv * vcs, sv * vs] := by
  obtain ⟨v1, v2, v3, v4⟩ := vars_eq S hW hP hd i G H hG hH
  obtain ⟨m1, m2, m4⟩ := msm_eq S hW hP hd
  rw [hP.sum_cos_sin hd] at hvcs
  unfold mcCov
  dsimp only
  rw [v1, v2, v3, v4, ← hsu, ← hsv, ← hvc, ← hvs]
  clear v1 v2 v3 v4
  rw [hP.sum_cos hd] at hvc
  rw [hP.sum_sin hd] at hvs
  unfold resMS at hsu hsv
  unfold resMP at hsuv
  generalize (c.xraw.length : ℝ) - c.nm = d at *
  generalize ∑ j, gramRes (designM c.nm c.B) u j ^ 2 = a at *
  generalize ∑ j, gramRes (designM c.nm c.B) v j ^ 2 = b at *
  generalize ∑ j, gramRes (designM c.nm c.B) u j * gramRes (designM c.nm c.B) v j = r at *
  have k1 : invGram (designM c.nm c.B) (σ i) (σ i) = conj (invGram (designM c.nm c.B) i i) := hP.invGram i i
  have k2 : invGram (designM c.nm c.B) (σ i) i = conj (invGram (designM c.nm c.B) i (σ i)) := by
    have := hP.invGram i (σ i); rwa [hP.inv] at this
  have k3 : (invGram (designM c.nm c.B) i i).im = 0 := by
    have := invGram_conj (designM c.nm c.B) i i
    have := congrArg Complex.im this
    rw [Complex.conj_im] at this
    linarith
  have hre : ∀ z : ℂ, ∀ w : ℂ, (z / (d : ℂ) * w).re = (z.re * w.re - z.im * w.im) / d := by
    intro z w
    rw [div_mul_eq_mul_div, Complex.div_ofReal_re, Complex.mul_re]
  have him : ∀ z : ℂ, ∀ w : ℂ, (z / (d : ℂ) * w).im = (z.re * w.im + z.im * w.re) / d := by
    intro z w
    rw [div_mul_eq_mul_div, Complex.div_ofReal_im, Complex.mul_im]
  have e1 : ((H i i - H i (σ i) + H (σ i) i - H (σ i) (σ i)).im / 2) = su * vcs := by
    simp only [hH, Matrix.sub_apply, Matrix.smul_apply, submatrix_apply, Equiv.refl_apply, smul_eq_mul, hP.inv, k1, k2,
      Complex.add_im, Complex.sub_im, Complex.im_ofReal_mul, him, Complex.conj_re, Complex.conj_im, k3, m1, m2, m4, hsu, hvcs]
    ring
  have e2 : ((G i i - G i (σ i) + G (σ i) i - G (σ i) (σ i)).im / 2) = sv * vcs := by
    simp only [hG, Matrix.add_apply, Matrix.smul_apply, submatrix_apply, Equiv.refl_apply, smul_eq_mul, hP.inv, k1, k2,
      Complex.add_im, Complex.sub_im, Complex.im_ofReal_mul, him, Complex.conj_re, Complex.conj_im, k3, m1, m2, m4, hsv, hvcs]
    ring
  have e3 : ((-H i i - H i (σ i) - H (σ i) i - H (σ i) (σ i)).im / 2) = suv * vc := by
    simp only [hH, Matrix.sub_apply, Matrix.smul_apply, submatrix_apply, Equiv.refl_apply, smul_eq_mul, hP.inv, k1, k2,
      Complex.add_im, Complex.sub_im, Complex.neg_im, Complex.im_ofReal_mul, him, Complex.conj_re, Complex.conj_im, k3,
      m1, m2, m4, hsuv, hvc, Complex.add_re]
    ring
  have e4 : ((G i i - G (σ i) (σ i)).re / 2) = suv * vcs := by
    simp only [hG, Matrix.add_apply, Matrix.smul_apply, submatrix_apply, Equiv.refl_apply, smul_eq_mul, hP.inv, k1, k2,
      Complex.add_re, Complex.sub_re, Complex.re_ofReal_mul, hre, Complex.conj_re, Complex.conj_im, k3, m1, m2, m4, hsuv, hvcs]
    ring
  have e5 : ((-H i i + H (σ i) (σ i)).re / 2) = suv * vcs := by
    simp only [hH, Matrix.sub_apply, Matrix.smul_apply, submatrix_apply, Equiv.refl_apply, smul_eq_mul, hP.inv, k1, k2,
      Complex.add_re, Complex.sub_re, Complex.neg_re, Complex.re_ofReal_mul, hre, Complex.conj_re, Complex.conj_im, k3, m1, m2, m4, hsuv, hvcs]
    ring
  have e6 : ((-G i i + G i (σ i) + G (σ i) i - G (σ i) (σ i)).im / 2) = suv * vs := by
    simp only [hG, Matrix.add_apply, Matrix.smul_apply, submatrix_apply, Equiv.refl_apply, smul_eq_mul, hP.inv, k1, k2,
      Complex.add_im, Complex.sub_im, Complex.neg_im, Complex.im_ofReal_mul, him, Complex.conj_re, Complex.conj_im, k3,
      m1, m2, m4, hsuv, hvs, Complex.sub_re]
    ring
  simp only [Matrix.of_apply, Matrix.cons_val_zero, Matrix.cons_val_one, Matrix.cons_val', Matrix.cons_val_fin_one,
    e1, e2, e3, e4, e5, e6]

end

end UTide
