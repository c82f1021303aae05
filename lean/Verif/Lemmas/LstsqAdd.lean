import Verif.Lemmas.Lstsq

/-!
# Least squares: the solution as a linear function of the data
-/

namespace UTide

noncomputable section

local notation "conj" => starRingEnd ℂ

section
open scoped InnerProductSpace

variable {V W : Type} [NormedAddCommGroup V] [InnerProductSpace ℂ V] [FiniteDimensional ℂ V]
  [NormedAddCommGroup W] [InnerProductSpace ℂ W] [FiniteDimensional ℂ W]

/-- The residual is orthogonal to the range, the solution to the kernel. -/
structure NormalEq (A : V →ₗ[ℂ] W) (b : W) (m : V) : Prop where
  range : ∀ x, ⟪b - A m, A x⟫_ℂ = 0
  kernel : ∀ n, A n = 0 → ⟪m, n⟫_ℂ = 0

theorem exists_normalEq (A : V →ₗ[ℂ] W) (b : W) : ∃ m, NormalEq A b m := by
  classical
  set K := LinearMap.range A
  set N := LinearMap.ker A
  obtain ⟨m0, hm0⟩ : ∃ m0, A m0 = K.starProjection b :=
    LinearMap.mem_range.1 (Submodule.starProjection_apply_mem K b)
  have hN : A (N.starProjection m0) = 0 :=
    LinearMap.mem_ker.1 (Submodule.starProjection_apply_mem N m0)
  refine ⟨m0 - N.starProjection m0, fun x => ?_, fun n hn => ?_⟩
  · rw [map_sub, hN, sub_zero, hm0]
    exact Submodule.starProjection_inner_eq_zero b _ (LinearMap.mem_range_self A x)
  · exact Submodule.starProjection_inner_eq_zero m0 _ (LinearMap.mem_ker.2 hn)

theorem NormalEq.min {A : V →ₗ[ℂ] W} {b : W} {m : V} (h : NormalEq A b m) :
    (∀ m', ‖b - A m‖ ≤ ‖b - A m'‖) ∧ ∀ m', ‖b - A m'‖ = ‖b - A m‖ → ‖m‖ ≤ ‖m'‖ := by
  have key : ∀ m', ‖b - A m'‖ * ‖b - A m'‖ = ‖b - A m‖ * ‖b - A m‖ + ‖A (m - m')‖ * ‖A (m - m')‖ := by
    intro m'
    have := norm_add_sq_eq_norm_sq_add_norm_sq_of_inner_eq_zero _ _ (h.range (m - m'))
    rwa [map_sub, sub_add_sub_cancel, ← map_sub] at this
  constructor
  · intro m'
    have := key m'
    have := mul_self_nonneg ‖A (m - m')‖
    exact le_of_sq_le_sq (by nlinarith) (norm_nonneg _)
  · intro m' he
    have h1 := key m'
    rw [he] at h1
    have h2 : A (m - m') = 0 := norm_eq_zero.1 (mul_self_eq_zero.1 (by linarith))
    have h3 : ⟪m, m' - m⟫_ℂ = 0 := h.kernel _ (by rw [← neg_sub, map_neg, h2, neg_zero])
    have h7 := norm_add_sq_eq_norm_sq_add_norm_sq_of_inner_eq_zero _ _ h3
    rw [add_sub_cancel] at h7
    have := mul_self_nonneg ‖m' - m‖
    exact le_of_sq_le_sq (by nlinarith) (norm_nonneg _)

theorem NormalEq.add {A : V →ₗ[ℂ] W} {b b' : W} {m m' : V} (h : NormalEq A b m) (h' : NormalEq A b' m') :
    NormalEq A (b + b') (m + m') := by
  constructor
  · intro x
    rw [map_add, add_sub_add_comm, inner_add_left, h.range, h'.range, add_zero]
  · intro n hn
    rw [inner_add_left, h.kernel n hn, h'.kernel n hn, add_zero]

end

/-- A list of data as a vector. -/
def dataVec (n : ℕ) (b : List ℂ) (h : n = b.length) : EuclideanSpace ℂ (Fin n) :=
  WithLp.toLp 2 fun i => b[i]

theorem normalEq_minNorm {ncol : ℕ} {a : List (List ℂ)} {b : List ℂ} (hab : a.length = b.length)
    {f : EuclideanSpace ℂ (Fin ncol)} (h : NormalEq (rowsMap ncol a) (dataVec _ b hab) f) :
    IsMinNormSol ncol a b (List.ofFn fun j => f j) := by
  obtain ⟨h1, h2⟩ := h.min
  refine ⟨by simp, fun m' hm' => ?_, fun m' hm' he => ?_⟩
  · obtain ⟨f', rfl⟩ := list_eq_ofFn ncol m' hm'
    rw [cost_eq_norm _ _ _ hab, cost_eq_norm _ _ _ hab]
    exact pow_le_pow_left₀ (norm_nonneg _) (h1 f') 2
  · obtain ⟨f', rfl⟩ := list_eq_ofFn ncol m' hm'
    rw [cost_eq_norm _ _ _ hab, cost_eq_norm _ _ _ hab] at he
    rw [normSq_eq_norm, normSq_eq_norm]
    refine pow_le_pow_left₀ (norm_nonneg _) (h2 f' ?_) 2
    exact (pow_left_inj₀ (norm_nonneg _) (norm_nonneg _) (by norm_num)).1 he

theorem IsMinNormSol.normalEq {ncol : ℕ} {a : List (List ℂ)} {b m : List ℂ} (hab : a.length = b.length)
    (h : IsMinNormSol ncol a b m) :
    ∃ f, NormalEq (rowsMap ncol a) (dataVec _ b hab) f ∧ m = List.ofFn fun j => f j := by
  obtain ⟨f, hf⟩ := exists_normalEq (rowsMap ncol a) (dataVec _ b hab)
  exact ⟨f, hf, h.unique hab (normalEq_minNorm hab hf)⟩

/-- The sum of two records has the sum of the solutions. -/
theorem IsMinNormSol.add {ncol : ℕ} {a : List (List ℂ)} {b b' m m' : List ℂ} (hab : a.length = b.length)
    (hab' : a.length = b'.length) (h : IsMinNormSol ncol a b m) (h' : IsMinNormSol ncol a b' m') :
    IsMinNormSol ncol a (vadd b b') (vadd m m') := by
  obtain ⟨f, hf, rfl⟩ := h.normalEq hab
  obtain ⟨f', hf', rfl⟩ := h'.normalEq hab'
  have hl : a.length = (vadd b b').length := by simp [hab, ← hab']
  have := normalEq_minNorm hl (f := f + f') (by
    have e : dataVec _ (vadd b b') hl = dataVec _ b hab + dataVec _ b' hab' := by
      ext i
      simp [dataVec, vadd]
    rw [e]
    exact hf.add hf')
  rw [← ofFn_add]
  exact this

/-- The residual is orthogonal to every curve of the model. -/
theorem IsMinNormSol.orthogonal {ncol : ℕ} {a : List (List ℂ)} {b m : List ℂ} (hab : a.length = b.length)
    (h : IsMinNormSol ncol a b m) (x : List ℂ) (hx : x.length = ncol) :
    (List.zipWith (fun r y => conj (dot r x) * (y - dot r m)) a b).sum = 0 := by
  obtain ⟨f, hf, rfl⟩ := h.normalEq hab
  obtain ⟨g, rfl⟩ := list_eq_ofFn ncol x hx
  have h1 := hf.range g
  rw [← inner_conj_symm, map_eq_zero, PiLp.inner_apply, ← List.sum_ofFn] at h1
  rw [← h1]
  congr 1
  apply List.ext_getElem
  · simp [hab]
  · intro i h1 h2
    simp only [List.getElem_zipWith, List.getElem_ofFn, RCLike.inner_apply, PiLp.sub_apply]
    rw [mul_comm]
    simp [rowsMap, dataVec]

/-- A curve of the model gives back the coefficients that were fitted to the data. -/
theorem IsMinNormSol.idem {ncol : ℕ} {a : List (List ℂ)} {b m : List ℂ} (hab : a.length = b.length)
    (h : IsMinNormSol ncol a b m) : IsMinNormSol ncol a (a.map fun r => dot r m) m := by
  obtain ⟨f, hf, rfl⟩ := h.normalEq hab
  refine normalEq_minNorm (by simp) ⟨fun x => ?_, hf.kernel⟩
  have : dataVec a.length (a.map fun r => dot r (List.ofFn fun j => f j)) (by simp) = rowsMap ncol a f := by
    ext i
    simp [dataVec, rowsMap]
  rw [this, sub_self, inner_zero_left]

/-- What the fit leaves over has the zero solution. -/
theorem IsMinNormSol.residual {ncol : ℕ} {a : List (List ℂ)} {b m : List ℂ} (hab : a.length = b.length)
    (h : IsMinNormSol ncol a b m) :
    IsMinNormSol ncol a (List.zipWith (fun y r => y - dot r m) b a) (List.replicate ncol 0) := by
  obtain ⟨f, hf, rfl⟩ := h.normalEq hab
  have hl : a.length = (List.zipWith (fun y r => y - dot r (List.ofFn fun j => f j)) b a).length := by simp [hab]
  have := normalEq_minNorm (ncol := ncol) hl (f := 0) ⟨fun x => ?_, fun n _ => inner_zero_left n⟩
  · have e : (List.ofFn fun j : Fin ncol => (0 : EuclideanSpace ℂ (Fin ncol)) j) = List.replicate ncol 0 := by
      apply List.ext_getElem <;> simp
    rwa [e] at this
  · have e : dataVec a.length _ hl = dataVec _ b hab - rowsMap ncol a f := by
      ext i
      simp [dataVec, rowsMap]
    rw [map_zero, sub_zero, e]
    exact hf.range x

end

end UTide
