import Verif.Model.Num
import Mathlib.Analysis.InnerProductSpace.PiL2
import Mathlib.Analysis.InnerProductSpace.Projection.Basic
import Mathlib.Analysis.InnerProductSpace.Projection.FiniteDimensional

/-!
# Least squares on lists: uniqueness, transport, and existence of the contracts
-/

namespace UTide

noncomputable section

/-! ## Vectors as lists -/

def vadd (m m' : List ℂ) : List ℂ := List.zipWith (· + ·) m m'
def vscale (c : ℂ) (m : List ℂ) : List ℂ := m.map (c * ·)

@[simp] theorem vadd_length (m m' : List ℂ) : (vadd m m').length = min m.length m'.length := by
  simp [vadd]

@[simp] theorem vscale_length (c : ℂ) (m : List ℂ) : (vscale c m).length = m.length := by simp [vscale]

@[simp] theorem dot_nil_left (m : List ℂ) : dot [] m = 0 := by simp [dot]
@[simp] theorem dot_nil_right (r : List ℂ) : dot r [] = 0 := by simp [dot]
theorem dot_cons (x y : ℂ) (r m : List ℂ) : dot (x :: r) (y :: m) = x * y + dot r m := by simp [dot]

theorem dot_vadd (r m m' : List ℂ) (h : m.length = m'.length) : dot r (vadd m m') = dot r m + dot r m' := by
  induction r generalizing m m' with
  | nil => simp
  | cons x r ih =>
    cases m with
    | nil => cases m' with
      | nil => simp [vadd]
      | cons _ _ => simp at h
    | cons y m => cases m' with
      | nil => simp at h
      | cons z m' =>
        have := ih m m' (by simpa using h)
        unfold vadd at this ⊢
        rw [List.zipWith_cons_cons, dot_cons, dot_cons, dot_cons, this]
        ring

theorem dot_vscale (c : ℂ) (r m : List ℂ) : dot r (vscale c m) = c * dot r m := by
  induction r generalizing m with
  | nil => simp
  | cons x r ih =>
    cases m with
    | nil => simp [vscale]
    | cons y m =>
      have := ih m
      unfold vscale at this ⊢
      rw [List.map_cons, dot_cons, dot_cons, this]; ring

theorem dot_append (r r' m m' : List ℂ) (h : r.length = m.length) :
    dot (r ++ r') (m ++ m') = dot r m + dot r' m' := by
  unfold dot
  rw [List.zipWith_append h, List.sum_append]

theorem dot_map_conj (r m : List ℂ) :
    dot (r.map (starRingEnd ℂ)) (m.map (starRingEnd ℂ)) = (starRingEnd ℂ) (dot r m) := by
  induction r generalizing m with
  | nil => simp
  | cons x r ih =>
    cases m with
    | nil => simp
    | cons y m => rw [List.map_cons, List.map_cons, dot_cons, dot_cons, ih]; simp

/-! ## Uniqueness -/

theorem mid_identity (x p q : ℂ) :
    ‖x - (p + q) / 2‖ ^ 2 = (‖x - p‖ ^ 2 + ‖x - q‖ ^ 2) / 2 - ‖p - q‖ ^ 2 / 4 := by
  simp only [← Complex.normSq_eq_norm_sq, Complex.normSq_apply]
  simp
  ring

/-- The midpoint of two coefficient vectors. -/
def vmid (m m' : List ℂ) : List ℂ := vscale (1 / 2) (vadd m m')

theorem dot_vmid (r m m' : List ℂ) (h : m.length = m'.length) :
    dot r (vmid m m') = (dot r m + dot r m') / 2 := by
  unfold vmid
  rw [dot_vscale, dot_vadd r m m' h]; ring

theorem vmid_length (m m' : List ℂ) (h : m.length = m'.length) : (vmid m m').length = m.length := by
  simp [vmid, h]

theorem cost_nil_left (b m : List ℂ) : cost [] b m = 0 := by simp [cost]
theorem cost_nil_right (a : List (List ℂ)) (m : List ℂ) : cost a [] m = 0 := by simp [cost]
theorem cost_cons (r : List ℂ) (a : List (List ℂ)) (x : ℂ) (b m : List ℂ) :
    cost (r :: a) (x :: b) m = ‖x - dot r m‖ ^ 2 + cost a b m := by simp [cost]

theorem cost_nonneg (a : List (List ℂ)) (b m : List ℂ) : 0 ≤ cost a b m := by
  induction a generalizing b with
  | nil => simp [cost]
  | cons r a ih =>
    cases b with
    | nil => simp [cost]
    | cons x b => rw [cost_cons]; have := ih b; positivity

theorem cost_mid (a : List (List ℂ)) (b m m' : List ℂ) (h : m.length = m'.length) (hab : a.length = b.length) :
    cost a b (vmid m m') = (cost a b m + cost a b m') / 2 -
      (a.map fun r => ‖dot r m - dot r m'‖ ^ 2).sum / 4 := by
  induction a generalizing b with
  | nil => simp [cost]
  | cons r a ih =>
    cases b with
    | nil => simp at hab
    | cons x b =>
      rw [cost_cons, cost_cons, cost_cons, ih b (by simpa using hab), dot_vmid r m m' h, mid_identity]
      simp only [List.map_cons, List.sum_cons]
      ring

theorem sum_sq_nonpos {ι : Type} (l : List ι) (f : ι → ℂ) (h : (l.map fun i => ‖f i‖ ^ 2).sum ≤ 0) :
    ∀ i ∈ l, f i = 0 := by
  induction l with
  | nil => simp
  | cons a l ih =>
    simp only [List.map_cons, List.sum_cons] at h
    have h1 : 0 ≤ (l.map fun i => ‖f i‖ ^ 2).sum := List.sum_nonneg (by
      intro x hx
      simp only [List.mem_map] at hx
      obtain ⟨i, -, rfl⟩ := hx
      positivity)
    have h2 : 0 ≤ ‖f a‖ ^ 2 := by positivity
    intro i hi
    simp only [List.mem_cons] at hi
    rcases hi with rfl | hi
    · have : ‖f i‖ ^ 2 = 0 := by linarith
      simpa using this
    · exact ih (by linarith) i hi

/-- Two least-squares solutions give the same fit. -/
theorem fits_unique (ncol : ℕ) (a : List (List ℂ)) (b m m' : List ℂ) (hab : a.length = b.length)
    (hm : m.length = ncol) (hm' : m'.length = ncol)
    (h : ∀ x, x.length = ncol → cost a b m ≤ cost a b x) (h' : ∀ x, x.length = ncol → cost a b m' ≤ cost a b x) :
    ∀ r ∈ a, dot r m = dot r m' := by
  have hlen : m.length = m'.length := by omega
  have h1 := h (vmid m m') (by rw [vmid_length m m' hlen, hm])
  have h2 := h' (vmid m m') (by rw [vmid_length m m' hlen, hm])
  rw [cost_mid a b m m' hlen hab] at h1 h2
  intro r hr
  have := sum_sq_nonpos a (fun r => dot r m - dot r m') (by linarith) r hr
  simpa [sub_eq_zero] using this

theorem cost_congr (a : List (List ℂ)) (b m m' : List ℂ) (h : ∀ r ∈ a, dot r m = dot r m') :
    cost a b m = cost a b m' := by
  induction a generalizing b with
  | nil => simp [cost]
  | cons r a ih =>
    cases b with
    | nil => simp [cost]
    | cons x b =>
      rw [cost_cons, cost_cons, ih b (fun r hr => h r (by simp [hr])), h r (by simp)]

theorem normSq_cons (x : ℂ) (m : List ℂ) : normSq (x :: m) = ‖x‖ ^ 2 + normSq m := by simp [normSq]

theorem normSq_mid (m m' : List ℂ) (h : m.length = m'.length) :
    normSq (vmid m m') = (normSq m + normSq m') / 2 -
      (List.zipWith (fun x y => ‖x - y‖ ^ 2) m m').sum / 4 := by
  induction m generalizing m' with
  | nil => cases m' with
    | nil => simp [normSq, vmid, vadd, vscale]
    | cons _ _ => simp at h
  | cons x m ih =>
    cases m' with
    | nil => simp at h
    | cons y m' =>
      have := ih m' (by simpa using h)
      have hv : vmid (x :: m) (y :: m') = (x + y) / 2 :: vmid m m' := by
        simp [vmid, vadd, vscale]; ring
      rw [hv, normSq_cons, normSq_cons, normSq_cons, this, List.zipWith_cons_cons, List.sum_cons]
      have := mid_identity 0 x y
      simp only [zero_sub, norm_neg] at this
      rw [this]; ring

theorem zipWith_sq_nonpos (m m' : List ℂ) (h : m.length = m'.length)
    (hs : (List.zipWith (fun x y => ‖x - y‖ ^ 2) m m').sum ≤ 0) : m = m' := by
  induction m generalizing m' with
  | nil => cases m' with
    | nil => rfl
    | cons _ _ => simp at h
  | cons x m ih =>
    cases m' with
    | nil => simp at h
    | cons y m' =>
      rw [List.zipWith_cons_cons, List.sum_cons] at hs
      have h1 : 0 ≤ (List.zipWith (fun x y : ℂ => ‖x - y‖ ^ 2) m m').sum := List.sum_nonneg (by
        intro z hz
        rw [← List.map_uncurry_zip_eq_zipWith] at hz
        simp only [List.mem_map] at hz
        obtain ⟨i, -, rfl⟩ := hz
        simp [Function.uncurry])
      have h2 : 0 ≤ ‖x - y‖ ^ 2 := by positivity
      have h3 : ‖x - y‖ ^ 2 = 0 := by linarith
      rw [ih m' (by simpa using h) (by linarith), show x = y by simpa [sub_eq_zero] using h3]

/-- The minimum-norm least-squares solution is unique. -/
theorem IsMinNormSol.unique {ncol : ℕ} {a : List (List ℂ)} {b m m' : List ℂ} (hab : a.length = b.length)
    (h : IsMinNormSol ncol a b m) (h' : IsMinNormSol ncol a b m') : m = m' := by
  have hlen : m.length = m'.length := by rw [h.length, h'.length]
  have hf := fits_unique ncol a b m m' hab h.length h'.length h.optimal h'.optimal
  have hc := cost_congr a b m m' hf
  have hmid : cost a b (vmid m m') = cost a b m := cost_congr a b _ _ (by
    intro r hr
    rw [dot_vmid r m m' hlen, ← hf r hr]; ring)
  have hl : (vmid m m').length = ncol := by rw [vmid_length m m' hlen, h.length]
  have h1 := h.minimal _ hl hmid
  have h2 := h'.minimal _ hl (by rw [hmid, hc])
  rw [normSq_mid m m' hlen] at h1 h2
  exact zipWith_sq_nonpos m m' hlen (by linarith)

/-- With independent columns every least-squares solution is the minimum-norm one. -/
theorem optimal_unique (ncol : ℕ) (a : List (List ℂ)) (b m m' : List ℂ) (hab : a.length = b.length)
    (hi : IndepColumns ncol a) (hm : m.length = ncol) (hm' : m'.length = ncol)
    (h : ∀ x, x.length = ncol → cost a b m ≤ cost a b x) (h' : ∀ x, x.length = ncol → cost a b m' ≤ cost a b x) :
    m = m' := by
  have hlen : m.length = m'.length := by omega
  have hf := fits_unique ncol a b m m' hab hm hm' h h'
  have hz := hi (vadd m (vscale (-1) m')) (by simp [hm, hm']) (by
    intro r hr
    rw [dot_vadd _ _ _ (by simp [hlen]), dot_vscale, hf r hr]; ring)
  clear hf h h' hi hab hm hm'
  induction m generalizing m' with
  | nil => cases m' with
    | nil => rfl
    | cons _ _ => simp at hlen
  | cons x m ih =>
    cases m' with
    | nil => simp at hlen
    | cons y m' =>
      have e : vadd (x :: m) (vscale (-1) (y :: m')) = (x + -1 * y) :: vadd m (vscale (-1) m') := rfl
      rw [e] at hz
      have h1 := hz _ (by simp : (x + -1 * y) ∈ _)
      rw [ih m' (by simpa using hlen) (fun z hz' => hz z (by simp [hz']))]
      rw [show x = y by linear_combination h1]

/-! ## Transport of problems -/

/-- Scaling the data scales the residuals. -/
theorem cost_scale (c : ℂ) (a : List (List ℂ)) (b m : List ℂ) :
    cost a (vscale c b) (vscale c m) = ‖c‖ ^ 2 * cost a b m := by
  induction a generalizing b with
  | nil => simp [cost]
  | cons r a ih =>
    cases b with
    | nil => simp [cost, vscale]
    | cons x b =>
      rw [show vscale c (x :: b) = (c * x) :: vscale c b from rfl, cost_cons, cost_cons, ih b, dot_vscale,
        show c * x - c * dot r m = c * (x - dot r m) by ring, norm_mul]
      ring

theorem normSq_scale (c : ℂ) (m : List ℂ) : normSq (vscale c m) = ‖c‖ ^ 2 * normSq m := by
  induction m with
  | nil => simp [normSq, vscale]
  | cons x m ih =>
    rw [show vscale c (x :: m) = (c * x) :: vscale c m from rfl, normSq_cons, normSq_cons, ih, norm_mul]
    ring

theorem vscale_vscale (c d : ℂ) (m : List ℂ) : vscale c (vscale d m) = vscale (c * d) m := by
  simp [vscale, mul_assoc]

theorem vscale_one (m : List ℂ) : vscale 1 m = m := by simp [vscale]

/-- A non-zero factor on the data is the same factor on the solution. -/
theorem IsMinNormSol.scale {ncol : ℕ} {a : List (List ℂ)} {b m : List ℂ} (c : ℂ) (hc : c ≠ 0)
    (h : IsMinNormSol ncol a b m) : IsMinNormSol ncol a (vscale c b) (vscale c m) := by
  have key : ∀ m' : List ℂ, m' = vscale c (vscale c⁻¹ m') := by
    intro m'; rw [vscale_vscale, mul_inv_cancel₀ hc, vscale_one]
  have hpos : 0 < ‖c‖ ^ 2 := by positivity
  refine ⟨by simp [h.length], fun m' hm' => ?_, fun m' hm' he => ?_⟩
  · rw [key m', cost_scale, cost_scale]
    exact mul_le_mul_of_nonneg_left (h.optimal _ (by simpa using hm')) hpos.le
  · rw [key m', cost_scale, cost_scale] at he
    have := mul_left_cancel₀ hpos.ne' he
    rw [key m', normSq_scale, normSq_scale]
    exact mul_le_mul_of_nonneg_left (h.minimal _ (by simpa using hm') this) hpos.le

/-- Adding a curve of the model to the data. -/
theorem cost_shift (a : List (List ℂ)) (b m d : List ℂ) (h : m.length = d.length) (hab : a.length = b.length) :
    cost a (vadd b (a.map fun r => dot r d)) (vadd m d) = cost a b m := by
  induction a generalizing b with
  | nil => simp [cost]
  | cons r a ih =>
    cases b with
    | nil => simp at hab
    | cons x b =>
      rw [List.map_cons, show vadd (x :: b) (dot r d :: a.map fun r => dot r d) =
        (x + dot r d) :: vadd b (a.map fun r => dot r d) from rfl, cost_cons, cost_cons,
        ih b (by simpa using hab), dot_vadd r m d h]
      congr 3; ring

/-! ## Existence -/

section Existence

open scoped InnerProductSpace

variable {V W : Type} [NormedAddCommGroup V] [InnerProductSpace ℂ V] [FiniteDimensional ℂ V]
  [NormedAddCommGroup W] [InnerProductSpace ℂ W] [FiniteDimensional ℂ W]

theorem proj_min (K : Submodule ℂ W) (b w : W) (hw : w ∈ K) :
    ‖b - K.starProjection b‖ ≤ ‖b - w‖ := by
  have h1 : ⟪b - K.starProjection b, K.starProjection b - w⟫_ℂ = 0 :=
    Submodule.starProjection_inner_eq_zero b _ (K.sub_mem (Submodule.starProjection_apply_mem K b) hw)
  have h2 := norm_add_sq_eq_norm_sq_add_norm_sq_of_inner_eq_zero _ _ h1
  rw [sub_add_sub_cancel] at h2
  have := mul_self_nonneg ‖K.starProjection b - w‖
  exact le_of_sq_le_sq (by nlinarith) (norm_nonneg _)

theorem exists_minNorm (A : V →ₗ[ℂ] W) (b : W) :
    ∃ m, (∀ m', ‖b - A m‖ ≤ ‖b - A m'‖) ∧ ∀ m', ‖b - A m'‖ = ‖b - A m‖ → ‖m‖ ≤ ‖m'‖ := by
  classical
  set K := LinearMap.range A
  set N := LinearMap.ker A
  obtain ⟨m0, hm0⟩ : ∃ m0, A m0 = K.starProjection b := by
    exact LinearMap.mem_range.1 (Submodule.starProjection_apply_mem K b)
  set m := m0 - N.starProjection m0
  have hN : A (N.starProjection m0) = 0 := by
    exact LinearMap.mem_ker.1 (Submodule.starProjection_apply_mem N m0)
  have hm : A m = K.starProjection b := by simp [m, hN, hm0]
  refine ⟨m, fun m' => ?_, fun m' he => ?_⟩
  · rw [hm]
    exact proj_min K b _ (LinearMap.mem_range_self A m')
  · rw [hm] at he
    have h1 : ⟪b - K.starProjection b, K.starProjection b - A m'⟫_ℂ = 0 :=
      Submodule.starProjection_inner_eq_zero b _
        (K.sub_mem (Submodule.starProjection_apply_mem K b) (LinearMap.mem_range_self A m'))
    have h2 := norm_add_sq_eq_norm_sq_add_norm_sq_of_inner_eq_zero _ _ h1
    rw [sub_add_sub_cancel, he] at h2
    have h3 : ‖K.starProjection b - A m'‖ = 0 := by
      have := mul_self_eq_zero.1 (by linarith : ‖K.starProjection b - A m'‖ * ‖K.starProjection b - A m'‖ = 0)
      exact this
    have h4 : A m' = A m := by rw [hm]; exact (sub_eq_zero.1 (norm_eq_zero.1 h3)).symm
    have h5 : m' - m ∈ N := by simp [N, h4]
    have h6 : ⟪m, m' - m⟫_ℂ = 0 := Submodule.starProjection_inner_eq_zero m0 _ h5
    have h7 := norm_add_sq_eq_norm_sq_add_norm_sq_of_inner_eq_zero _ _ h6
    rw [add_sub_cancel] at h7
    have := mul_self_nonneg ‖m' - m‖
    exact le_of_sq_le_sq (by nlinarith) (norm_nonneg _)

end Existence

theorem ofFn_add (n : ℕ) (f g : Fin n → ℂ) : List.ofFn (fun i => f i + g i) = vadd (List.ofFn f) (List.ofFn g) := by
  apply List.ext_getElem <;> simp [vadd]

theorem ofFn_smul (n : ℕ) (c : ℂ) (f : Fin n → ℂ) : List.ofFn (fun i => c * f i) = vscale c (List.ofFn f) := by
  apply List.ext_getElem <;> simp [vscale]

/-- The linear map of the rows `a`. -/
def rowsMap (ncol : ℕ) (a : List (List ℂ)) : EuclideanSpace ℂ (Fin ncol) →ₗ[ℂ] EuclideanSpace ℂ (Fin a.length) where
  toFun f := WithLp.toLp 2 fun i => dot (a.get i) (List.ofFn fun j => f j)
  map_add' f g := by
    ext i
    have := ofFn_add ncol (fun j => f j) (fun j => g j)
    simp only [PiLp.add_apply]
    rw [this, dot_vadd _ _ _ (by simp)]
  map_smul' c f := by
    ext i
    have := ofFn_smul ncol c (fun j => f j)
    simp only [PiLp.smul_apply, smul_eq_mul, RingHom.id_apply]
    rw [this, dot_vscale]

theorem cost_eq_norm (ncol : ℕ) (a : List (List ℂ)) (b : List ℂ) (hab : a.length = b.length)
    (f : EuclideanSpace ℂ (Fin ncol)) :
    cost a b (List.ofFn fun j => f j) =
      ‖(WithLp.toLp 2 fun i : Fin a.length => b[i]) - rowsMap ncol a f‖ ^ 2 := by
  rw [EuclideanSpace.norm_sq_eq]
  unfold cost
  rw [← List.sum_ofFn]
  congr 1
  apply List.ext_getElem
  · simp [hab]
  · intro i h1 h2
    simp [rowsMap]

theorem normSq_eq_norm (ncol : ℕ) (f : EuclideanSpace ℂ (Fin ncol)) :
    normSq (List.ofFn fun j => f j) = ‖f‖ ^ 2 := by
  rw [EuclideanSpace.norm_sq_eq, ← List.sum_ofFn]
  unfold normSq
  congr 1
  apply List.ext_getElem <;> simp

theorem list_eq_ofFn (n : ℕ) (m : List ℂ) (h : m.length = n) :
    ∃ f : EuclideanSpace ℂ (Fin n), m = List.ofFn fun j => f j := by
  subst h
  exact ⟨WithLp.toLp 2 fun j => m[j], by apply List.ext_getElem <;> simp⟩

/-- Every least-squares problem has a minimum-norm solution. -/
theorem exists_isMinNormSol (ncol : ℕ) (a : List (List ℂ)) (b : List ℂ) (hab : a.length = b.length) :
    ∃ m, IsMinNormSol ncol a b m := by
  obtain ⟨f, h1, h2⟩ := exists_minNorm (rowsMap ncol a) (WithLp.toLp 2 fun i : Fin a.length => b[i])
  refine ⟨List.ofFn fun j => f j, by simp, fun m' hm' => ?_, fun m' hm' he => ?_⟩
  · obtain ⟨f', rfl⟩ := list_eq_ofFn ncol m' hm'
    rw [cost_eq_norm _ _ _ hab, cost_eq_norm _ _ _ hab]
    exact pow_le_pow_left₀ (norm_nonneg _) (h1 f') 2
  · obtain ⟨f', rfl⟩ := list_eq_ofFn ncol m' hm'
    rw [cost_eq_norm _ _ _ hab, cost_eq_norm _ _ _ hab] at he
    rw [normSq_eq_norm, normSq_eq_norm]
    refine pow_le_pow_left₀ (norm_nonneg _) (h2 f' ?_) 2
    exact (pow_left_inj₀ (norm_nonneg _) (norm_nonneg _) (by norm_num)).1 he

open Classical in
/-- A least-squares routine as the contract asks for. -/
def idealLstsq (_ : Option ℚ) (ncol : ℕ) (a : List (List ℂ)) (b : List ℂ) : Lstsq :=
  let m := if h : a.length = b.length then (exists_isMinNormSol ncol a b h).choose else []
  { b := m, resid := if IndepColumns ncol a ∧ ncol < a.length then some (cost a b m) else none,
    rank := 0, sing := [] }

open Classical in
/-- The contract of `lstsq` can be met. -/
theorem idealLstsq_ok : LstsqOk idealLstsq := by
  intro rcond ncol a b _ hab
  have hb : (idealLstsq rcond ncol a b).b = (exists_isMinNormSol ncol a b hab).choose := by
    unfold idealLstsq; simp only [hab, dif_pos]
  have hr : (idealLstsq rcond ncol a b).resid = if IndepColumns ncol a ∧ ncol < a.length then
      some (cost a b (idealLstsq rcond ncol a b).b) else none := rfl
  have hmin : IsMinNormSol ncol a b (idealLstsq rcond ncol a b).b := by
    rw [hb]; exact (exists_isMinNormSol ncol a b hab).choose_spec
  refine ⟨hmin.length, fun _ => ⟨hmin, fun s hs => ?_, ?_⟩⟩
  · rw [hr] at hs
    split at hs
    · exact (Option.some.inj hs).symm
    · simp at hs
  · rw [hr]
    split <;> simp_all

/-! ## Sorting -/

theorem Fl.sortLE_total (a b : Fl) : Fl.sortLE a b ∨ Fl.sortLE b a := by
  cases a <;> cases b <;> simp [Fl.sortLE, LE.le, Fl.le]
  next x y => exact le_total x y

theorem Fl.sortLE_trans (a b c : Fl) (h : Fl.sortLE a b) (h' : Fl.sortLE b c) : Fl.sortLE a c := by
  cases a <;> cases b <;> cases c <;> simp_all [Fl.sortLE, LE.le, Fl.le]
  next x y z => exact le_trans (show x ≤ y from h) (show y ≤ z from h')

open Classical in
/-- A sorting routine as the contract asks for. -/
def idealArgsort (l : List Fl) : List ℕ :=
  (List.range l.length).mergeSort fun i j => decide (Fl.sortLE (l.getD i .nan) (l.getD j .nan))

theorem idealArgsort_ok : ArgsortOk idealArgsort := by
  classical
  intro l
  unfold idealArgsort
  have hperm := List.mergeSort_perm (List.range l.length)
    (fun i j => decide (Fl.sortLE (l.getD i .nan) (l.getD j .nan)))
  refine ⟨hperm, ?_⟩
  have hs := List.pairwise_mergeSort (le := fun i j => decide (Fl.sortLE (l.getD i .nan) (l.getD j .nan)))
    (fun a b c h1 h2 => by
      simp only [decide_eq_true_eq] at *
      exact Fl.sortLE_trans _ _ _ h1 h2)
    (fun a b => by
      simp only [Bool.or_eq_true, decide_eq_true_eq]
      exact Fl.sortLE_total _ _) (List.range l.length)
  rw [List.pairwise_filterMap]
  refine hs.imp ?_
  intro i j h x hx y hy
  simp only [decide_eq_true_eq] at h
  simp only [List.getD_eq_getElem?_getD, hx, hy, Option.getD_some] at h
  exact h

end

end UTide
