import Verif.Model.EllipseCall
import Verif.Props.EllipseProps

/-!
# Ways of calling `ut_cs2cep`: C144
-/

namespace UTide.Props

noncomputable section

open Complex (I)

/-! ## Specification -/

/-- The parameters describe the oscillation `Xu cos φ + Yu sin φ`. -/
structure DescribesHeight (Xu Yu : ℝ) (e : Ell) : Prop where
  curve : ∀ φ, uAt Xu Yu φ = e.Lsmaj * Real.cos ((φ - e.g) * Real.pi / 180)
  amplitude : 0 ≤ e.Lsmaj
  phase : 0 ≤ e.g ∧ e.g < 360
  others : e.Lsmin = 0 ∧ e.theta = 0

/-- The parameters describe the hodograph of `(Xu cos φ + Yu sin φ, Xv cos φ + Yv sin φ)`: an ellipse with these axes, turned
by `theta`, passed from the end of the major axis at `φ = g`. -/
structure DescribesCurrent (Xu Yu Xv Yv : ℝ) (e : Ell) : Prop where
  curve : ∀ φ, current Xu Yu Xv Yv φ = ⟨Real.cos (e.theta * Real.pi / 180), Real.sin (e.theta * Real.pi / 180)⟩ *
    ⟨e.Lsmaj * Real.cos ((φ - e.g) * Real.pi / 180), e.Lsmin * Real.sin ((φ - e.g) * Real.pi / 180)⟩
  axes : |e.Lsmin| ≤ e.Lsmaj
  inclination : 0 ≤ e.theta ∧ e.theta < 180
  phase : 0 ≤ e.g ∧ e.g < 360

/-! ## Lemmas -/

theorem cs2cep1_describes (Xu Yu : ℝ) : DescribesHeight Xu Yu (cs2cep1 Xu Yu) := by
  obtain ⟨h1, h2, h3, -⟩ := C09_cs2cep_ranges Xu Yu 0 0
  exact ⟨C10_scalar Xu Yu, h1, ⟨h2, h3⟩, rfl, rfl⟩

theorem cs2cep2_describes (Xu Yu Xv Yv : ℝ) : DescribesCurrent Xu Yu Xv Yv (cs2cep2 Xu Yu Xv Yv) := by
  obtain ⟨-, -, -, h4, h5, h6, h7, h8⟩ := C09_cs2cep_ranges Xu Yu Xv Yv
  refine ⟨fun φ => ?_, h4, ⟨h5, h6⟩, h7, h8⟩
  have hp := recAp2_ell2 (rotP Xu Yu Xv Yv) (rotM Xu Yu Xv Yv)
  have hm := recAm2_ell2 (rotP Xu Yu Xv Yv) (rotM Xu Yu Xv Yv)
  rw [← cs2cep2_ell2, recAp2_cisd] at hp
  rw [← cs2cep2_ell2, recAm2_cisd] at hm
  rw [current_rot, ← hp, ← hm]
  generalize cs2cep2 Xu Yu Xv Yv = e
  rw [mul_assoc, mul_assoc, ← cisd_add, ← cisd_add, show e.theta - e.g + φ = e.theta + (φ - e.g) by ring,
    show e.theta + e.g + -φ = e.theta + -(φ - e.g) by ring, cisd_add, cisd_add, ← conj_cisd (φ - e.g), cisd_eq, cisd_eq]
  generalize Real.cos (e.theta * Real.pi / 180) = c
  generalize Real.sin (e.theta * Real.pi / 180) = s
  generalize Real.cos ((φ - e.g) * Real.pi / 180) = x
  generalize Real.sin ((φ - e.g) * Real.pi / 180) = y
  apply Complex.ext <;> simp <;> ring

/-! ## C144 -/

/-- **C144, elevation**: two arrays, or one array with two columns. -/
theorem C144_height (Xu Yu : List ℝ) (h : Yu.length = Xu.length) (Yv : Option (List ℝ)) :
    ∃ es, utCs2cep (.vec Xu) (some Yu) none Yv = .ok es ∧ es.length = Xu.length ∧
      (∀ (i : ℕ) (x y : ℝ), Xu[i]? = some x → Yu[i]? = some y → ∃ e, es[i]? = some e ∧ DescribesHeight x y e) ∧
      utCs2cep (.table 2 (List.zipWith (fun x y => [x, y]) Xu Yu)) none none Yv = .ok es := by
  have e1 : column 0 (List.zipWith (fun x y => [x, y]) Xu Yu) = Xu := by
    apply List.ext_getElem
    · simp [column, h]
    · intro i _ _; simp [column]
  have e2 : column 1 (List.zipWith (fun x y => [x, y]) Xu Yu) = Yu := by
    apply List.ext_getElem
    · simp [column, h]
    · intro i _ _; simp [column]
  refine ⟨List.zipWith (fun x y => cs2cep1 x y) Xu Yu, ?_, by simp [h], fun i x y hx hy => ⟨_, ?_, cs2cep1_describes x y⟩, ?_⟩
  · simp [utCs2cep, cepColumns, h, bind, Except.bind, pure, Except.pure]
  · rw [List.getElem?_zipWith, hx, hy]
  · simp [utCs2cep, cepColumns, e1, e2, h, bind, Except.bind, pure, Except.pure]

/-- **C144, currents**: four arrays, or one array with four columns (whatever is given for `Xv` and `Yv`). -/
theorem C144_current (Xu Yu Xv Yv : List ℝ) (h1 : Yu.length = Xu.length) (h2 : Xv.length = Xu.length)
    (h3 : Yv.length = Xu.length) (a b : Option (List ℝ)) :
    ∃ es, utCs2cep (.vec Xu) (some Yu) (some Xv) (some Yv) = .ok es ∧ es.length = Xu.length ∧
      (∀ (i : ℕ) (x y p q : ℝ), Xu[i]? = some x → Yu[i]? = some y → Xv[i]? = some p → Yv[i]? = some q →
        ∃ e, es[i]? = some e ∧ DescribesCurrent x y p q e) ∧
      utCs2cep (.table 4 ((List.range Xu.length).map fun i => [Xu.getD i 0, Yu.getD i 0, Xv.getD i 0, Yv.getD i 0])) none a b =
        .ok es := by
  have col : ∀ (k : ℕ) (l : List ℝ), l.length = Xu.length →
      (∀ i, ([Xu.getD i 0, Yu.getD i 0, Xv.getD i 0, Yv.getD i 0] : List ℝ).getD k 0 = l.getD i 0) →
      column k ((List.range Xu.length).map fun i => [Xu.getD i 0, Yu.getD i 0, Xv.getD i 0, Yv.getD i 0]) = l := by
    intro k l hl hk
    unfold column
    rw [List.map_map]
    apply List.ext_getElem
    · simp [hl]
    · intro i hi hi'
      rw [List.getElem_map, Function.comp_apply, hk, List.getElem_range, List.getD_eq_getElem?_getD,
        List.getElem?_eq_getElem hi', Option.getD_some]
  have c0 := col 0 Xu rfl fun i => rfl
  have c1 := col 1 Yu h1 fun i => rfl
  have c2 := col 2 Xv h2 fun i => rfl
  have c3 := col 3 Yv h3 fun i => rfl
  refine ⟨(List.zip Xu (List.zip Yu (List.zip Xv Yv))).map fun q => cs2cep2 q.1 q.2.1 q.2.2.1 q.2.2.2, ?_,
    by simp [h1, h2, h3], fun i x y p q hx hy hp hq => ⟨_, ?_, cs2cep2_describes x y p q⟩, ?_⟩
  · simp [utCs2cep, cepColumns, h1, h2, h3, bind, Except.bind, pure, Except.pure]
  · have hz : (List.zip Xu (List.zip Yu (List.zip Xv Yv)))[i]? = some (x, y, p, q) :=
      List.getElem?_zip_eq_some.2 ⟨hx, List.getElem?_zip_eq_some.2 ⟨hy, List.getElem?_zip_eq_some.2 ⟨hp, hq⟩⟩⟩
    rw [List.getElem?_map, hz]
    rfl
  · simp only [utCs2cep, cepColumns, c0, c1, c2, c3]
    simp [h1, h2, h3, bind, Except.bind, pure, Except.pure]

/-- **C144, refused**: other numbers of columns, a single array with one axis, `Xv` without `Yv`. -/
theorem C144_refused (n : ℕ) (rows : List (List ℝ)) (Xu Yu Xv : List ℝ) (a b : Option (List ℝ)) :
    (n ≠ 2 → n ≠ 4 → utCs2cep (.table n rows) none a b = .error .valueError) ∧
    (utCs2cep (.vec Xu) none a b = .error (if Xu.length = 2 ∨ Xu.length = 4 then .indexError else .valueError)) ∧
    utCs2cep (.vec Xu) (some Yu) (some Xv) none = .error .typeError := by
  refine ⟨fun h2 h4 => ?_, ?_, ?_⟩
  · simp [utCs2cep, cepColumns, h2, h4, bind, Except.bind]
  · unfold utCs2cep cepColumns
    by_cases h : Xu.length = 2 ∨ Xu.length = 4
    · simp [h, bind, Except.bind]
    · simp [h, bind, Except.bind]
  · rfl

/-- The parameters are determined by the oscillation, unless it vanishes. -/
theorem C144_determined (Xu Yu : ℝ) (e e' : Ell) (h : DescribesHeight Xu Yu e) (h' : DescribesHeight Xu Yu e') :
    e.Lsmaj = e'.Lsmaj ∧ (0 < e.Lsmaj → e = e') := by
  have k1 : e.Lsmaj = e'.Lsmaj * Real.cos ((e.g - e'.g) * Real.pi / 180) := by
    rw [← h'.curve, h.curve, sub_self, zero_mul, zero_div, Real.cos_zero, mul_one]
  have k2 : e'.Lsmaj = e.Lsmaj * Real.cos ((e'.g - e.g) * Real.pi / 180) := by
    rw [← h.curve, h'.curve, sub_self, zero_mul, zero_div, Real.cos_zero, mul_one]
  have hA : e.Lsmaj = e'.Lsmaj := le_antisymm
    (by rw [k1]; exact mul_le_of_le_one_right h'.amplitude (Real.cos_le_one _))
    (by rw [k2]; exact mul_le_of_le_one_right h.amplitude (Real.cos_le_one _))
  refine ⟨hA, fun h0 => ?_⟩
  have hc : Real.cos ((e.g - e'.g) * Real.pi / 180) = 1 := by
    rw [← hA] at k1
    exact (mul_right_eq_self₀.1 k1.symm).resolve_right h0.ne'
  obtain ⟨n, hn⟩ := (Real.cos_eq_one_iff _).1 hc
  have hn' : e.g - e'.g = 360 * n := by
    have hpi := Real.pi_ne_zero
    field_simp at hn
    linarith
  obtain ⟨a1, a2⟩ := h.phase
  obtain ⟨b1, b2⟩ := h'.phase
  have hn0 : n = 0 := by
    have u1 : (n : ℝ) < 1 := by linarith
    have u2 : (-1 : ℝ) < n := by linarith
    have u1' : n < 1 := by exact_mod_cast u1
    have u2' : -1 < n := by exact_mod_cast u2
    omega
  have hg : e.g = e'.g := by rw [hn0] at hn'; push_cast at hn'; linarith
  obtain ⟨o1, o2⟩ := h.others
  obtain ⟨o3, o4⟩ := h'.others
  cases e; cases e'
  simp only at hA hg o1 o2 o3 o4
  subst hA hg o1 o2 o3 o4
  rfl

/-- **C144, samples**: the calls of the Monte-Carlo code, one row per sample, give what `monteCarlo1` and `monteCarlo2` use. -/
theorem C144_samples (r2 : List (Fin 2 → ℝ)) (r4 : List (Fin 4 → ℝ)) :
    utCs2cep (.table 2 (r2.map List.ofFn)) none none none = .ok (r2.map fun r => cs2cep1 (r 0) (r 1)) ∧
    utCs2cep (.table 4 (r4.map List.ofFn)) none none none = .ok (r4.map fun r => cs2cep2 (r 0) (r 1) (r 2) (r 3)) := by
  constructor
  · simp [utCs2cep, cepColumns, column, bind, Except.bind, pure, Except.pure, List.zipWith_map, List.zipWith_self,
      Function.comp_def]
  · simp [utCs2cep, cepColumns, column, bind, Except.bind, pure, Except.pure, Function.comp_def, List.zip_map',
      List.ofFn_succ]

/-! ## Non-vacuity -/

example : ∃ es, utCs2cep (.table 2 [[3, 4], [0, 1], [2, 2]]) none none none = .ok es ∧ es.length = 3 := by
  obtain ⟨es, -, h2, -, h4⟩ := C144_height [3, 0, 2] [4, 1, 2] rfl none
  exact ⟨es, h4, h2⟩

end

end UTide.Props
