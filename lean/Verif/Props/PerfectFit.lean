import Verif.Props.SwapProps
import Verif.Props.UnitsProps
import Verif.Props.AvailProps

/-!
# C115: an interval of no width means a perfect fit
-/

namespace UTide.Props

noncomputable section

open Classical

/-! ## Specification -/

/-- Some curve of the constituents passes through all samples; `part` is the component of the record looked at. -/
def Perfect (c : Coef) (tn : List Fl) (u : Series) (v : Option Series) (part : ℂ → ℝ) : Prop :=
  ∃ q, Admissible c q ∧ ∀ s ∈ usable tn u.data (v.map Series.data), part s.2 = linCurve c q s.1

/-! ## The noise variance -/

theorem sumSq_zero_iff (l : List ℝ) : sumSq l = 0 ↔ ∀ x ∈ l, x = 0 := by
  induction l with
  | nil => simp [sumSq]
  | cons a l ih =>
    have h1 : sumSq (a :: l) = a ^ 2 + sumSq l := by simp [sumSq]
    rw [h1]
    have h2 := sumSq_nonneg l
    constructor
    · intro h
      have ha : a ^ 2 = 0 := by nlinarith [sq_nonneg a]
      have hl : sumSq l = 0 := by nlinarith [sq_nonneg a]
      intro x hx
      rcases List.mem_cons.1 hx with rfl | hx
      · exact pow_eq_zero_iff (two_ne_zero) |>.1 ha
      · exact ih.1 hl x hx
    · intro h
      rw [h a List.mem_cons_self, ih.2 fun x hx => h x (List.mem_cons_of_mem _ hx)]
      norm_num

/-- The noise variance is zero exactly for a perfect fit. -/
theorem noise_perfect {c : Coef} {tn : List Fl} {u : Series} {v : Option Series} {part : ℂ → ℝ} {s : ℝ}
    (h : NoiseVariance c (sampleTimes tn u v) ((usable tn u.data (v.map Series.data)).map fun x => part x.2) s) :
    s = 0 ↔ Perfect c tn u v part := by
  obtain ⟨hlt, rss, hl, rfl⟩ := h
  have hpos : (0 : ℝ) < ((sampleTimes tn u v).length : ℝ) - numPar c := by
    have : (numPar c : ℝ) < (sampleTimes tn u v).length := by exact_mod_cast hlt
    linarith
  have key : ∀ q, sumSq (List.zipWith (fun a b => a - b) ((usable tn u.data (v.map Series.data)).map fun x => part x.2)
      ((sampleTimes tn u v).map (linCurve c q))) = 0 ↔
      ∀ s ∈ usable tn u.data (v.map Series.data), part s.2 = linCurve c q s.1 := by
    intro q
    rw [sumSq_zero_iff]
    unfold sampleTimes
    rw [List.map_map, List.zipWith_map, List.zipWith_self]
    simp only [List.mem_map, forall_exists_index, and_imp, forall_apply_eq_imp_iff₂, sub_eq_zero, Function.comp_apply]
  rw [div_eq_zero_iff, or_iff_left hpos.ne']
  constructor
  · rintro rfl
    obtain ⟨⟨q, hq, h0⟩, -⟩ := hl
    exact ⟨q, hq, (key q).1 h0.symm⟩
  · rintro ⟨q, hq, h0⟩
    obtain ⟨⟨q', -, h1⟩, hmin⟩ := hl
    have h2 : rss ≤ 0 := hmin ⟨q, hq, ((key q).2 h0).symm⟩
    have h3 : 0 ≤ rss := by rw [h1]; exact sumSq_nonneg _
    linarith

/-! ## The intervals -/

theorem sqrt_pos_of_term {n : ℕ} (f : Fin n → ℝ) (i : Fin n) (h : f i ≠ 0) : 0 < Real.sqrt (∑ j, f j ^ 2) := by
  apply Real.sqrt_pos.2
  exact Finset.sum_pos' (fun j _ => sq_nonneg _) ⟨i, Finset.mem_univ _, by positivity⟩

theorem linear1_none (X Y a b : ℝ) (ha : 0 ≤ a) (hb : 0 ≤ b) : (linear1 none X Y a b).1 =
    ⟨Fl.fin 1.96 * (utLinci X Y 0 0 (.fin (Real.sqrt a)) (.fin (Real.sqrt b)) (.fin 0) (.fin 0)).sMaj, .fin 0, .fin 0,
     Fl.fin 1.96 * (utLinci X Y 0 0 (.fin (Real.sqrt a)) (.fin (Real.sqrt b)) (.fin 0) (.fin 0)).sG⟩ := by
  unfold linear1
  dsimp only
  rw [fin_sqrt a ha, fin_sqrt b hb]

/-- The interval of a constituent of an elevation: no number if the amplitude is zero, otherwise zero or positive with
the variances. -/
theorem linear1_sign (X Y a b : ℝ) (ha : 0 ≤ a) (hb : 0 ≤ b) :
    (X = 0 ∧ Y = 0 → (linear1 none X Y a b).1 = ⟨.nan, .fin 0, .fin 0, .nan⟩) ∧
    (¬ (X = 0 ∧ Y = 0) → a = 0 → b = 0 → (linear1 none X Y a b).1 = ⟨.fin 0, .fin 0, .fin 0, .fin 0⟩) ∧
    (¬ (X = 0 ∧ Y = 0) → 0 < a → 0 < b →
      ∃ x y, 0 < x ∧ 0 < y ∧ (linear1 none X Y a b).1 = ⟨.fin x, .fin 0, .fin 0, .fin y⟩) := by
  have hc := fun h => utLinci_circular ![X, Y, 0, 0] ![.fin (Real.sqrt a), .fin (Real.sqrt b), .fin 0, .fin 0] h
  have he := fun hp hm => utLinci_eq ![X, Y, 0, 0] ![Real.sqrt a, Real.sqrt b, 0, 0] hp hm
  simp only [Matrix.cons_val] at hc he
  obtain ⟨v1, v2, v3, v4, v5, v6, v7, v8, v9, v10, v11, v12, v13, v14, v15, v16⟩ := dir_values
  have hP : posC ![X, Y, 0, 0] = ⟨X / 2, -Y / 2⟩ := by
    apply Complex.ext
    · rw [posC_re]; simp
    · rw [posC_im]; simp
  have hM : negC ![X, Y, 0, 0] = ⟨X / 2, Y / 2⟩ := by
    apply Complex.ext
    · rw [negC_re]; simp
    · rw [negC_im]; simp
  rw [linear1_none X Y a b ha hb]
  refine ⟨?_, ?_⟩
  · rintro ⟨rfl, rfl⟩
    rw [hc (.inl (by rw [hP]; apply Complex.ext <;> simp))]
    rfl
  · have hne : ¬ (X = 0 ∧ Y = 0) → posC ![X, Y, 0, 0] ≠ 0 ∧ negC ![X, Y, 0, 0] ≠ 0 := by
      intro h
      rw [hP, hM]
      constructor <;> intro h0 <;> apply h
      · have h1 := congrArg Complex.re h0
        have h2 := congrArg Complex.im h0
        simp at h1 h2
        exact ⟨h1, h2⟩
      · have h1 := congrArg Complex.re h0
        have h2 := congrArg Complex.im h0
        simp at h1 h2
        exact ⟨h1, h2⟩
    refine ⟨fun h h1 h2 => ?_, fun h h1 h2 => ?_⟩
    · obtain ⟨k1, k2⟩ := hne h
      rw [he k1 k2, h1, h2]
      simp only [Fin.sum_univ_four, Matrix.cons_val, Real.sqrt_zero]
      norm_num
      rw [fin_mul]
      norm_num
    · obtain ⟨k1, k2⟩ := hne h
      have n1 : ‖posC ![X, Y, 0, 0]‖ = ‖negC ![X, Y, 0, 0]‖ := by
        rw [hP, hM, Complex.norm_def, Complex.norm_def, Complex.normSq_mk, Complex.normSq_mk]
        congr 1; ring
      have n2 : ‖negC ![X, Y, 0, 0]‖ ≠ 0 := norm_ne_zero_iff.2 k2
      have hPr := congrArg Complex.re hP
      have hPi := congrArg Complex.im hP
      have hMr := congrArg Complex.re hM
      have hMi := congrArg Complex.im hM
      dsimp only at hPr hPi hMr hMi
      have sa : Real.sqrt a ≠ 0 := (Real.sqrt_pos.2 h1).ne'
      have sb : Real.sqrt b ≠ 0 := (Real.sqrt_pos.2 h2).ne'
      have hpi : (180 / Real.pi : ℝ) ≠ 0 := by positivity
      rw [he k1 k2]
      refine ⟨_, _, mul_pos (by norm_num : (0 : ℝ) < 1.96) ?_, mul_pos (by norm_num : (0 : ℝ) < 1.96) ?_, rfl⟩
      · by_cases hX : X = 0
        · have hY : Y ≠ 0 := fun hY => h ⟨hX, hY⟩
          refine sqrt_pos_of_term _ 1 ?_
          simp only [Matrix.cons_val, dNorm, n1, hPr, hPi, hMr, hMi, v3, v4, v11, v12]
          refine mul_ne_zero ?_ sb
          rw [← add_div]
          refine div_ne_zero ?_ n2
          intro h0; apply hY; linarith
        · refine sqrt_pos_of_term _ 0 ?_
          simp only [Matrix.cons_val, dNorm, n1, hPr, hPi, hMr, hMi, v1, v2, v9, v10]
          refine mul_ne_zero ?_ sa
          rw [← add_div]
          refine div_ne_zero ?_ n2
          intro h0; apply hX; linarith
      · by_cases hX : X = 0
        · have hY : Y ≠ 0 := fun hY => h ⟨hX, hY⟩
          refine sqrt_pos_of_term _ 0 ?_
          simp only [Matrix.cons_val, dAngle, n1, hPr, hPi, hMr, hMi, v1, v2, v9, v10]
          refine mul_ne_zero (div_ne_zero ?_ two_ne_zero) sa
          rw [← sub_mul, ← sub_div]
          refine mul_ne_zero (div_ne_zero ?_ (pow_ne_zero 2 n2)) hpi
          intro h0; apply hY; linarith
        · refine sqrt_pos_of_term _ 1 ?_
          simp only [Matrix.cons_val, dAngle, n1, hPr, hPi, hMr, hMi, v3, v4, v11, v12]
          refine mul_ne_zero (div_ne_zero ?_ two_ne_zero) sb
          rw [← sub_mul, ← sub_div]
          refine mul_ne_zero (div_ne_zero ?_ (pow_ne_zero 2 n2)) hpi
          intro h0; apply hX; linarith

theorem sqrt_sum_zero {n : ℕ} (f : Fin n → ℝ) (h : Real.sqrt (∑ j, f j ^ 2) = 0) (i : Fin n) : f i = 0 := by
  by_contra h0
  exact (sqrt_pos_of_term f i h0).ne' h

/-- The intervals of a current. -/
theorem linear2_sign (x : Fin 4 → ℝ) (hx : NotCircular x) (A B su sv : ℝ) (hA : 0 < A) (hB : 0 < B) (hu : 0 ≤ su)
    (hv : 0 ≤ sv) :
    (su = 0 → sv = 0 → (linear2 none (x 0) (x 1) (x 2) (x 3) (su * A) (su * B) (sv * A) (sv * B)).1 =
      ⟨.fin 0, .fin 0, .fin 0, .fin 0⟩) ∧
    (x 2 ≠ 0 → ¬ (su = 0 ∧ sv = 0) →
      ∃ a b t g, (linear2 none (x 0) (x 1) (x 2) (x 3) (su * A) (su * B) (sv * A) (sv * B)).1 =
        ⟨.fin a, .fin b, .fin t, .fin g⟩ ∧ (a ≠ 0 ∨ b ≠ 0)) := by
  have hp : posC x ≠ 0 := hx.1
  have hm : negC x ≠ 0 := hx.2
  have hp' : ‖posC x‖ ≠ 0 := norm_ne_zero_iff.2 hp
  set σ : Fin 4 → ℝ := ![Real.sqrt (su * A), Real.sqrt (su * B), Real.sqrt (sv * A), Real.sqrt (sv * B)] with hσ
  have n1 : 0 ≤ su * A := mul_nonneg hu hA.le
  have n2 : 0 ≤ su * B := mul_nonneg hu hB.le
  have n3 : 0 ≤ sv * A := mul_nonneg hv hA.le
  have n4 : 0 ≤ sv * B := mul_nonneg hv hB.le
  have he := linear2_eq none x σ ![su * A, su * B, sv * A, sv * B]
    (fun i => by fin_cases i <;> exact Real.sqrt_nonneg _) (by
      simp [hσ, linear2, Real.sq_sqrt n1, Real.sq_sqrt n2, Real.sq_sqrt n3, Real.sq_sqrt n4])
  rw [utLinci_eq x σ hp hm] at he
  simp only [Matrix.cons_val] at he
  rw [he]
  refine ⟨?_, ?_⟩
  · rintro rfl rfl
    have h0 : ∀ i, σ i = 0 := by
      intro i; fin_cases i <;> simp [hσ]
    have hz : ∀ f : Fin 4 → ℝ, Real.sqrt (∑ i, (f i * σ i) ^ 2) = 0 := by
      intro f; simp [h0]
    simp only [hz, ite_self, fin_mul, mul_zero]
  · intro h2 hne
    simp only [if_neg h2, fin_mul]
    refine ⟨_, _, _, _, rfl, ?_⟩
    by_contra hcon
    rw [not_or, not_not, not_not] at hcon
    obtain ⟨h1, h2⟩ := hcon
    have hc : (1.96 : ℝ) ≠ 0 := by norm_num
    have s1 := sqrt_sum_zero _ ((mul_eq_zero.1 h1).resolve_left hc)
    have s2 := sqrt_sum_zero _ ((mul_eq_zero.1 h2).resolve_left hc)
    have key : ∀ i, σ i ≠ 0 → dNorm (posC x) (dirP i) = 0 := by
      intro i hi
      have e1 := (mul_eq_zero.1 (s1 i)).resolve_right hi
      have e2 := (mul_eq_zero.1 (s2 i)).resolve_right hi
      linarith
    obtain ⟨v1, v2, v3, v4, v5, v6, v7, v8, -⟩ := dir_values
    have fin0 : (posC x).re = 0 → (posC x).im = 0 → False := fun a b => hp (Complex.ext a b)
    unfold dNorm at key
    rcases not_and_or.1 hne with h | h
    · have hpos : 0 < su := lt_of_le_of_ne hu (Ne.symm h)
      have k0 := key 0 (Real.sqrt_pos.2 (mul_pos hpos hA)).ne'
      have k1 := key 1 (Real.sqrt_pos.2 (mul_pos hpos hB)).ne'
      rw [div_eq_zero_iff, or_iff_left hp', v1, v2] at k0
      rw [div_eq_zero_iff, or_iff_left hp', v3, v4] at k1
      exact fin0 (by linarith) (by linarith)
    · have hpos : 0 < sv := lt_of_le_of_ne hv (Ne.symm h)
      have k2 := key 2 (Real.sqrt_pos.2 (mul_pos hpos hA)).ne'
      have k3 := key 3 (Real.sqrt_pos.2 (mul_pos hpos hB)).ne'
      rw [div_eq_zero_iff, or_iff_left hp', v5, v6] at k2
      rw [div_eq_zero_iff, or_iff_left hp', v7, v8] at k3
      exact fin0 (by linarith) (by linarith)

/-! ## C115 -/

section
variable {E : Env} {t : TimeArg} {lat : Option ℝ} {opts : Dict PyVal} {c : Coef} {tn : List Fl}

/-- What a result with intervals consists of. -/
theorem white_parts {u : Series} {v : Option Series} (R : Ready E t u v) (H : WhiteRun E t u v lat opts c tn) {ci : CiArr}
    (hci : c.ci = some ci) : ∃ S, c.SNR = some S ∧ S.length = c.name.length ∧
      (v = none → ∃ A g dA dg, c.ell = .one A g ∧ ci = .one dA dg) ∧
      (v ≠ none → ∃ M m th g dM dm dth dg, c.ell = .two M m th g ∧ ci = .two dM dm dth dg) := by
  obtain ⟨h1, h2, h3⟩ := C83_snr E t u v lat opts R H.keys c H.returned
  obtain ⟨opt, p, tn', constit, m, W, rf, full, o, ind, F⟩ := solve_facts R H.returned
  have hco := (F.coherent H.keys).permute ind F.lt
  rw [← F.solved.result] at hco
  have htd : c.opt.twodim = v.isSome := by
    rw [F.copt]; exact (getOpt_requests _ H.keys _ _ F.hopt).twodim
  obtain ⟨S, hS⟩ := Option.ne_none_iff_exists'.1 (show c.SNR ≠ none from fun h => by rw [h1.1 h] at hci; cases hci)
  have h53 := ((C53_ci E t u v lat opts H.keys R c H.returned).2 ci hci).1
  rcases hco.kind with ⟨ht, A, g, _, _, he, -⟩ | ⟨ht, M, m, th, g, _, _, _, he, -⟩
  · have hv : v = none := by
      rw [htd] at ht; cases v with
      | none => rfl
      | some w => cases ht
    subst hv
    cases ci with
    | one dA dg => exact ⟨S, hS, (h2 A g dA dg S he hci hS).1, fun _ => ⟨_, _, _, _, he, rfl⟩, fun h => absurd rfl h⟩
    | two => simp [ciArrays] at h53
  · have hv : v ≠ none := by
      rintro rfl
      rw [htd] at ht; cases ht
    cases ci with
    | one dA dg =>
      obtain ⟨w, rfl⟩ := Option.ne_none_iff_exists'.1 hv
      simp [ciArrays] at h53
    | two a b d e => exact ⟨S, hS, (h3 _ _ _ _ _ _ _ _ _ he hci hS).1, fun h => absurd h hv,
        fun _ => ⟨_, _, _, _, _, _, _, _, he, rfl⟩⟩

/-- **C115**, elevations: a constituent of amplitude not zero has intervals of no width and an infinite ratio when some
curve of the constituents passes through every sample, and intervals of positive width and a positive ratio when none
does. A constituent of amplitude zero has neither intervals nor a ratio. -/
theorem C115_elevation {u : Series} (R : Ready E t u none) (hI : InvOk E.num.inv) (H : WhiteRun E t u none lat opts c tn) :
    ∃ A g dA dg S, c.ell = .one A g ∧ c.ci = some (.one dA dg) ∧ c.SNR = some S ∧ ∀ i, i < c.name.length →
      ∃ a d e s, A[i]? = some a ∧ dA[i]? = some d ∧ dg[i]? = some e ∧ S[i]? = some s ∧
        (a = 0 → d = .nan ∧ e = .nan ∧ s = .nan) ∧
        (a ≠ 0 → Perfect c tn u none Complex.re → d = .fin 0 ∧ e = .fin 0 ∧ s = .pinf) ∧
        (a ≠ 0 → ¬ Perfect c tn u none Complex.re →
          ∃ x y z, 0 < x ∧ 0 < y ∧ 0 < z ∧ d = .fin x ∧ e = .fin y ∧ s = .fin z) := by
  obtain ⟨ci, qu, qv, hci, -, -, h⟩ := white_facts R hI H
  obtain ⟨S, hS, hl, hp, -⟩ := white_parts R H hci
  obtain ⟨A, g, dA, dg, he, rfl⟩ := hp rfl
  refine ⟨A, g, dA, dg, S, he, hci, hS, fun i hi => ?_⟩
  obtain ⟨a, b, su, sv, -, b1, b2, k1, -, k3, -, e1, e2⟩ := h i c.name[i] (List.getElem?_eq_getElem hi)
  have pa : 0 < sumSq a := b1.sumSq_pos ⟨fun _ => 1, fun _ => 0, 0, 0⟩ (fun _ => rfl) rfl
  have pb : 0 < sumSq b := b2.sumSq_pos ⟨fun _ => 0, fun _ => 1, 0, 0⟩ (fun _ => rfl) rfl
  rw [he] at e1
  simp only [Option.isSome_none, Bool.false_eq_true, if_false] at e1 e2
  have hs := noise_perfect (part := Complex.re) k1
  generalize combine a (sampleU tn u none) = X at e1 e2
  generalize combine b (sampleU tn u none) = Y at e1 e2
  have hA : ∃ x y, A[i]? = some x ∧ g[i]? = some y ∧ cs2cep1 X Y = ⟨x, 0, 0, y⟩ := by
    simp only [ellipseAt, Option.bind_eq_some_iff, Option.map_eq_some_iff] at e1
    obtain ⟨x, hx, y, hy, h⟩ := e1
    exact ⟨x, y, hx, hy, h.symm⟩
  obtain ⟨x, y, hx, -, hxy⟩ := hA
  have hD : ∃ d e, dA[i]? = some d ∧ dg[i]? = some e ∧ (linear1 none X Y (su * sumSq a) (su * sumSq b)).1 =
      ⟨d, .fin 0, .fin 0, e⟩ := by
    simp only [intervalAt, Option.bind_eq_some_iff, Option.map_eq_some_iff] at e2
    obtain ⟨x, hx, y, hy, h⟩ := e2
    exact ⟨x, y, hx, hy, h.symm⟩
  obtain ⟨d, e, hd, hg, hde⟩ := hD
  obtain ⟨s, hs'⟩ : ∃ s, S[i]? = some s := ⟨_, List.getElem?_eq_getElem (by rw [hl]; exact hi)⟩
  refine ⟨x, d, e, s, hx, hd, hg, hs', ?_⟩
  obtain ⟨-, hr, -⟩ := C83_snr E t u none lat opts R H.keys c H.returned
  obtain ⟨r1, r2, r3⟩ := (hr A g dA dg S he hci hS).2 i x d s hx hd hs'
  have hzero : x = 0 ↔ X = 0 ∧ Y = 0 := by
    have h1 : ‖(X : ℂ) - Complex.I * Y‖ = x := congrArg Ell.Lsmaj hxy
    rw [← h1, norm_eq_zero]
    constructor
    · intro h
      have h1 := congrArg Complex.re h
      have h2 := congrArg Complex.im h
      simp at h1 h2
      exact ⟨h1, h2⟩
    · rintro ⟨rfl, rfl⟩
      simp
  obtain ⟨l1, l2, l3⟩ := linear1_sign X Y (su * sumSq a) (su * sumSq b) (mul_nonneg k3 pa.le) (mul_nonneg k3 pb.le)
  rw [hde] at l1 l2 l3
  refine ⟨fun h0 => ?_, fun h0 hp => ?_, fun h0 hp => ?_⟩
  · have := l1 (hzero.1 h0)
    simp only [Ci1.mk.injEq] at this
    exact ⟨this.1, this.2.2.2, r3 this.1⟩
  · have h1 := hs.2 hp
    have := l2 (fun h => h0 (hzero.2 h)) (by rw [h1, zero_mul]) (by rw [h1, zero_mul])
    simp only [Ci1.mk.injEq] at this
    exact ⟨this.1, this.2.2.2, r2 this.1 h0⟩
  · have h1 : 0 < su := lt_of_le_of_ne k3 fun h => hp (hs.1 h.symm)
    obtain ⟨w, z, hw, hz, this⟩ := l3 (fun h => h0 (hzero.2 h)) (mul_pos h1 pa) (mul_pos h1 pb)
    simp only [Ci1.mk.injEq] at this
    refine ⟨w, z, _, hw, hz, ?_, this.1, this.2.2.2, r1 w this.1 hw.ne'⟩
    positivity

/-- **C115**, currents: unless its ellipse is a circle, a constituent has intervals of no width and an infinite ratio when
curves of the constituents pass through every sample of both components. When they do not, the ratio is a positive number,
provided the best-fitting curve of `v` has a cosine coefficient which is not zero (see C50). -/
theorem C115_current {u v : Series} (R : Ready E t u (some v)) (hI : InvOk E.num.inv)
    (H : WhiteRun E t u (some v) lat opts c tn) :
    ∃ ci qu qv S, c.ci = some ci ∧ BestFit c (sampleTimes tn u (some v)) (sampleU tn u (some v)) qu ∧
      BestFit c (sampleTimes tn u (some v)) (sampleV tn u (some v)) qv ∧ c.SNR = some S ∧
      ∀ (i : ℕ) (n : String), c.name[i]? = some n → NotCircular ![qu.X n, qu.Y n, qv.X n, qv.Y n] →
        ∃ r s, intervalAt ci i = some r ∧ S[i]? = some s ∧
          (Perfect c tn u (some v) Complex.re → Perfect c tn u (some v) Complex.im →
            r = ⟨.fin 0, .fin 0, .fin 0, .fin 0⟩ ∧ s = .pinf) ∧
          (¬ (Perfect c tn u (some v) Complex.re ∧ Perfect c tn u (some v) Complex.im) → qv.X n ≠ 0 →
            ∃ z, 0 < z ∧ s = .fin z) := by
  obtain ⟨ci, qu, qv, hci, hqu, hqv, h⟩ := white_facts R hI H
  obtain ⟨S, hS, hl, -, hp⟩ := white_parts R H hci
  obtain ⟨M, m, th, g, dM, dm, dth, dg, he, rfl⟩ := hp (by simp)
  refine ⟨_, qu, qv, S, hci, hqu, hqv, hS, fun i n hn hc => ?_⟩
  obtain ⟨a, b, su, sv, ⟨q1, q2, q3, q4⟩, b1, b2, k1, k2, k3, k4, e1, e2⟩ := h i n hn
  have pa : 0 < sumSq a := b1.sumSq_pos ⟨fun _ => 1, fun _ => 0, 0, 0⟩ (fun _ => rfl) rfl
  have pb : 0 < sumSq b := b2.sumSq_pos ⟨fun _ => 0, fun _ => 1, 0, 0⟩ (fun _ => rfl) rfl
  have hsu := noise_perfect (part := Complex.re) k1
  have hsv := noise_perfect (part := Complex.im) k2
  simp only [Option.isSome_some, if_true, q1, q2, q3, q4] at e1 e2
  have hi : i < c.name.length := (List.getElem?_eq_some_iff.1 hn).1
  obtain ⟨s, hs'⟩ : ∃ s, S[i]? = some s := ⟨_, List.getElem?_eq_getElem (by rw [hl]; exact hi)⟩
  refine ⟨_, s, e2, hs', ?_⟩
  rw [he] at e1
  obtain ⟨-, -, hr⟩ := C83_snr E t u (some v) lat opts R H.keys c H.returned
  obtain ⟨x, y, hx, hy, hxy⟩ : ∃ x y, M[i]? = some x ∧ m[i]? = some y ∧
      (cs2cep2 (qu.X n) (qu.Y n) (qv.X n) (qv.Y n)).Lsmaj = x := by
    simp only [ellipseAt, Option.bind_eq_some_iff, Option.map_eq_some_iff] at e1
    obtain ⟨x, hx, y, hy, z, -, w, -, h⟩ := e1
    exact ⟨x, y, hx, hy, by rw [← h]⟩
  have hx0 : 0 < x := by
    rw [← hxy]
    have h1 : ((((qu.X n + qv.Y n : ℝ) : ℂ) + Complex.I * ((qv.X n - qu.Y n : ℝ) : ℂ)) / 2) ≠ 0 := hc.1
    show 0 < ‖_‖ + ‖_‖
    have := norm_pos_iff.2 h1
    have h2 := norm_nonneg ((((qu.X n - qv.Y n : ℝ) : ℂ) + Complex.I * ((qv.X n + qu.Y n : ℝ) : ℂ)) / 2)
    exact add_pos_of_pos_of_nonneg this h2
  obtain ⟨d, e, hd, hd', h1, h2⟩ : ∃ d e, dM[i]? = some d ∧ dm[i]? = some e ∧
      (linear2 none (qu.X n) (qu.Y n) (qv.X n) (qv.Y n) (su * sumSq a) (su * sumSq b) (sv * sumSq a) (sv * sumSq b)).1.maj = d ∧
      (linear2 none (qu.X n) (qu.Y n) (qv.X n) (qv.Y n) (su * sumSq a) (su * sumSq b) (sv * sumSq a) (sv * sumSq b)).1.min = e := by
    simp only [intervalAt, Option.bind_eq_some_iff, Option.map_eq_some_iff] at e2
    obtain ⟨x, hx, y, hy, z, -, w, -, h⟩ := e2
    exact ⟨x, y, hx, hy, by rw [← h], by rw [← h]⟩
  obtain ⟨r1, r2, r3⟩ := (hr M m th g dM dm dth dg S he hci hS).2 i x y d e s hx hy hd hd' hs'
  obtain ⟨l1, l2⟩ := linear2_sign ![qu.X n, qu.Y n, qv.X n, qv.Y n] hc (sumSq a) (sumSq b) su sv pa pb k3 k4
  simp only [Matrix.cons_val] at l1 l2
  refine ⟨fun hu hv => ?_, fun hne hX => ?_⟩
  · have := l1 (hsu.2 hu) (hsv.2 hv)
    rw [this] at h1 h2
    exact ⟨this, r2 h1.symm h2.symm (.inl hx0.ne')⟩
  · obtain ⟨a', b', t', g', this, hab⟩ := l2 hX fun h => hne ⟨hsu.1 h.1, hsv.1 h.2⟩
    rw [this] at h1 h2
    refine ⟨_, ?_, r1 a' b' h1.symm h2.symm hab⟩
    have hd : 0 < (a' / 1.96) ^ 2 + (b' / 1.96) ^ 2 := by
      rcases hab with h | h
      · have : a' / 1.96 ≠ 0 := div_ne_zero h (by norm_num)
        positivity
      · have : b' / 1.96 ≠ 0 := div_ne_zero h (by norm_num)
        positivity
    exact div_pos (by positivity) hd

end

/-! ## Non-vacuity -/

theorem quad_white {a b x y : ℝ} {co : Coef} (Q : QuadRun (ciOpts "linear" true) (ciOpt false true true) a b x y none co) :
    WhiteRun idealEnv quadT (quadSeries a b x y) none (some 45) (ciOpts "linear" true) co quadTn :=
  ⟨Q.returned, by decide, ⟨.str "ols", rfl, .inl rfl⟩, by rw [Q.opt]; rfl, by rw [Q.opt]; rfl, by rw [Q.opt]; rfl,
    by rw [Q.opt]; rfl, Q.kept, by rw [Q.opt]; exact quad_times⟩

theorem quad_samples (a b x y : ℝ) : usable quadTn (quadSeries a b x y).data none =
    [(0, (a : ℂ)), (0.5, (b : ℂ)), (1, (x : ℂ)), (1, (y : ℂ))] := by
  simp [usable, quadSeries, quadTn, goodSamples, Fl.toReal?, Cell.value?]

theorem quad_m2 {a b x y : ℝ} {co : Coef} (Q : QuadRun (ciOpts "linear" true) (ciOpt false true true) a b x y none co)
    (τ : ℝ) : harmonic co "M2" τ = m2 τ := by
  have R := quad_ready a b x y none (.inl rfl)
  obtain ⟨opt, p, tn, constit, m, W, rf, full, o, ind, F⟩ := solve_facts R Q.returned
  have hopt : opt = ciOpt false true true := Except.ok.inj (F.hopt.symm.trans (ciOpts_linear _ _))
  subst hopt
  have htn : tn = quadTn := Except.ok.inj (F.prep.init.time.symm.trans quad_times)
  subst htn
  have href : co.reftime = 0.5 := by
    rw [F.creftime]
    obtain ⟨-, -, -, -, h5⟩ := editData_usable _ _ _ (F.samples R).1 _ F.prep.init.edit
    have e1 : finiteTimes quadTn = [0, 0.5, 1, 1] := by simp [finiteTimes, Fl.toReal?, quadTn]
    rw [e1, quad_usable a b x y none (.inl rfl)] at h5
    unfold timeStats at h5
    by_cases he : isEqui [0, 0.5, 1, 1]
    · simp only [he, if_true] at h5
      have h6 := congrArg Prod.fst (Except.ok.inj h5)
      exact h6.symm.trans (by show (0.5 : ℝ) * (0 + 1) = 0.5; norm_num)
    · simp only [he] at h5
      have h6 := congrArg Prod.fst (Except.ok.inj h5)
      exact h6.symm.trans (by show (0.5 : ℝ) * (0 + 1) = 0.5; norm_num)
  have hlat : co.lat = 45 := by
    rw [F.clat]
    exact (Option.some.inj F.prep.init.hlat).symm
  unfold harmonic m2
  rw [Q.opt, href, hlat]
  rfl

theorem perfect_run : ∃ a b x y c S A g k, QuadRun (ciOpts "linear" true) (ciOpt false true true) a b x y none c ∧
    c.SNR = some S ∧ S[0]? = some .pinf ∧ c.ell = .one A g ∧ A[0]? = some k ∧ k ≠ 0 := by
  obtain ⟨z, m0, m5, m1, hne, hne2⟩ := m2_values
  obtain ⟨c, Q, -⟩ := quad_ci z.re 1 z.re z.re none (.inl rfl) true
  have R := quad_ready z.re 1 z.re z.re none (.inl rfl)
  have hw := quad_white Q
  have hh := quad_m2 Q
  have hcurve : ∀ q τ, linCurve c q τ = q.mean + q.slope * (τ - c.reftime) + (q.X "M2" * (m2 τ).re + q.Y "M2" * (m2 τ).im) := by
    intro q τ
    unfold linCurve
    rw [Q.name]
    simp [hh]
  have hP : Perfect c quadTn (quadSeries z.re 1 z.re z.re) none Complex.re := by
    refine ⟨⟨fun _ => 1, fun _ => 0, 0, 0⟩, fun _ => rfl, ?_⟩
    rw [Option.map_none, quad_samples]
    intro s hs
    rw [hcurve]
    simp only [List.mem_cons, List.not_mem_nil, or_false] at hs
    rcases hs with rfl | rfl | rfl | rfl <;> simp [m0, m5, m1]
  obtain ⟨A, g, dA, dg, S, he, hci, hS, h⟩ := C115_elevation R idealNum_ok.inv hw
  obtain ⟨a, d, e, s, ha, hd, hg, hs, -, h2, -⟩ := h 0 (by rw [Q.name]; decide)
  suffices ha0 : a ≠ 0 by
    exact ⟨_, _, _, _, c, S, A, g, a, Q, hS, by rw [hs, (h2 ha0 hP).2.2], he, ha, ha0⟩
  intro h0
  obtain ⟨ci', q, hci', hq, hr⟩ := C70_scalar R idealNum_ok.inv hw
  obtain ⟨a', b', s2, q1, q2, -, -, -, k, -⟩ := hr 0 "M2" (by rw [Q.name]; rfl)
  rw [q1, q2, he] at k
  simp only [ellipseAt, Option.bind_eq_some_iff, Option.map_eq_some_iff] at k
  obtain ⟨a1, ha1, b1, -, k⟩ := k
  cases Option.some.inj (ha.symm.trans ha1)
  have k1 : a = ‖(q.X "M2" : ℂ) - Complex.I * q.Y "M2"‖ := congrArg Ell.Lsmaj k
  rw [h0, eq_comm, norm_eq_zero] at k1
  have hX := congrArg Complex.re k1
  have hY := congrArg Complex.im k1
  simp at hX hY
  have hres : sumSq (residuals c [0, 0.5, 1, 1] [z.re, 1, z.re, z.re] q) ≤ 0 := by
    have e1 : sampleTimes quadTn (quadSeries z.re 1 z.re z.re) none = [0, 0.5, 1, 1] := quad_usable _ _ _ _ none (.inl rfl)
    have e2 : sampleU quadTn (quadSeries z.re 1 z.re z.re) none = [z.re, 1, z.re, z.re] := by
      unfold sampleU; rw [Option.map_none, quad_samples]; simp
    rw [e1, e2] at hq
    refine (hq.best ⟨fun _ => 1, fun _ => 0, 0, 0⟩ fun _ => rfl).trans (le_of_eq ?_)
    unfold residuals
    simp [hcurve, m0, m5, m1, sumSq]
  have hz := (sumSq_zero_iff _).1 (le_antisymm hres (sumSq_nonneg _))
  have hsl : q.slope = 0 := hq.adm (by rw [Q.opt]; rfl)
  unfold residuals at hz
  simp only [List.map_cons, List.map_nil, List.zipWith_cons_cons, List.zipWith_nil_left, hcurve, hX, hY, hsl, zero_mul,
    add_zero, List.mem_cons, forall_eq_or_imp, sub_eq_zero] at hz
  obtain ⟨z1, z2, -⟩ := hz
  apply hne2
  rw [Complex.add_conj, z1, ← z2]
  simp

/-- C115: a record which is a tide has an infinite ratio. -/
example : ∃ a b x y c S, solve idealEnv quadT (quadSeries a b x y) none (some 45) (ciOpts "linear" true) = .ok c ∧
    c.SNR = some S ∧ S[0]? = some .pinf := by
  obtain ⟨a, b, x, y, c, S, -, -, -, Q, hS, h, -⟩ := perfect_run
  exact ⟨a, b, x, y, c, S, Q.returned, hS, h⟩

/-- C115: two samples at the same time which differ. The ratio is not infinite. -/
example : ∃ c S s, solve idealEnv quadT (quadSeries 1 0 2 5) none (some 45) (ciOpts "linear" true) = .ok c ∧
    c.SNR = some S ∧ S[0]? = some s ∧ s ≠ .pinf := by
  obtain ⟨c, Q, -⟩ := quad_ci 1 0 2 5 none (.inl rfl) true
  have hP : ¬ Perfect c quadTn (quadSeries 1 0 2 5) none Complex.re := by
    rintro ⟨q, -, h⟩
    rw [Option.map_none, quad_samples] at h
    have h1 := h (1, (2 : ℝ)) (by simp)
    have h2 := h (1, (5 : ℝ)) (by simp)
    have := h1.trans h2.symm
    norm_num at this
  obtain ⟨A, g, dA, dg, S, he, hci, hS, h⟩ := C115_elevation (quad_ready 1 0 2 5 none (.inl rfl)) idealNum_ok.inv (quad_white Q)
  obtain ⟨a, d, e, s, ha, hd, hg, hs, h1, -, h3⟩ := h 0 (by rw [Q.name]; decide)
  refine ⟨c, S, s, Q.returned, hS, hs, ?_⟩
  by_cases h0 : a = 0
  · rw [(h1 h0).2.2]; simp
  · obtain ⟨x, y, w, -, -, -, -, -, k⟩ := h3 h0 hP
    rw [k]; simp

/-- C115: the run of a current. -/
example : ∃ c, WhiteRun idealEnv quadT (quadSeries 1 0 2 5) (some (quadSeries 3 1 4 1)) (some 45) (ciOpts "linear" true) c
    quadTn ∧ ¬ Perfect c quadTn (quadSeries 1 0 2 5) (some (quadSeries 3 1 4 1)) Complex.re := by
  obtain ⟨c, Q, -⟩ := quad_ci 1 0 2 5 (some (quadSeries 3 1 4 1)) (.inr ⟨_, _, _, _, rfl⟩) true
  refine ⟨c, ⟨Q.returned, by decide, ⟨.str "ols", rfl, .inl rfl⟩, by rw [Q.opt]; rfl, by rw [Q.opt]; rfl,
    by rw [Q.opt]; rfl, by rw [Q.opt]; rfl, Q.kept, by rw [Q.opt]; exact quad_times⟩, ?_⟩
  rintro ⟨q, -, h⟩
  have e : usable quadTn (quadSeries 1 0 2 5).data ((some (quadSeries 3 1 4 1)).map Series.data) =
      [(0, ⟨1, 3⟩), (0.5, ⟨0, 1⟩), (1, ⟨2, 4⟩), (1, ⟨5, 1⟩)] := by
    simp [usable, quadSeries, quadTn, goodSamples2, Fl.toReal?, Cell.value?, Complex.ext_iff]
  rw [e] at h
  have h1 := h (1, ⟨2, 4⟩) (by simp)
  have h2 := h (1, ⟨5, 1⟩) (by simp)
  have := h1.trans h2.symm
  norm_num at this

end

end UTide.Props
