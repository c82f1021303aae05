import Verif.Lemmas.Result
import Verif.Props.OptionProps

/-!
# Calls that differ only in `order_constit`
-/

namespace UTide

noncomputable section

open Props

theorem ConfChoice.unique {ci : PyVal} {a b a' b' : Bool} (h : ConfChoice ci a b) (h' : ConfChoice ci a' b') :
    a' = a ∧ b' = b := by
  cases h with
  | linear h1 =>
    cases h' with
    | linear _ => exact ⟨rfl, rfl⟩
    | mc h2 _ => rw [h1] at h2; simp at h2
    | none h2 _ _ => rw [h1] at h2; simp at h2
  | mc h1 h1' =>
    cases h' with
    | linear h2 => rw [h1] at h2; simp at h2
    | mc _ _ => exact ⟨rfl, rfl⟩
    | none _ h2 _ => rw [h1'] at h2; simp at h2
  | none h1 h1' _ =>
    cases h' with
    | linear h2 => rw [h1] at h2; simp at h2
    | mc _ h2 => rw [h1'] at h2; simp at h2
    | none _ _ _ => exact ⟨rfl, rfl⟩

theorem flags_ext (a b : Flags) (h1 : a.nodsatlint = b.nodsatlint) (h2 : a.nodsatnone = b.nodsatnone)
    (h3 : a.gwchlint = b.gwchlint) (h4 : a.gwchnone = b.gwchnone) : a = b := by
  cases a; cases b; simp only at h1 h2 h3 h4; subst h1 h2 h3 h4; rfl

/-- The options other than `order_constit` determine everything but that field. -/
theorem getOpt_order (opts opts' : Dict PyVal) (hnd : opts.keys.Nodup) (hnd' : opts'.keys.Nodup) (is2D : Bool)
    (heq : ∀ k, k ≠ "order_constit" → requested opts k = requested opts' k) (q q' : Opt)
    (h : getOpt opts is2D = .ok q) (h' : getOpt opts' is2D = .ok q') :
    q' = { q with ordercnstit := q'.ordercnstit } := by
  obtain ⟨hk, c, oc, ci, me, tr, ph, no, inf, ray, rk, wh, ve, ep, h1, h2, h3, h4, h5, h6, h7, h8, h9, h10,
      h11, h12, h13, r1, r2, r3, r4, r5, r6, r7, r8, r9, r10, r11, r12, r13, r14, r15, r16⟩ := getOpt_ok opts hnd is2D q h
  obtain ⟨hk', c', oc', ci', me', tr', ph', no', inf', ray', rk', wh', ve', ep', h1', h2', h3', h4', h5', h6', h7', h8', h9', h10',
      h11', h12', h13', r1', r2', r3', r4', r5', r6', r7', r8', r9', r10', r11', r12', r13', r14', r15', r16'⟩ :=
    getOpt_ok opts' hnd' is2D q' h'
  simp only [requested_eq] at heq
  have tr1 : ∀ {k : String} {x y : PyVal}, k ≠ "order_constit" → effective opts k = some x →
      effective opts' k = some y → y = x := by
    intro k x y hk hx hy
    rw [← heq k hk, hx] at hy
    exact (Option.some.inj hy).symm
  obtain rfl := tr1 (by decide) h1 h1'
  obtain rfl := tr1 (by decide) h3 h3'
  obtain rfl := tr1 (by decide) h4 h4'
  obtain rfl := tr1 (by decide) h5 h5'
  obtain rfl := tr1 (by decide) h6 h6'
  obtain rfl := tr1 (by decide) h7 h7'
  obtain rfl := tr1 (by decide) h8 h8'
  obtain rfl := tr1 (by decide) h9 h9'
  obtain rfl := tr1 (by decide) h10 h10'
  obtain rfl := tr1 (by decide) h11 h11'
  obtain rfl := tr1 (by decide) h12 h12'
  obtain rfl := tr1 (by decide) h13 h13'
  have okinj : ∀ {x : Except PyErr Bool} {a b : Bool}, x = .ok a → x = .ok b → b = a := by
    intro x a b ha hb; rw [ha] at hb; exact (Except.ok.inj hb).symm
  have e1 : q'.notrend = q.notrend := by
    have := okinj r6 r6'; exact Bool.not_inj this
  have e2 := okinj r7 r7'
  have e3 := okinj r8 r8'
  have e4 : q'.infer = q.infer := by rw [r3] at r3'; exact (Except.ok.inj r3').symm
  have e5 := r9.unique r9'
  have e6 : q'.flags.nodsatlint = q.flags.nodsatlint := okinj r11 r11'
  have e7 : q'.flags.gwchlint = q.flags.gwchlint := okinj r13 r13'
  have e8 : q'.flags.nodsatnone = q.flags.nodsatnone := by
    rw [e6] at r12'
    by_cases hl : q.flags.nodsatlint = true
    · rw [if_pos hl] at r12 r12'; rw [r12, r12']
    · rw [if_neg hl] at r12 r12'
      exact Bool.not_inj (okinj r12 r12')
  have e9 : q'.flags.gwchnone = q.flags.gwchnone := by
    rw [e7] at r14'
    by_cases hl : q.flags.gwchlint = true
    · rw [if_pos hl] at r14 r14'; rw [r14, r14']
    · rw [if_neg hl] at r14 r14'
      exact okinj r14 r14'
  have e10 : q'.method = q.method := by
    cases hm : q.method with
    | ols =>
      cases hm' : q'.method with
      | ols => rfl
      | robust kw' =>
        rw [hm] at r15; rw [hm'] at r15'
        simp only at r15 r15'
        rw [r15] at r15'; simp at r15'
    | robust kw =>
      cases hm' : q'.method with
      | ols =>
        rw [hm] at r15; rw [hm'] at r15'
        simp only at r15 r15'
        rw [r15'] at r15; simp at r15
      | robust kw' =>
        rw [hm] at r15; rw [hm'] at r15'
        simp only at r15 r15'
        obtain ⟨-, b, rfl⟩ := r15
        obtain ⟨-, b', hb⟩ := r15'
        injection hb with hb1 hb2
        rw [hb2]
  have e11 : q'.rmin = q.rmin := by
    rcases r16 with hr | ⟨b, hr, hq⟩
    · rcases r16' with hr' | ⟨b', hr', hq'⟩
      · rw [hr] at hr'; injection hr' with hr'; exact hr'.symm
      · rw [hr] at hr'; simp at hr'
    · rcases r16' with hr' | ⟨b', hr', hq'⟩
      · rw [hr] at hr'; simp at hr'
      · rw [hr] at hr'; injection hr' with hr'; rw [hq, hq', hr']
  have e12 : q'.flags = q.flags := by
    exact flags_ext _ _ e6 e8 e7 e9
  have e13 : q'.twodim = q.twodim := by rw [r1, r1']
  have e14 : q'.cnstit = q.cnstit := by rw [r2, r2']
  have e15 : q'.epoch = q.epoch := by rw [r5, r5']
  have e16 : q'.nodiagn = q.nodiagn := by rw [r10, r10', e5.1]
  obtain ⟨e5a, e5b⟩ := e5
  cases q; cases q'
  simp only at e1 e2 e3 e4 e5a e5b e10 e11 e12 e13 e14 e15 e16
  subst e1 e2 e3 e4 e5a e5b e10 e11 e12 e13 e14 e15 e16
  rfl

/-- The prepared problem does not depend on the order. -/
theorem PrepOk.order {E : Env} {opt : Opt} {t : TimeArg} {u : Series} {v : Option Series} {lat : Option ℝ}
    {tn tn' : List Fl} {constit constit' : Constit} {p p' : Prep} {x : PyVal}
    (hp : PrepOk E opt t u v lat tn constit p)
    (hp' : PrepOk E { opt with ordercnstit := x } t u v lat tn' constit' p') :
    p' = { p with opt := { opt with ordercnstit := x } } := by
  have h1 : PrepOk E { opt with ordercnstit := x } t u v lat tn constit
      { p with opt := { opt with ordercnstit := x } } :=
    { init := ⟨hp.init.hlat, hp.init.shapes, hp.init.time, hp.init.edit⟩
      cons := hp.cons, hinfer := hp.hinfer, hsel := hp.hsel, check := hp.check, hopt := rfl, nm := hp.nm, B := hp.B }
  have e1 := (stagePrep_ok E { opt with ordercnstit := x } t u v lat _).2 ⟨_, _, h1⟩
  have e2 := (stagePrep_ok E { opt with ordercnstit := x } t u v lat _).2 ⟨_, _, hp'⟩
  exact Except.ok.inj (e2.symm.trans e1)

/-! ## Lengths in an accepted inference option -/

theorem iterNames_len (v : PyVal) (l : List String) (n : ℕ) (h : v.iterNames = .ok l) (hn : v.len = .ok n) :
    l.length = n := by
  cases v with
  | seq k xs =>
    have := mapM_length _ _ _ h
    simp only [PyVal.len, Except.ok.injEq] at hn
    omega
  | str s =>
    simp only [PyVal.iterNames, Except.ok.injEq] at h
    simp only [PyVal.len, Except.ok.injEq] at hn
    subst h; rw [List.length_map, ← hn]; exact String.length_toList
  | _ => simp [PyVal.iterNames] at h

theorem iterNums_len (v : PyVal) (l : List ℚ) (n : ℕ) (h : v.iterNums = .ok l) (hn : v.len = .ok n) :
    l.length = n := by
  cases v with
  | seq k xs =>
    have := mapM_length _ _ _ h
    simp only [PyVal.len, Except.ok.injEq] at hn
    omega
  | _ => simp [PyVal.iterNums] at h

theorem infer_lengths (x y : PyVal) (is2D : Bool) (sp : InferSpec) (hv : validateInfer x is2D = .ok y)
    (hr : readInfer y = .ok (some sp)) :
    sp.inferred.length = sp.reference.length ∧
    sp.amp.length = (if is2D then 2 * sp.inferred.length else sp.inferred.length) ∧
    sp.phase.length = (if is2D then 2 * sp.inferred.length else sp.inferred.length) := by
  have hnone : ∀ y', y' = PyVal.none → readInfer y' ≠ .ok (some sp) := by
    rintro y' rfl h; simp [readInfer] at h
  have hdict : ∃ b kv, x = .dict b kv := by
    cases x with
    | dict b kv => exact ⟨b, kv, rfl⟩
    | none => simp only [validateInfer, Except.ok.injEq] at hv; exact absurd hr (hnone _ hv.symm)
    | _ =>
      simp only [validateInfer, bind_eq_ok] at hv
      obtain ⟨b, -, hv⟩ := hv
      cases b with
      | true => simp only [if_true, pure_eq_ok, Except.ok.injEq] at hv; exact absurd hr (hnone _ hv.symm)
      | false => simp [throw_eq_error] at hv
  obtain ⟨b, kv, rfl⟩ := hdict
  cases b with
  | false =>
    rcases C14_plain_dict_refused kv is2D with h | h <;> rw [h] at hv <;> simp at hv
  | true =>
    unfold validateInfer validateInferDict at hv
    dsimp only at hv
    simp only [bind_eq_ok, raiseIf_ok, exists_const, pure_eq_ok, Except.ok.injEq, bne_eq_false_iff_eq] at hv
    obtain ⟨-, a1, h1, n1, l1, a2, h2, n2, l2, e2, a3, h3, n3, l3, e3, a4, h4, n4, l4, e4, rfl⟩ := hv
    have hattr : ∀ k, k ≠ "approximate" → k ≠ "t_mpl" → k ∉ Bunch.classAttrs →
        (PyVal.dict true (if Dict.mem kv "approximate" = true then kv else
          Dict.set kv "approximate" (.bool false))).attr k = (PyVal.dict true kv).attr k := by
      intro k h1 h2 h3
      rw [attr_bunch _ _ h2 h3, attr_bunch _ _ h2 h3]
      split
      · rfl
      · unfold optAttr; rw [Dict.get?_set, if_neg (Ne.symm h1)]
    unfold readInfer at hr
    simp only [bind_eq_ok, pure_eq_ok, Except.ok.injEq, Option.some.injEq] at hr
    rw [hattr _ (by decide) (by decide) (by decide), hattr _ (by decide) (by decide) (by decide),
      hattr _ (by decide) (by decide) (by decide), hattr _ (by decide) (by decide) (by decide)] at hr
    obtain ⟨x1, y1, b1, z1, x2, y2, b2, z2, x3, y3, b3, z3, x4, y4, b4, z4, x5, y5, b5, z5, rfl⟩ := hr
    rw [h1] at y1; rw [h2] at y2; rw [h3] at y3; rw [h4] at y4
    cases y1; cases y2; cases y3; cases y4
    have f1 := iterNames_len _ _ _ z1 l1
    have f2 := iterNames_len _ _ _ z2 l2
    have f3 := iterNums_len _ _ _ z3 l3
    have f4 := iterNums_len _ _ _ z4 l4
    dsimp only
    rw [f1, f2, f3, f4, e2, e3, e4]
    exact ⟨rfl, rfl, rfl⟩

end

end UTide
