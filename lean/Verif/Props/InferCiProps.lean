import Verif.Lemmas.CiScale
import Verif.Props.WhiteProps

/-!
# Intervals of inferred constituents: C90
-/

namespace UTide.Props

noncomputable section

open Classical

local notation "conj" => starRingEnd ℂ

/-! ## Finite numbers -/

theorem fl_fin_of_add {a b : Fl} {x : ℝ} (h : a + b = .fin x) : (∃ y, a = .fin y) ∧ ∃ y, b = .fin y := by
  cases a <;> cases b <;> simp [HAdd.hAdd, Add.add, Fl.add] at h ⊢

theorem fl_fin_of_mul {a b : Fl} {x : ℝ} (h : a * b = .fin x) : (∃ y, a = .fin y) ∧ ∃ y, b = .fin y := by
  have hs : ∀ z c, Fl.scaleInf z c ≠ Fl.fin x := by
    intro z c
    unfold Fl.scaleInf
    split
    · simp
    · split <;> simp
  cases a <;> cases b <;> simp [HMul.hMul, Mul.mul, Fl.mul, hs] at h ⊢

theorem fl_fin_of_sqrt {a : Fl} {x : ℝ} (h : a.sqrt = .fin x) : ∃ y, a = .fin y := by
  cases a <;> simp [Fl.sqrt] at h ⊢

/-- A propagated standard deviation is a number only if the standard deviations it comes from are. -/
theorem linSum_number {d1 d2 d3 d4 s1 s2 s3 s4 : Fl} {x : ℝ} (h : linSum d1 d2 d3 d4 s1 s2 s3 s4 = .fin x) :
    (∃ y, s1 = .fin y) ∧ ∃ y, s2 = .fin y := by
  unfold linSum at h
  obtain ⟨y, hy⟩ := fl_fin_of_sqrt h
  obtain ⟨⟨y1, h1⟩, -⟩ := fl_fin_of_add hy
  obtain ⟨⟨y2, h2⟩, -⟩ := fl_fin_of_add h1
  obtain ⟨⟨y3, h3⟩, ⟨y4, h4⟩⟩ := fl_fin_of_add h2
  obtain ⟨-, z1, h5⟩ := fl_fin_of_mul h3
  obtain ⟨-, z2, h6⟩ := fl_fin_of_mul h4
  exact ⟨(fl_fin_of_mul h5).1, (fl_fin_of_mul h6).1⟩

theorem utLinci_zero_fin {X Y : ℝ} {s1 s2 : Fl} {x : ℝ} (h : (utLinci X Y 0 0 s1 s2 (.fin 0) (.fin 0)).sMaj = .fin x) :
    (∃ y, s1 = .fin y) ∧ ∃ y, s2 = .fin y := by
  unfold utLinci at h
  simp only [if_true] at h
  exact linSum_number h

/-- Standard deviations of the coefficients times `k`: all results times `k`. -/
theorem utLinci_sd (k : ℝ) (hk : 0 < k) (X Y : ℝ) (s1 s2 : Fl) :
    (utLinci X Y 0 0 (s1.sc k) (s2.sc k) (.fin 0) (.fin 0)).sMaj = (utLinci X Y 0 0 s1 s2 (.fin 0) (.fin 0)).sMaj.sc k ∧
    (utLinci X Y 0 0 (s1.sc k) (s2.sc k) (.fin 0) (.fin 0)).sG = (utLinci X Y 0 0 s1 s2 (.fin 0) (.fin 0)).sG.sc k := by
  have h1 : ∀ d1 d2 d3 d4 : Fl, linSum d1 d2 d3 d4 (s1.sc k) (s2.sc k) (.fin 0) (.fin 0) =
      (linSum d1 d2 d3 d4 s1 s2 (.fin 0) (.fin 0)).sc k := by
    intro d1 d2 d3 d4
    have := linSum_scale 1 k one_pos hk d1 d2 d3 d4 s1 s2 (.fin 0) (.fin 0)
    simpa only [Fl.sc_one, one_mul, ← zero_sc] using this
  unfold utLinci
  simp only [if_true, h1]
  exact ⟨trivial, Fl.mul_sc k hk _ _⟩

/-- The variances kept with an interval that is a number are numbers, and the interval is computed from them. -/
theorem linear1_parts (P : Option Fl) (X Y vx vy A : ℝ) (h : (linear1 P X Y vx vy).1.maj = .fin A) :
    ∃ x y : ℝ, (linear1 P X Y vx vy).2.xu = .fin x ∧ (linear1 P X Y vx vy).2.yu = .fin y ∧
      (linear1 P X Y vx vy).1.maj = Fl.fin 1.96 * (utLinci X Y 0 0 (Fl.fin x).sqrt (Fl.fin y).sqrt (.fin 0) (.fin 0)).sMaj ∧
      (linear1 P X Y vx vy).1.g = Fl.fin 1.96 * (utLinci X Y 0 0 (Fl.fin x).sqrt (Fl.fin y).sqrt (.fin 0) (.fin 0)).sG := by
  unfold linear1 at h ⊢
  dsimp only at h ⊢
  generalize (match P with
    | none => (Fl.fin vx, Fl.fin vy)
    | some p => (rescale p vx (vx + vy), rescale p vy (vx + vy))) = vs at h ⊢
  obtain ⟨-, z, hz⟩ := fl_fin_of_mul h
  obtain ⟨⟨y1, h1⟩, y2, h2⟩ := utLinci_zero_fin hz
  obtain ⟨x, hx⟩ := fl_fin_of_sqrt h1
  obtain ⟨y, hy⟩ := fl_fin_of_sqrt h2
  exact ⟨x, y, hx, hy, by rw [hx, hy], by rw [hx, hy]⟩

/-- One inferred constituent with real factors of equal size. -/
theorem inferOne_real (k : ℝ) (hk : 0 < k) (v : Vars) (X Y x y : ℝ) (hx : v.xu = .fin x) (hy : v.yu = .fin y) (q : InfCon)
    (h1 : q.Rp.re ^ 2 + q.Rm.re ^ 2 = 2 * k ^ 2) (h2 : q.Rp.im ^ 2 + q.Rm.im ^ 2 = 0) :
    (inferOne false v X Y 0 0 q).maj =
      (Fl.fin 1.96 * (utLinci X Y 0 0 (Fl.fin x).sqrt (Fl.fin y).sqrt (.fin 0) (.fin 0)).sMaj).sc (k / Real.sqrt 2) ∧
    (inferOne false v X Y 0 0 q).g =
      (Fl.fin 1.96 * (utLinci X Y 0 0 (Fl.fin x).sqrt (Fl.fin y).sqrt (.fin 0) (.fin 0)).sG).sc (k / Real.sqrt 2) ∧
    (inferOne false v X Y 0 0 q).min = .fin 0 ∧ (inferOne false v X Y 0 0 q).theta = .fin 0 := by
  have h0 : 0 < k / Real.sqrt 2 := by positivity
  have hs : (k / Real.sqrt 2) ^ 2 = k ^ 2 / 2 := by
    rw [div_pow, Real.sq_sqrt (by norm_num)]
  have e : ∀ a b : ℝ, Fl.fin (2 * k ^ 2) * (Fl.fin 0.25 * Fl.fin a) + Fl.fin 0 * (Fl.fin 0.25 * Fl.fin b) =
      (Fl.fin a).sc ((k / Real.sqrt 2) ^ 2) := by
    intro a b
    rw [hs]
    show Fl.fin _ = Fl.fin _
    congr 1
    ring
  unfold inferOne
  simp only [Bool.false_eq_true, if_false, hx, hy, h1, h2, e, Fl.sc_sqrt _ h0]
  obtain ⟨u1, u2⟩ := utLinci_sd _ h0 X Y (Fl.fin x).sqrt (Fl.fin y).sqrt
  rw [u1, u2, Fl.mul_sc _ h0, Fl.mul_sc _ h0]
  exact ⟨rfl, rfl, trivial, trivial⟩

/-! ## Intervals by name -/

instance : Inhabited Ci1 := ⟨⟨.nan, .nan, .nan, .nan⟩⟩

theorem exists_byName {β : Type} [Inhabited β] (l : List String) (hn : l.Nodup) (vals : List β)
    (hlen : vals.length = l.length) : ∃ f : String → β, l.map f = vals := by
  refine ⟨fun n => vals.getD (l.idxOf n) default, ?_⟩
  apply List.ext_getElem
  · simp [hlen]
  · intro i h1 h2
    rw [List.getElem_map, hn.idxOf_getElem i (by simpa using h1), List.getD_eq_getElem _ _ h2]

/-- Cutting a flattened list of intervals into those of the references. -/
theorem cut_flatten (f : String → Ci1) (g : RefCon × ℕ → Except PyErr (List Ci1))
    (hg : ∀ rk b, g rk = .ok b → b.length = rk.1.inf.length) (rks : List (RefCon × ℕ)) (l : List (List Ci1))
    (h : List.Forall₂ (fun rk b => g rk = .ok b) rks l)
    (hl : (rks.flatMap fun rk => rk.1.inf.map InfCon.name).map f = l.flatten) :
    ∀ rk ∈ rks, g rk = .ok (rk.1.inf.map fun q => f q.name) := by
  induction h with
  | nil => simp
  | cons h1 _ ih =>
    rw [List.flatMap_cons, List.map_append, List.flatten_cons] at hl
    obtain ⟨e1, e2⟩ := List.append_inj hl (by simp [hg _ _ h1])
    intro rk hrk
    rcases List.mem_cons.1 hrk with rfl | hrk
    · rw [h1, ← e1, List.map_map]; rfl
    · exact ih e2 rk hrk

section
variable {E : Env} {t : TimeArg} {u : Series} {lat : Option ℝ} {opts : Dict PyVal}
  {c : Coef} {opt : Opt} {p : Prep} {tn : List Fl} {constit : Constit} {m : List ℂ} {W : List ℝ}
  {rf : Option RobOut} {full : Coef} {o : Order} {ind : List ℕ}

/-- The intervals of a scalar run with inference, by name. -/
theorem Facts.inferCiRows (F : Facts E t u none lat opts c opt p tn constit m W rf full o ind) (hnd : opts.keys.Nodup)
    (hlin : opt.linci = true) (s : InferSpec) (hinf : p.infer = some s) (hn : p.sel.name.Nodup) (ci' : CiArr)
    (hci' : c.ci = some ci') :
    ∃ f : String → Ci1, (∀ i n, c.name[i]? = some n →
        intervalAt ci' i = some ⟨(f n).maj, .fin 0, .fin 0, (f n).g⟩) ∧
      ∀ r ∈ p.sel.refs, ∃ P X Y vx vy, f r.name = (linear1 P X Y vx vy).1 ∧
        (∀ q ∈ r.inf, f q.name = inferOne false (linear1 P X Y vx vy).2 X Y 0 0 q) ∧
        ∃ k, p.sel.refs[k]? = some r ∧ (confIn p m W).Xu[p.sel.nNR + k]? = some X ∧
          (confIn p m W).Yu[p.sel.nNR + k]? = some Y := by
  have hal := F.prep.aligned
  have hc := F.solved.result
  obtain ⟨ci, hconf, hfull⟩ : ∃ ci, confidence E.num (confIn p m W) = .ok ci ∧ full.ci = some ci := by
    rcases F.solved.ci with ⟨-, h⟩ | ⟨-, ci, h1, h2⟩
    · rw [hc] at hci'
      have : full.ci.map (CiArr.permute ind) = some ci' := hci'
      rw [h] at this; cases this
    · exact ⟨ci, h1, h2⟩
  have hperm : ci' = ci.permute ind := by
    rw [hc] at hci'
    have : full.ci.map (CiArr.permute ind) = some ci' := hci'
    rw [hfull] at this
    exact (Option.some.inj this).symm
  have hlen := confidence_len F.prep m W F.mlen ci hconf
  have hml : m.length = numCols (!opt.notrend) p.sel := by rw [F.mlen, F.prep.nm]
  obtain ⟨a1, a2⟩ := apOf_length _ m hml
  have hXl : (confIn p m W).Xu.length = p.sel.nNR + p.sel.nR := by simp [confIn, a1, a2]
  unfold confidence at hconf
  simp only [bind_eq_ok, pure_eq_ok, Except.ok.injEq] at hconf
  obtain ⟨pw, -, GH, -, rows, hrows, inf, hinf', hpack⟩ := hconf
  have htd : (confIn p m W).twodim = false := F.td hnd
  rw [htd] at hpack
  have hpack' : ci = .one ((rows.map Prod.fst ++ inf).map Ci1.maj) ((rows.map Prod.fst ++ inf).map Ci1.g) := by
    rw [← hpack]; rfl
  have hLl : (rows.map Prod.fst ++ inf).length = p.sel.name.length := by
    rw [hal.name, List.length_map]
    rw [hpack'] at hlen
    have := hlen.1
    rwa [List.length_map] at this
  obtain ⟨f, hf⟩ := exists_byName p.sel.name hn _ hLl
  have hrl : rows.length = p.sel.nNR + p.sel.nR := by
    rw [mapM_length _ _ _ hrows, List.length_range, hXl]
  rw [hal.names, List.map_append] at hf
  obtain ⟨f1, f2⟩ := List.append_inj hf (by
    simp only [List.length_map, List.length_append, hrl, hal.nrName, hal.nNR, hal.nR])
  refine ⟨f, ?_, ?_⟩
  · intro i n hin
    have hn' : (gather full.name ind)[i]? = some n := by rw [← hin, hc]; rfl
    rw [gather_getElem? _ _ (by rw [F.len.name]; exact F.lt), F.solved.name] at hn'
    rw [hperm, intervalAt_permute (F.solved.ciLen F.prep F.mlen ci hfull) ind F.lt]
    cases hk : ind[i]? with
    | none => rw [hk] at hn'; cases hn'
    | some k =>
      rw [hk, Option.bind_some] at hn'
      rw [Option.bind_some, hpack']
      have hL : (rows.map Prod.fst ++ inf)[k]? = some (f n) := by
        rw [← hf, ← List.map_append, ← hal.names, List.getElem?_map, hn']; rfl
      simp only [intervalAt, List.getElem?_map, hL, Option.map_some, Option.bind_some]
  · intro r hr
    unfold inferCi at hinf'
    have e1 : (confIn p m W).infer = true := by show p.infer.isSome = true; rw [hinf]; rfl
    have e2 : (confIn p m W).linci = true := by show p.opt.linci = true; rw [F.prep.hopt, hlin]
    rw [e1, e2] at hinf'
    simp only [if_true, bind_eq_ok, pure_eq_ok, Except.ok.injEq] at hinf'
    obtain ⟨l, hl, rfl⟩ := hinf'
    rw [mapM_ok] at hl
    have hz : (p.sel.refs.zipIdx.flatMap fun rk => rk.1.inf.map InfCon.name).map f = l.flatten := by
      rw [← f2]
      congr 1
      conv_rhs => rw [← List.zipIdx_map_fst 0 p.sel.refs, List.flatMap_map]
    have hcut := cut_flatten f _ (fun rk b hb => inferRef_length _ _ _ _ hb) _ _ hl hz
    obtain ⟨k, hk, rfl⟩ := List.mem_iff_getElem.1 hr
    have hmem : (p.sel.refs[k], k) ∈ p.sel.refs.zipIdx := by
      rw [List.mem_iff_getElem?]
      exact ⟨k, by simp [List.getElem?_zipIdx, hk]⟩
    have hb := hcut _ hmem
    unfold inferRef at hb
    simp only [bind_eq_ok, getIdx_ok, htd, Bool.false_eq_true, if_false, pure_eq_ok, Except.ok.injEq] at hb
    obtain ⟨w, hw, X, hX, Y, hY, hq⟩ := hb
    have hsel : (confIn p m W).sel = p.sel := rfl
    rw [hsel] at hw hX hY
    have hlt : p.sel.nNR + k < (confIn p m W).Xu.length := by rw [hXl, hal.nR]; omega
    obtain ⟨row, hr1, hr2⟩ := mapM_getElem? _ _ _ hrows (p.sel.nNR + k) (p.sel.nNR + k) (List.getElem?_range hlt)
    have hwr : w = row.2 := by
      rw [List.getElem?_map, hr1] at hw
      exact (Option.some.inj hw).symm
    unfold ciOne at hr2
    simp only [bind_eq_ok, getIdx_ok] at hr2
    obtain ⟨G, -, H, -, X', hX', Y', hY', g, -, pu, -, hr2⟩ := hr2
    rw [htd, e2] at hr2
    simp only [Bool.false_eq_true, if_false, if_true, pure_eq_ok, Except.ok.injEq] at hr2
    have eX := Option.some.inj (hX.symm.trans hX')
    have eY := Option.some.inj (hY.symm.trans hY')
    subst eX eY
    refine ⟨pu, X, Y, varXuOf G, varYuOf H, ?_, ?_, k, List.getElem?_eq_getElem hk, hX, hY⟩
    · rw [hr2]
      have h1 : (rows.map Prod.fst)[p.sel.nNR + k]? = some row.1 := by rw [List.getElem?_map, hr1]; rfl
      rw [← f1, List.getElem?_map, List.getElem?_append_right (by rw [hal.nrName, List.length_map, hal.nNR]; omega)] at h1
      rw [hal.nrName, List.length_map, ← hal.nNR, Nat.add_sub_cancel_left, List.getElem?_map,
        List.getElem?_eq_getElem hk] at h1
      exact Option.some.inj h1
    · intro q hqm
      rw [hr2, ← hwr]
      exact (List.map_inj_left.1 hq q hqm).symm

end

/-! ## C90 -/

/-- A scalar run with linearised intervals in which constituent `n`, at position `i` of the result, is inferred from
`r`, at position `l`, with amplitude ratio `a` and phase offset `φ`. -/
structure InferredRun (E : Env) (t : TimeArg) (u : Series) (lat : Option ℝ) (opts : Dict PyVal) (c : Coef)
    (ci : CiArr) (n r : String) (a φ : ℚ) (i l : ℕ) : Prop where
  returned : solve E t u none lat opts = .ok c
  keys : opts.keys.Nodup
  kept : AllKept c
  distinct : c.name.Nodup
  linear : c.opt.linci = true
  intervals : c.ci = some ci
  posInferred : c.name[i]? = some n
  posReference : c.name[l]? = some r
  tie : ∃ (s : InferSpec) (j : ℕ), readInfer c.opt.infer = .ok (some s) ∧ s.inferred[j]? = some n ∧ s.reference[j]? = some r ∧
    s.amp[j]? = some a ∧ s.phase[j]? = some φ

/-- **C90** in full: amplitude and phase of an inferred constituent being `a` times the amplitude of the reference and
its phase minus `φ` (C11), their intervals are `a` times the interval of the amplitude and the interval of the phase of
the reference. -/
def C90_full : Prop := ∀ (E : Env) (t : TimeArg) (u : Series) (lat : Option ℝ) (opts : Dict PyVal) (c : Coef) (ci : CiArr)
  (n r : String) (a φ : ℚ) (i l : ℕ), Ready E t u none → NumOk E.num →
  InferredRun E t u lat opts c ci n r a φ i l → 0 < a → ∀ A G : ℝ,
    intervalAt ci l = some ⟨.fin A, .fin 0, .fin 0, .fin G⟩ →
    intervalAt ci i = some ⟨.fin (a * A), .fin 0, .fin 0, .fin G⟩

/-- **C90**, what holds: for a phase offset that is a multiple of 180 degrees both intervals are those of the reference
times the amplitude ratio, divided by the square root of two. So the interval of the amplitude is too small by that
factor, and the interval of the phase depends on the amplitude ratio. -/
theorem C90_reduced_partial {E : Env} {t : TimeArg} {u : Series} {lat : Option ℝ} {opts : Dict PyVal} {c : Coef}
    {ci : CiArr} {n r : String} {a φ : ℚ} {i l : ℕ} (R : Ready E t u none)
    (H : InferredRun E t u lat opts c ci n r a φ i l) (ha : 0 < a) (z : ℤ) (hφ : φ = 180 * z) (A G : ℝ)
    (hr : intervalAt ci l = some ⟨.fin A, .fin 0, .fin 0, .fin G⟩) :
    intervalAt ci i = some ⟨.fin (a / Real.sqrt 2 * A), .fin 0, .fin 0, .fin (a / Real.sqrt 2 * G)⟩ := by
  obtain ⟨opt, p, tn, constit, m, W, rf, full, o, ind, F⟩ := solve_facts R H.returned
  have hc := F.copt
  subst hc
  obtain ⟨s, j, hi, h1, h2, h3, h4⟩ := H.tie
  have hinf : p.infer = some s := Except.ok.inj (F.prep.hinfer.symm.trans hi)
  have hn' : p.sel.name.Nodup := (F.perm_names R H.keys H.kept).nodup_iff.1 H.distinct
  obtain ⟨f, hf, hrefs⟩ := F.inferCiRows H.keys H.linear s hinf hn' ci H.intervals
  have hsel := F.prep.hsel
  rw [hinf] at hsel
  obtain ⟨l0, -, -, -, -, hrefs', -⟩ := cnstitsel_some _ _ _ _ _ hsel
  obtain ⟨x, hx, hx'⟩ := mapM_mem _ _ _ hrefs' r ((mem_firsts _ _).2 (List.mem_of_getElem? h2))
  obtain ⟨hxn, -, -, hinfx⟩ := mkRef_ok _ _ _ _ hx'
  obtain ⟨q, hq, hq'⟩ := mapM_mem _ _ _ hinfx j ((mem_refPositions _ _ _).2 h2)
  obtain ⟨a', ph, ha', hph, hRp, -, hshort, hname, -, -⟩ := mkInf_ok _ _ _ _ hq'
  rw [h1] at hname; rw [h3] at ha'; rw [h4] at hph
  cases hname; cases ha'; cases hph
  obtain ⟨P, X, Y, vx, vy, e1, e2, -⟩ := hrefs x hx
  have e2 := e2 q hq
  rw [hxn] at e1
  have hrow := hf l r H.posReference
  rw [hr] at hrow
  obtain ⟨hA, -, -, hG⟩ := Ci1.mk.inj (Option.some.inj hrow)
  rw [e1] at hA hG
  obtain ⟨xx, yy, k1, k2, k3, k4⟩ := linear1_parts P X Y vx vy A hA.symm
  have hRm := hshort (by
    obtain ⟨-, hl, -⟩ := F.inferLengths H.keys s hinf
    simp only [Option.isSome_none, Bool.false_eq_true, if_false] at hl
    omega)
  have hcis : Complex.exp (Complex.I * (φ : ℂ) * Real.pi / 180) = (((-1 : ℝ) ^ z : ℝ) : ℂ) := by
    rw [hφ]
    have : Complex.I * (((180 * (z : ℚ) : ℚ)) : ℂ) * (Real.pi : ℂ) / 180 = (z : ℂ) * ((Real.pi : ℂ) * Complex.I) := by
      push_cast; ring
    rw [this, Complex.exp_int_mul, Complex.exp_pi_mul_I]
    push_cast; rfl
  have hRp' : q.Rp = (((a : ℝ) * (-1) ^ z : ℝ) : ℂ) := by rw [hRp, hcis]; push_cast; rfl
  have hsq : ((-1 : ℝ) ^ z) ^ 2 = 1 := by
    rw [← zpow_natCast, ← zpow_mul, mul_comm, zpow_mul]; norm_num
  have ha0 : (0 : ℝ) < a := by exact_mod_cast ha
  obtain ⟨g1, g2, -, -⟩ := inferOne_real a ha0 _ X Y xx yy k1 k2 q (by
    rw [hRm, hRp']
    simp only [Complex.conj_ofReal, Complex.ofReal_re, mul_pow, hsq]; ring) (by
    rw [hRm, hRp']
    simp only [Complex.conj_ofReal, Complex.ofReal_im]; ring)
  rw [hf i _ H.posInferred, e2, g1, g2, ← k3, ← k4, ← hA, ← hG]
  rfl

end

end UTide.Props
