import Verif.Props.AvailProps

/-!
# C152: options that do not apply have no effect
-/

namespace UTide

namespace Props

noncomputable section

open Classical

/-- Specification: two results that differ at most in the recorded options. -/
def SameButOptions (c c' : Coef) : Prop := c' = { c with opt := c'.opt }

/-- Specification: two results that differ at most in the recorded latitude. -/
def SameButLatitude (c c' : Coef) : Prop := c' = { c with lat := c'.lat }

/-- The options that may not apply. -/
def conditionalKeys : List String := ["verbose", "MC_n", "robust_kw", "Rayleigh_min", "white"]

theorem getOpt_apply (opts opts' : Dict PyVal) (hnd : opts.keys.Nodup) (hnd' : opts'.keys.Nodup) (is2D : Bool)
    (heq : ∀ k, k ∉ conditionalKeys → requested opts k = requested opts' k)
    (hrob : (∃ x, requested opts "method" = some x ∧ x.eqStr "ols" = .ok true) ∨
      requested opts "robust_kw" = requested opts' "robust_kw") (q q' : Opt)
    (h : getOpt opts is2D = .ok q) (h' : getOpt opts' is2D = .ok q') :
    q' = { q with rmin := q'.rmin, white := q'.white, verbose := q'.verbose } ∧
    (requested opts "white" = requested opts' "white" → q'.white = q.white) := by
  obtain ⟨hk, c, oc, ci, me, tr, ph, no, inf, ray, rk, wh, ve, ep, h1, h2, h3, h4, h5, h6, h7, h8, h9, h10,
      h11, h12, h13, r1, r2, r3, r4, r5, r6, r7, r8, r9, r10, r11, r12, r13, r14, r15, r16⟩ := getOpt_ok opts hnd is2D q h
  obtain ⟨hk', c', oc', ci', me', tr', ph', no', inf', ray', rk', wh', ve', ep', h1', h2', h3', h4', h5', h6', h7', h8', h9', h10',
      h11', h12', h13', r1', r2', r3', r4', r5', r6', r7', r8', r9', r10', r11', r12', r13', r14', r15', r16'⟩ :=
    getOpt_ok opts' hnd' is2D q' h'
  simp only [requested_eq] at heq hrob ⊢
  have tr1 : ∀ {k : String} {x y : PyVal}, k ∉ conditionalKeys → effective opts k = some x →
      effective opts' k = some y → y = x := by
    intro k x y hk hx hy
    rw [← heq k hk, hx] at hy
    exact (Option.some.inj hy).symm
  obtain rfl := tr1 (by decide) h1 h1'
  obtain rfl := tr1 (by decide) h2 h2'
  obtain rfl := tr1 (by decide) h3 h3'
  obtain rfl := tr1 (by decide) h4 h4'
  obtain rfl := tr1 (by decide) h5 h5'
  obtain rfl := tr1 (by decide) h6 h6'
  obtain rfl := tr1 (by decide) h7 h7'
  obtain rfl := tr1 (by decide) h8 h8'
  obtain rfl := tr1 (by decide) h13 h13'
  have okinj : ∀ {x : Except PyErr Bool} {a b : Bool}, x = .ok a → x = .ok b → b = a := by
    intro x a b ha hb; rw [ha] at hb; exact (Except.ok.inj hb).symm
  have e1 : q'.notrend = q.notrend := by
    have := okinj r6 r6'; exact Bool.not_inj this
  have e4 : q'.infer = q.infer := by rw [r3] at r3'; exact (Except.ok.inj r3').symm
  have e6 : q'.flags.nodsatlint = q.flags.nodsatlint := okinj r11 r11'
  have e7 : q'.flags.gwchlint = q.flags.gwchlint := okinj r13 r13'
  have e8 : q'.flags.nodsatnone = q.flags.nodsatnone := by
    rw [e6] at r12'
    by_cases hl : q.flags.nodsatlint = true
    · rw [if_pos hl] at r12 r12'; rw [r12, r12']
    · rw [if_neg hl] at r12 r12'
      exact Bool.not_inj (okinj r12 r12')
  have e9 : q'.flags.gwchnone = q.flags.gwchnone := by
    rw [e7] at r14'
    by_cases hl : q.flags.gwchlint = true
    · rw [if_pos hl] at r14 r14'; rw [r14, r14']
    · rw [if_neg hl] at r14 r14'
      exact okinj r14 r14'
  have e10 : q'.ordercnstit = q.ordercnstit := validateOrder_eq _ _ _ _ _ r4 r4'
  have e12 : q'.flags = q.flags := flags_ext _ _ e6 e8 e7 e9
  have e13 : q'.twodim = q.twodim := by rw [r1, r1']
  have e14 : q'.cnstit = q.cnstit := by rw [r2, r2']
  have e15 : q'.epoch = q.epoch := by rw [r5, r5']
  have e16 : q'.method = q.method := by
    cases hm : q.method with
    | ols =>
      cases hm' : q'.method with
      | ols => rfl
      | robust kw =>
        rw [hm] at r15
        rw [hm'] at r15'
        simp only at r15 r15'
        rw [r15] at r15'
        simp at r15'
    | robust kw =>
      cases hm' : q'.method with
      | ols =>
        rw [hm] at r15
        rw [hm'] at r15'
        simp only at r15 r15'
        rw [r15'] at r15
        simp at r15
      | robust kw' =>
        rw [hm] at r15
        rw [hm'] at r15'
        simp only at r15 r15'
        obtain ⟨m1, b, hb⟩ := r15
        obtain ⟨m2, b', hb'⟩ := r15'
        rcases hrob with ⟨x, hx, ho⟩ | hrk
        · rw [h4] at hx
          cases Option.some.inj hx
          rw [m1] at ho
          simp at ho
        · rw [h10, h10'] at hrk
          have := Option.some.inj hrk
          rw [hb, hb'] at this
          injection this with _ hkw
          rw [hkw]
  obtain ⟨e17, e18⟩ := ConfChoice.unique r9 r9'
  have e19 : q'.nodiagn = q.nodiagn := by rw [r10, r10', e17]
  refine ⟨?_, ?_⟩
  · cases q; cases q'
    simp only at e1 e4 e10 e12 e13 e14 e15 e16 e17 e18 e19
    subst e1 e4 e10 e12 e13 e14 e15 e16 e17 e18 e19
    rfl
  · intro hw
    rw [h11, h11'] at hw
    cases Option.some.inj hw
    exact okinj r7 r7'

/-- Replacing the recorded options. -/
def withOpt (q : Opt) (c : Coef) : Coef := { c with opt := q }

theorem addDiagn_withOpt (E : Env) (q : Opt) (c : Coef) : addDiagn E (withOpt q c) = (addDiagn E c).map (withOpt q) := by
  unfold addDiagn
  simp only [withOpt]
  cases snr c.ell c.ci <;> rfl

theorem reorder_withOpt (E : Env) (q : Opt) (c : Coef) (o : Order) :
    reorder E (withOpt q c) o = (reorder E c o).map (withOpt q) := by
  unfold reorder
  cases o with
  | PE => rfl
  | frequency => rfl
  | SNR =>
    rcases c with ⟨n, el, ci, me, PE, SNR, di, fr, li, re, la, op, nR, nNR, nI, we, rf⟩
    cases SNR <;> rfl
  | names l =>
    simp only [orderIndex, withOpt]
    cases l.mapM (listIndex c.name) <;> rfl

theorem stageSolution_apply (E : Env) (p : Prep) (r : ℚ) (w b : Bool) (h : w = p.opt.white ∨ p.opt.confInt = false) :
    stageSolution E { p with opt := { p.opt with rmin := r, white := w, verbose := b } } =
      (stageSolution E p).map (withOpt { p.opt with rmin := r, white := w, verbose := b }) := by
  have hf : stageFit E { p with opt := { p.opt with rmin := r, white := w, verbose := b } } = stageFit E p := rfl
  have hconf : ∀ m W c, stageConf E { p with opt := { p.opt with rmin := r, white := w, verbose := b } } m W
      (withOpt { p.opt with rmin := r, white := w, verbose := b } c) =
      (stageConf E p m W c).map (withOpt { p.opt with rmin := r, white := w, verbose := b }) := by
    intro m W c
    unfold stageConf
    dsimp only
    by_cases hci : p.opt.confInt = true
    · rw [if_pos hci, if_pos hci]
      have hw : w = p.opt.white := by
        rcases h with h | h
        · exact h
        · rw [h] at hci; cases hci
      subst hw
      have hc : confIn { p with opt := { p.opt with rmin := r, white := p.opt.white, verbose := b } } m W =
          confIn p m W := rfl
      rw [hc]
      cases confidence E.num (confIn p m W) <;> rfl
    · rw [if_neg hci, if_neg hci]
      rfl
  have hd : ∀ c, stageDiagn E { p with opt := { p.opt with rmin := r, white := w, verbose := b } }
      (withOpt { p.opt with rmin := r, white := w, verbose := b } c) =
      (stageDiagn E p c).map (withOpt { p.opt with rmin := r, white := w, verbose := b }) := by
    intro c
    unfold stageDiagn
    dsimp only
    by_cases hn : p.opt.nodiagn = true
    · rw [if_pos hn, if_pos hn]; rfl
    · rw [if_neg hn, if_neg hn]; exact addDiagn_withOpt E _ c
  unfold stageSolution
  rw [hf]
  cases hfit : stageFit E p with
  | error e => rfl
  | ok x =>
    obtain ⟨m, W, rf⟩ := x
    have hraw : rawCoef { p with opt := { p.opt with rmin := r, white := w, verbose := b } } m W rf =
        withOpt { p.opt with rmin := r, white := w, verbose := b } (rawCoef p m W rf) := rfl
    simp only [bind, Except.bind]
    rw [hraw, hconf]
    cases hc : stageConf E p m W (rawCoef p m W rf) with
    | error e => rfl
    | ok c =>
      simp only [Except.map]
      rw [hd]
      cases hdd : stageDiagn E p c with
      | error e => rfl
      | ok c =>
        simp only [Except.map]
        cases ho : readOrder p.opt.ordercnstit with
        | error e => rfl
        | ok o =>
          dsimp only
          exact reorder_withOpt E _ c o

theorem stageSelect_apply (q : Opt) (ed : Edited) (r : ℚ) (w b : Bool)
    (h : r = q.rmin ∨ ∃ l, readConstit q.cnstit = .ok (.names l)) :
    stageSelect { q with rmin := r, white := w, verbose := b } ed = stageSelect q ed := by
  rcases h with rfl | ⟨l, hl⟩
  · rfl
  · unfold stageSelect
    simp only [hl, bind, Except.bind]
    cases readInfer q.infer with
    | error e => rfl
    | ok i => rfl

theorem solve_apply (E : Env) (q : Opt) (t : TimeArg) (u : Series) (v : Option Series) (lat : Option ℝ) (r : ℚ)
    (w b : Bool) (h1 : r = q.rmin ∨ ∃ l, readConstit q.cnstit = .ok (.names l)) (h2 : w = q.white ∨ q.confInt = false) :
    (stagePrep E { q with rmin := r, white := w, verbose := b } t u v lat >>= stageSolution E) =
      (stagePrep E q t u v lat >>= stageSolution E).map (withOpt { q with rmin := r, white := w, verbose := b }) := by
  unfold stagePrep
  have hi : stageInit E { q with rmin := r, white := w, verbose := b } t u v lat = stageInit E q t u v lat := rfl
  rw [hi]
  cases stageInit E q t u v lat with
  | error e => rfl
  | ok x =>
    obtain ⟨ed, la⟩ := x
    simp only [bind, Except.bind]
    rw [stageSelect_apply q ed r w b h1]
    cases stageSelect q ed with
    | error e => rfl
    | ok y =>
      obtain ⟨con, inf, sel⟩ := y
      dsimp only
      unfold stageMatrix
      have hc : checkMatrix { q with rmin := r, white := w, verbose := b } (con == .auto) inf ed la sel =
          checkMatrix q (con == .auto) inf ed la sel := rfl
      rw [hc]
      cases checkMatrix q (con == .auto) inf ed la sel with
      | error e => rfl
      | ok z =>
        simp only [bind, Except.bind, pure, Except.pure]
        exact stageSolution_apply E ⟨q, inf, ed, la, sel, numCols (!q.notrend) sel, _⟩ r w b h2

/-- Specification: the option `constit` lists names instead of being 'auto'. -/
def ListsConstituents (opts : Dict PyVal) : Prop :=
  ∃ x l, requested opts "constit" = some x ∧ readConstit x = .ok (.names l)

/-- **C152, options.** Two calls with acceptable options that agree except for `verbose`, `MC_n`, `robust_kw` with the
method 'ols', `Rayleigh_min` with listed constituents and `white` without confidence intervals have the same
outcome: the same error, or the same result but for the recorded options. -/
theorem C152_options (E : Env) (t : TimeArg) (u : Series) (v : Option Series) (lat : Option ℝ) (opts opts' : Dict PyVal)
    (hnd : opts.keys.Nodup) (hnd' : opts'.keys.Nodup) (q q' : Opt) (h : getOpt opts v.isSome = .ok q)
    (h' : getOpt opts' v.isSome = .ok q') (heq : ∀ k, k ∉ conditionalKeys → requested opts k = requested opts' k)
    (hrob : (∃ x, requested opts "method" = some x ∧ x.eqStr "ols" = .ok true) ∨
      requested opts "robust_kw" = requested opts' "robust_kw")
    (hray : ListsConstituents opts ∨ requested opts "Rayleigh_min" = requested opts' "Rayleigh_min")
    (hwh : requested opts "conf_int" = some (.str "none") ∨ requested opts "white" = requested opts' "white") :
    (∀ e, solve E t u v lat opts = .error e ↔ solve E t u v lat opts' = .error e) ∧
    (∀ c, solve E t u v lat opts = .ok c → ∃ c', solve E t u v lat opts' = .ok c' ∧ SameButOptions c c') ∧
    (∀ c', solve E t u v lat opts' = .ok c' → ∃ c, solve E t u v lat opts = .ok c ∧ SameButOptions c c') := by
  obtain ⟨hq, hw⟩ := getOpt_apply opts opts' hnd hnd' _ heq hrob q q' h h'
  have R := getOpt_requests opts hnd _ q h
  have h1 : q'.rmin = q.rmin ∨ ∃ l, readConstit q.cnstit = .ok (.names l) := by
    rcases hray with ⟨x, l, hx, hl⟩ | hr
    · exact .inr ⟨l, by rw [R.constit x hx]; exact hl⟩
    · refine .inl ?_
      obtain ⟨-, -, -, -, -, -, -, -, -, ray, -, -, -, -, -, -, -, -, -, -, -, -, h9, -, -, -, -, -, -, -, -, -, -, -, -,
        -, -, -, -, -, -, -, r⟩ := getOpt_ok opts hnd _ q h
      obtain ⟨-, -, -, -, -, -, -, -, -, ray', -, -, -, -, -, -, -, -, -, -, -, -, h9', -, -, -, -, -, -, -, -, -, -, -,
        -, -, -, -, -, -, -, -, r'⟩ := getOpt_ok opts' hnd' _ q' h'
      rw [requested_eq, requested_eq, h9, h9'] at hr
      cases Option.some.inj hr
      rcases r with r | ⟨b, r, hb⟩ <;> rcases r' with r' | ⟨b', r', hb'⟩ <;> rw [r] at r'
      · exact (PyVal.num.inj r').symm
      · cases r'
      · cases r'
      · rw [hb, hb', PyVal.bool.inj r']
  have h2 : q'.white = q.white ∨ q.confInt = false := by
    rcases hwh with hc | hr
    · refine .inr ?_
      have := R.conf _ hc
      generalize q.confInt = a at this ⊢
      generalize q.linci = b at this
      cases this with
      | linear hx => exact absurd hx (by simp [PyVal.eqStr])
      | mc _ hx => exact absurd hx (by simp [PyVal.eqStr])
      | none _ _ _ => rfl
    · exact .inl (hw hr)
  have key : solve E t u v lat opts' = (solve E t u v lat opts).map (withOpt q') := by
    unfold solve
    rw [h, h']
    change (stagePrep E q' t u v lat >>= stageSolution E) =
      (stagePrep E q t u v lat >>= stageSolution E).map (withOpt q')
    rw [hq]
    exact solve_apply E q t u v lat q'.rmin q'.white q'.verbose h1 h2
  rw [key]
  cases solve E t u v lat opts with
  | error e => simp [Except.map]
  | ok c =>
    refine ⟨by simp [Except.map], ?_, ?_⟩
    · intro c0 hc0
      cases Except.ok.inj hc0
      exact ⟨_, rfl, rfl⟩
    · intro c' hc'
      refine ⟨c, rfl, ?_⟩
      rw [← Except.ok.inj hc']
      rfl

/-! ## Latitude -/

/-- Replacing the recorded latitude. -/
def withLat (b : ℝ) (c : Coef) : Coef := { c with lat := b }

theorem addDiagn_withLat (E : Env) (b : ℝ) (c : Coef) : addDiagn E (withLat b c) = (addDiagn E c).map (withLat b) := by
  unfold addDiagn
  simp only [withLat]
  cases snr c.ell c.ci <;> rfl

theorem reorder_withLat (E : Env) (b : ℝ) (c : Coef) (o : Order) :
    reorder E (withLat b c) o = (reorder E c o).map (withLat b) := by
  unfold reorder
  cases o with
  | PE => rfl
  | frequency => rfl
  | SNR =>
    rcases c with ⟨n, el, ci, me, PE, SNR, di, fr, li, re, la, op, nR, nNR, nI, we, rf⟩
    cases SNR <;> rfl
  | names l =>
    simp only [orderIndex, withLat]
    cases l.mapM (listIndex c.name) <;> rfl

theorem stageSolution_withLat (E : Env) (p : Prep) (b : ℝ) :
    stageSolution E { p with lat := b } = (stageSolution E p).map (withLat b) := by
  unfold stageSolution
  have hf : stageFit E { p with lat := b } = stageFit E p := rfl
  rw [hf]
  cases hfit : stageFit E p with
  | error e => rfl
  | ok x =>
    obtain ⟨m, W, rf⟩ := x
    have hraw : rawCoef { p with lat := b } m W rf = withLat b (rawCoef p m W rf) := rfl
    have hconf : ∀ c, stageConf E { p with lat := b } m W (withLat b c) = (stageConf E p m W c).map (withLat b) := by
      intro c
      unfold stageConf
      dsimp only
      have hc : confIn { p with lat := b } m W = confIn p m W := rfl
      rw [hc]
      split
      · cases confidence E.num (confIn p m W) <;> rfl
      · rfl
    have hd : ∀ c, stageDiagn E { p with lat := b } (withLat b c) = (stageDiagn E p c).map (withLat b) := by
      intro c
      unfold stageDiagn
      dsimp only
      split
      · rfl
      · exact addDiagn_withLat E b c
    simp only [bind, Except.bind]
    rw [hraw, hconf]
    cases hc : stageConf E p m W (rawCoef p m W rf) with
    | error e => rfl
    | ok c =>
      simp only [Except.map]
      rw [hd]
      cases hdd : stageDiagn E p c with
      | error e => rfl
      | ok c =>
        simp only [Except.map]
        cases ho : readOrder p.opt.ordercnstit with
        | error e => rfl
        | ok o =>
          dsimp only
          exact reorder_withLat E b c o

theorem utE_noLat (fl : Flags) (hn : fl.nodsatnone = true) (a b : ℝ) :
    (fun tref => utE fl tref a) = fun tref => utE fl tref b := by
  funext tref t frq k
  exact (C43_irrelevant fl hn tref t a b frq k).1

theorem modelRow_noLat (fl : Flags) (hn : fl.nodsatnone = true) (a b tref lor : ℝ) (tr ap : Bool) (sel : Sel) :
    modelRow fl tref a lor tr ap sel = modelRow fl tref b lor tr ap sel := by
  have h : utE fl tref a = utE fl tref b := congrFun (utE_noLat fl hn a b) tref
  funext t
  unfold modelRow rowNR etilp etilm qsum
  simp only [h]

theorem checkMatrix_noLat (q : Opt) (hn : q.flags.nodsatnone = true) (a b : ℝ) (au : Bool) (inf : Option InferSpec)
    (ed : Edited) (sel : Sel) : checkMatrix q au inf ed a sel = checkMatrix q au inf ed b sel := by
  have h : utE q.flags ed.tref a = utE q.flags ed.tref b := congrFun (utE_noLat q.flags hn a b) ed.tref
  have h2 : ∀ x k, nodalSingular q.flags x k = false := fun x k => (C43_irrelevant q.flags hn 0 0 x x 0 k).2
  have h3 : nodalSingular q.flags a = nodalSingular q.flags b := by funext k; rw [h2, h2]
  unfold checkMatrix
  simp only [h, h3]

theorem stageInit_lat (E : Env) (q : Opt) (t : TimeArg) (u : Series) (v : Option Series) (a b : ℝ) :
    stageInit E q t u v (some b) = (stageInit E q t u v (some a)).map fun x => (x.1, b) := by
  unfold stageInit slvInit
  dsimp only
  cases checkShapes t u v with
  | error e => rfl
  | ok x =>
    cases hn : normalizeTime E.dt64 t.arr q.epoch with
    | error e => simp only [bind, Except.bind, hn]; rfl
    | ok tn =>
      simp only [bind, Except.bind, hn]
      cases editData tn u.data (v.map Series.data) <;> rfl

/-- **C152, latitude.** Without nodal corrections (`nodal=False`) two calls that differ in the latitude have the same
outcome: the same error, or the same result but for the recorded latitude. -/
theorem C152_latitude (E : Env) (t : TimeArg) (u : Series) (v : Option Series) (a b : ℝ) (opts : Dict PyVal)
    (hnd : opts.keys.Nodup) (hno : requested opts "nodal" = some (.bool false)) :
    (∀ e, solve E t u v (some a) opts = .error e ↔ solve E t u v (some b) opts = .error e) ∧
    (∀ c, solve E t u v (some a) opts = .ok c → c.lat = a ∧
      ∃ c', solve E t u v (some b) opts = .ok c' ∧ c'.lat = b ∧ SameButLatitude c c') := by
  have key : ∀ a b, solve E t u v (some b) opts = (solve E t u v (some a) opts).map (withLat b) := by
    intro a b
    unfold solve
    cases hq : getOpt opts v.isSome with
    | error e => rfl
    | ok q =>
      have hn : q.flags.nodsatnone = true := by
        obtain ⟨hk, c, oc, ci, me, tr, ph, no, inf, ray, rk, wh, ve, ep, h1, h2, h3, h4, h5, h6, h7, h8, h9, h10,
          h11, h12, h13, r1, r2, r3, r4, r5, r6, r7, r8, r9, r10, r11, r12, r13, r14, r15, r16⟩ := getOpt_ok opts hnd _ q hq
        rw [requested_eq, h7] at hno
        cases Option.some.inj hno
        have hl : q.flags.nodsatlint = false :=
          (Except.ok.inj (show (Except.ok false : Except PyErr Bool) = .ok q.flags.nodsatlint from r11)).symm
        rw [if_neg (by rw [hl]; exact Bool.false_ne_true)] at r12
        have := Except.ok.inj (show (Except.ok false : Except PyErr Bool) = .ok (!q.flags.nodsatnone) from r12)
        cases hv : q.flags.nodsatnone with
        | true => rfl
        | false => rw [hv] at this; cases this
      change (stagePrep E q t u v (some b) >>= stageSolution E) =
        (stagePrep E q t u v (some a) >>= stageSolution E).map (withLat b)
      unfold stagePrep
      rw [stageInit_lat E q t u v a b]
      cases hi : stageInit E q t u v (some a) with
      | error e => rfl
      | ok x =>
        obtain ⟨ed, la⟩ := x
        simp only [Except.map, bind, Except.bind]
        cases stageSelect q ed with
        | error e => rfl
        | ok y =>
          obtain ⟨con, inf, sel⟩ := y
          dsimp only
          unfold stageMatrix
          rw [checkMatrix_noLat q hn b la]
          simp only [modelRow_noLat q.flags hn b la]
          cases checkMatrix q (con == .auto) inf ed la sel with
          | error e => rfl
          | ok z =>
            simp only [bind, Except.bind, pure, Except.pure]
            exact stageSolution_withLat E ⟨q, inf, ed, la, sel, numCols (!q.notrend) sel, _⟩ b
  rw [key a b]
  have hself := key a a
  cases hs : solve E t u v (some a) opts with
  | error e => simp [Except.map]
  | ok c =>
    refine ⟨by simp [Except.map], ?_⟩
    intro c0 hc0
    cases Except.ok.inj hc0
    rw [hs] at hself
    have hc := Except.ok.inj (show Except.ok c = Except.ok (withLat a c) from hself)
    exact ⟨by rw [hc]; rfl, withLat b c, rfl, rfl, rfl⟩

/-- Non-vacuity: the example options with four further ones that do not apply to them. -/
theorem extra_apply : ∃ q q', getOpt exOpts false = .ok q ∧
    getOpt (exOpts ++ [("Rayleigh_min", .num 5), ("white", .bool true), ("verbose", .bool false),
      ("robust_kw", .dict false [])]) false = .ok q' ∧ q'.rmin ≠ q.rmin ∧ q'.white ≠ q.white ∧ q'.verbose ≠ q.verbose ∧
    ListsConstituents exOpts ∧ requested exOpts "conf_int" = some (.str "none") ∧
    (∃ x, requested exOpts "method" = some x ∧ x.eqStr "ols" = .ok true) ∧
    ∀ k, k ∉ conditionalKeys → requested exOpts k = requested (exOpts ++ [("Rayleigh_min", .num 5),
      ("white", .bool true), ("verbose", .bool false), ("robust_kw", .dict false [])]) k := by
  refine ⟨exOpt false, { exOpt false with rmin := 5, white := true, verbose := false }, exOpt_eq false, by kernel_rfl,
    ?_, ?_, ?_, ⟨_, ["M2"], rfl, rfl⟩, rfl, ⟨_, rfl, rfl⟩, ?_⟩
  · simp [exOpt]
  · simp [exOpt]
  · simp [exOpt]
  · intro k hk
    simp only [conditionalKeys, List.mem_cons, List.not_mem_nil, or_false, not_or] at hk
    obtain ⟨k1, k2, k3, k4, k5⟩ := hk
    have e1 : ("Rayleigh_min" == k) = false := by simpa using Ne.symm k4
    have e2 : ("white" == k) = false := by simpa using Ne.symm k5
    have e3 : ("verbose" == k) = false := by simpa using Ne.symm k1
    have e4 : ("robust_kw" == k) = false := by simpa using Ne.symm k3
    unfold requested
    rw [List.find?_append]
    simp only [List.find?_cons, List.find?_nil, e1, e2, e3, e4, Option.or_none]

/-- Non-vacuity: their latitude does not matter either. -/
example : exOpts.keys.Nodup ∧ requested exOpts "nodal" = some (.bool false) := ⟨by decide, rfl⟩

end

end Props

end UTide
