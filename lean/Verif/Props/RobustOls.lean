import Verif.Props.RobustFalse
import Verif.Props.QuadExample

/-!
# C49: robust fitting with the `ols` weights; C46 at the level of `solve`
-/

namespace UTide.Props

noncomputable section

open Classical

theorem ones_mul (X : List (List ℂ)) (y : List ℂ) (hy : X.length = y.length) :
    List.zipWith (fun (wi : ℝ) r => r.map fun x => (wi : ℂ) * x) (y.map fun _ => (1 : ℝ)) X = X ∧
    List.zipWith (fun (wi : ℝ) yi => (wi : ℂ) * yi) (y.map fun _ => (1 : ℝ)) y = y := by
  constructor
  · induction y generalizing X with
    | nil => have : X = [] := by simpa using hy
             subst this; rfl
    | cons a y ih =>
      cases X with
      | nil => simp at hy
      | cons r X =>
        simp only [List.map_cons, List.zipWith_cons_cons]
        rw [ih X (by simpa using hy)]
        simp
  · clear hy
    induction y with
    | nil => rfl
    | cons a y ih => rw [List.map_cons, List.zipWith_cons_cons, ih]; simp

variable {N : Num} {a : RobArgs} {ncol : ℕ} {X : List (List ℂ)} {y : List ℂ}

theorem ols_passW (hy : X.length = y.length) (k : ℕ) :
    passW N (robProblem N a .ols ncol X y) k = y.map fun _ => 1 := by
  have hl := passW_length N a .ols ncol X y hy k
  cases k with
  | zero => rfl
  | succ k =>
    refine List.ext_getElem (by simpa using hl) fun i h1 h2 => ?_
    simp only [passW, List.getElem_map]
    rfl

theorem ols_passFit (hy : X.length = y.length) (k : ℕ) :
    passFit N (robProblem N a .ols ncol X y) k = N.lstsq (some a.rcond) ncol X y := by
  unfold passFit
  rw [ols_passW hy]
  unfold weightedFit
  show N.lstsq (some a.rcond) ncol (List.zipWith _ _ X) (List.zipWith _ _ y) = _
  rw [(ones_mul X y hy).1, (ones_mul X y hy).2]

/-- The ordinary least-squares solution: as small a misfit as possible, and the smallest such coefficients. -/
def IsOls (ncol : ℕ) (X : List (List ℂ)) (y b : List ℂ) : Prop :=
  b.length = ncol ∧
  (∀ b' : List ℂ, b'.length = ncol → ((X.zip y).map fun q => ‖q.2 - dot q.1 b‖ ^ 2).sum ≤
    ((X.zip y).map fun q => ‖q.2 - dot q.1 b'‖ ^ 2).sum) ∧
  (∀ b' : List ℂ, b'.length = ncol → ((X.zip y).map fun q => ‖q.2 - dot q.1 b'‖ ^ 2).sum ≤
    ((X.zip y).map fun q => ‖q.2 - dot q.1 b‖ ^ 2).sum → (b.map fun z => ‖z‖ ^ 2).sum ≤ (b'.map fun z => ‖z‖ ^ 2).sum)

theorem cost_zip (X : List (List ℂ)) (y b : List ℂ) :
    cost X y b = ((X.zip y).map fun q => ‖q.2 - dot q.1 b‖ ^ 2).sum := by
  unfold cost
  rw [← List.zipWith_map_eq X y fun q => ‖q.2 - dot q.1 b‖ ^ 2]

theorem IsMinNormSol.isOls {b : List ℂ} (h : IsMinNormSol ncol X y b) : IsOls ncol X y b := by
  refine ⟨h.length, ?_, ?_⟩
  · intro b' hb
    rw [← cost_zip, ← cost_zip]
    exact h.optimal b' hb
  · intro b' hb hc
    rw [← cost_zip, ← cost_zip] at hc
    exact h.minimal b' hb (le_antisymm hc (h.optimal b' hb))

/-- C49: `robustfit` with the `ols` weights returns the ordinary least-squares coefficients, unit weights, and the
rms residual of that fit. -/
theorem C49_ols (hl : LstsqOk N.lstsq) (ha : exactRcond (some a.rcond)) (hf : a.wfName = "ols")
    (hX : ∀ r ∈ X, r.length = ncol) (hy : X.length = y.length) (out : RobOut)
    (h : robustfit N a ncol X y = .ok out) :
    IsOls ncol X y out.b ∧ out.b = out.olsB ∧ out.w = y.map (fun _ => 1) ∧ out.rmsResid = rmsOf X y out.b ∧
      out.rmsResid = out.olsRmsResid ∧ (0 < a.tol → rmsOf X y out.b ≠ 0 → out.iterations ≤ 2) := by
  obtain ⟨f, e, n, hwf, -, rfl, hn, hfit, hit, hsome, hpass, hend⟩ := robustfit_spec N a ncol X y out h
  rw [hf] at hwf
  have : f = .ols := by simpa [WFun.ofName] using hwf.symm
  subst this
  have hm := (hl (some a.rcond) ncol X y hX hy).2 ha
  have hb : e.fit.b = (N.lstsq (some a.rcond) ncol X y).b := by rw [hfit, ols_passFit hy]
  have hr : e.resid = residual (robProblem N a .ols ncol X y) (N.lstsq (some a.rcond) ncol X y).b := by
    cases hend with
    | worse h hq hw hr hs' hi => rw [hr, ols_passFit hy]
    | small h hw hr hi0 hi => rw [hr, ols_passFit hy]
    | exhausted h hw hr hq => rw [hr, ols_passFit hy]
  have hw : e.w = y.map fun _ => 1 := by
    cases hend with
    | worse h hq hw hr hs' hi => rw [hw, ols_passW hy]
    | small h hw hr hi0 hi => rw [hw, ols_passW hy]
    | exhausted h hw hr hq => rw [hw, ols_passW hy]
  have hrms : Real.sqrt ((e.resid.map fun r => ‖r‖ ^ 2).sum / e.resid.length) = rmsOf X y e.fit.b := by
    rw [hr, hb]; exact rmsOf_residual (robProblem N a .ols ncol X y) hy _
  rw [ols_passFit hy] at hsome
  obtain ⟨s, hs⟩ := Option.isSome_iff_exists.1 hsome
  have hsc := hm.2.1 s hs
  rw [cost_zip] at hsc
  refine ⟨by rw [hb]; exact IsMinNormSol.isOls hm.1, by rw [hb, ols_passFit hy], hw, hrms, ?_, ?_⟩
  · rw [hrms, hb, ols_passFit hy, hs]
    unfold rmsOf
    rw [Option.getD_some, hsc, hy]
  · intro ht hz
    show e.iterations ≤ 2
    rw [hit]
    by_contra hcon
    have h1 := ((hpass 1 (by omega)).2.2 le_rfl).2
    have hms : ∀ k, passMs N (robProblem N a .ols ncol X y) k = s / (y.map fun _ => (1 : ℝ)).sum := by
      intro k
      unfold passMs
      rw [ols_passFit hy, ols_passW hy, hs, Option.getD_some]
    have hsum : (y.map fun _ => (1 : ℝ)).sum = y.length := by simp
    rw [hms, hms, hsum] at h1
    have hne : s / (y.length : ℝ) ≠ 0 := by
      intro h0
      apply hz
      rw [hb]
      unfold rmsOf
      rw [← hsc, h0, Real.sqrt_zero]
    apply h1
    unfold improvement Fl.div
    dsimp only
    rw [if_neg hne, sub_self, zero_div]
    show (0 : ℝ) < ((a.tol : ℚ) : ℝ)
    exact_mod_cast ht

/-- It does return, for every problem with more observations than unknowns and independent columns. -/
theorem C49_returns (hl : LstsqOk N.lstsq) (ha : exactRcond (some a.rcond)) (hf : a.wfName = "ols")
    (hX : ∀ r ∈ X, r.length = ncol) (hy : X.length = y.length) (hi : IndepColumns ncol X) (hn : ncol < X.length)
    (hmax : 1 ≤ a.maxit) : ∃ out, robustfit N a ncol X y = .ok out := by
  have hs : (N.lstsq (some a.rcond) ncol X y).resid.isSome :=
    ((hl (some a.rcond) ncol X y hX hy).2 ha).2.2.2 ⟨hi, hn⟩
  have hgo : ∀ k, Goes N (robProblem N a .ols ncol X y) k := fun k =>
    ⟨fun h => h.1 rfl, fun h => by simp [robProblem, WFun.usesMax] at h⟩
  have hloop : ∀ k j, k + (j + 1) = a.maxit → ∃ e, robLoop N (robProblem N a .ols ncol X y) a.maxit k (j + 1)
      (passW N (robProblem N a .ols ncol X y) (j + 1)) (some (passOld N (robProblem N a .ols ncol X y) j)) = .ok e := by
    intro k
    induction k with
    | zero => intro j _; exact ⟨_, rfl⟩
    | succ k ih =>
      intro j hj
      set p := robProblem N a .ols ncol X y with hp
      have hsome : ∀ k, (passFit N p k).resid.isSome := fun k => by rw [hp, ols_passFit hy]; exact hs
      by_cases h1 : improvement (passMs N p j) (passMs N p (j + 1)) < Fl.fin 0
      · have := (robStep_some N p j _).2 ⟨hsome _, .inl ⟨h1, rfl⟩⟩
        exact ⟨_, by simp only [robLoop]; rw [this]⟩
      · by_cases h2 : improvement (passMs N p j) (passMs N p (j + 1)) < Fl.fin p.tol
        · have := (robStep_some N p j _).2 ⟨hsome _, .inr (.inl ⟨h1, h2, rfl⟩)⟩
          exact ⟨_, by simp only [robLoop]; rw [this]⟩
        · have := (robStep_some N p j _).2 ⟨hsome _, .inr (.inr ⟨⟨hsome _, hgo _, fun _ => ⟨h1, h2⟩⟩, rfl⟩)⟩
          obtain ⟨e, he⟩ := ih (j + 1) (by omega)
          exact ⟨e, by simp only [robLoop]; rw [this]; exact he⟩
  obtain ⟨k, hk⟩ : ∃ k, a.maxit = k + 1 := ⟨a.maxit - 1, by omega⟩
  obtain ⟨e, he⟩ := hloop k 0 (by omega)
  have h0 := (robStep_none N (robProblem N a .ols ncol X y) _).2
    ⟨⟨by rw [ols_passFit hy]; exact hs, hgo 0, fun h => by omega⟩, rfl⟩
  refine ⟨_, robustfit_returns N a ncol X y .ols e (by rw [hf]; simp [WFun.ofName]) (.inl rfl) ?_⟩
  rw [hk] at he ⊢
  simp only [robLoop]
  have h0' : robStep N (robProblem N a .ols ncol X y) 0 (y.map fun _ => (1 : ℝ)) none = _ := h0
  rw [h0']
  exact he

/-! ## At the level of `solve` -/

/-- The options other than `method` and `robust_kw` determine everything but the method. -/
theorem getOpt_method (opts opts' : Dict PyVal) (hnd : opts.keys.Nodup) (hnd' : opts'.keys.Nodup) (is2D : Bool)
    (heq : ∀ k, k ≠ "method" → k ≠ "robust_kw" → requested opts k = requested opts' k) (q q' : Opt)
    (h : getOpt opts is2D = .ok q) (h' : getOpt opts' is2D = .ok q') :
    q' = { q with method := q'.method } := by
  obtain ⟨hk, c, oc, ci, me, tr, ph, no, inf, ray, rk, wh, ve, ep, h1, h2, h3, h4, h5, h6, h7, h8, h9, h10,
      h11, h12, h13, r1, r2, r3, r4, r5, r6, r7, r8, r9, r10, r11, r12, r13, r14, r15, r16⟩ := getOpt_ok opts hnd is2D q h
  obtain ⟨hk', c', oc', ci', me', tr', ph', no', inf', ray', rk', wh', ve', ep', h1', h2', h3', h4', h5', h6', h7', h8', h9', h10',
      h11', h12', h13', r1', r2', r3', r4', r5', r6', r7', r8', r9', r10', r11', r12', r13', r14', r15', r16'⟩ :=
    getOpt_ok opts' hnd' is2D q' h'
  simp only [requested_eq] at heq
  have tr1 : ∀ {k : String} {x y : PyVal}, k ≠ "method" → k ≠ "robust_kw" → effective opts k = some x →
      effective opts' k = some y → y = x := by
    intro k x y hk hk2 hx hy
    rw [← heq k hk hk2, hx] at hy
    exact (Option.some.inj hy).symm
  obtain rfl := tr1 (by decide) (by decide) h1 h1'
  obtain rfl := tr1 (by decide) (by decide) h3 h3'
  obtain rfl := tr1 (by decide) (by decide) h2 h2'
  obtain rfl := tr1 (by decide) (by decide) h5 h5'
  obtain rfl := tr1 (by decide) (by decide) h6 h6'
  obtain rfl := tr1 (by decide) (by decide) h7 h7'
  obtain rfl := tr1 (by decide) (by decide) h8 h8'
  obtain rfl := tr1 (by decide) (by decide) h9 h9'
  obtain rfl := tr1 (by decide) (by decide) h11 h11'
  obtain rfl := tr1 (by decide) (by decide) h12 h12'
  obtain rfl := tr1 (by decide) (by decide) h13 h13'
  have okinj : ∀ {x : Except PyErr Bool} {a b : Bool}, x = .ok a → x = .ok b → b = a := by
    intro x a b ha hb; rw [ha] at hb; exact (Except.ok.inj hb).symm
  have e1 : q'.notrend = q.notrend := by
    have := okinj r6 r6'; exact Bool.not_inj this
  have e2 := okinj r7 r7'
  have e3 := okinj r8 r8'
  have e4 : q'.infer = q.infer := by rw [r3] at r3'; exact (Except.ok.inj r3').symm
  have e5 := r9.unique r9'
  have e6 : q'.flags.nodsatlint = q.flags.nodsatlint := okinj r11 r11'
  have e7 : q'.flags.gwchlint = q.flags.gwchlint := okinj r13 r13'
  have e8 : q'.flags.nodsatnone = q.flags.nodsatnone := by
    rw [e6] at r12'
    by_cases hl : q.flags.nodsatlint = true
    · rw [if_pos hl] at r12 r12'; rw [r12, r12']
    · rw [if_neg hl] at r12 r12'
      exact Bool.not_inj (okinj r12 r12')
  have e9 : q'.flags.gwchnone = q.flags.gwchnone := by
    rw [e7] at r14'
    by_cases hl : q.flags.gwchlint = true
    · rw [if_pos hl] at r14 r14'; rw [r14, r14']
    · rw [if_neg hl] at r14 r14'
      exact okinj r14 r14'
  have e10 : q'.ordercnstit = q.ordercnstit := by
    rw [e5.1, r4] at r4'; exact (Except.ok.inj r4').symm
  have e11 : q'.rmin = q.rmin := by
    rcases r16 with hr | ⟨b, hr, hq⟩
    · rcases r16' with hr' | ⟨b', hr', hq'⟩
      · rw [hr] at hr'; injection hr' with hr'; exact hr'.symm
      · rw [hr] at hr'; simp at hr'
    · rcases r16' with hr' | ⟨b', hr', hq'⟩
      · rw [hr] at hr'; simp at hr'
      · rw [hr] at hr'; injection hr' with hr'; rw [hq, hq', hr']
  have e12 : q'.flags = q.flags := by
    exact flags_ext _ _ e6 e8 e7 e9
  have e13 : q'.twodim = q.twodim := by rw [r1, r1']
  have e14 : q'.cnstit = q.cnstit := by rw [r2, r2']
  have e15 : q'.epoch = q.epoch := by rw [r5, r5']
  have e16 : q'.nodiagn = q.nodiagn := by rw [r10, r10', e5.1]
  obtain ⟨e5a, e5b⟩ := e5
  cases q; cases q'
  simp only at e1 e2 e3 e4 e5a e5b e10 e11 e12 e13 e14 e15 e16
  subst e1 e2 e3 e4 e5a e5b e10 e11 e12 e13 e14 e15 e16
  rfl


/-- The prepared problem does not depend on the method. -/
theorem prepOk_method {E : Env} {opt : Opt} {t : TimeArg} {u : Series} {v : Option Series} {lat : Option ℝ}
    {tn tn' : List Fl} {constit constit' : Constit} {p p' : Prep} {x : Method}
    (hp : PrepOk E opt t u v lat tn constit p)
    (hp' : PrepOk E { opt with method := x } t u v lat tn' constit' p') :
    p' = { p with opt := { opt with method := x } } := by
  have h1 : PrepOk E { opt with method := x } t u v lat tn constit
      { p with opt := { opt with method := x } } :=
    { init := ⟨hp.init.hlat, hp.init.shapes, hp.init.time, hp.init.edit⟩
      cons := hp.cons, hinfer := hp.hinfer, hsel := hp.hsel, check := hp.check, hopt := rfl, nm := hp.nm, B := hp.B }
  have e1 := (stagePrep_ok E { opt with method := x } t u v lat _).2 ⟨_, _, h1⟩
  have e2 := (stagePrep_ok E { opt with method := x } t u v lat _).2 ⟨_, _, hp'⟩
  exact Except.ok.inj (e2.symm.trans e1)

/-- `c` with another record of the options and of the robust fit. -/
def relabel (q : Opt) (rf : Option RobOut) (c : Coef) : Coef := { c with opt := q, rf := rf }

theorem stageConf_relabel (E : Env) (p : Prep) (m : List ℂ) (W : List ℝ) (rf rf' : Option RobOut) (x : Method) :
    stageConf E { p with opt := { p.opt with method := x } } m W
        (rawCoef { p with opt := { p.opt with method := x } } m W rf') =
      (stageConf E p m W (rawCoef p m W rf)).map (relabel { p.opt with method := x } rf') := by
  have hc : confIn { p with opt := { p.opt with method := x } } m W = confIn p m W := rfl
  unfold stageConf
  rw [hc]
  by_cases h : p.opt.confInt = true
  · rw [if_pos h]
    dsimp only
    rw [if_pos h]
    cases confidence E.num (confIn p m W) <;> rfl
  · rw [if_neg h]
    dsimp only
    rw [if_neg h]
    rfl

theorem stageDiagn_relabel (E : Env) (p : Prep) (c : Coef) (rf' : Option RobOut) (x : Method) :
    stageDiagn E { p with opt := { p.opt with method := x } } (relabel { p.opt with method := x } rf' c) =
      (stageDiagn E p c).map (relabel { p.opt with method := x } rf') := by
  unfold stageDiagn
  by_cases h : p.opt.nodiagn = true
  · rw [if_pos h]; dsimp only; rw [if_pos h]; rfl
  · rw [if_neg h]; dsimp only; rw [if_neg h]
    unfold addDiagn
    have : snr (relabel { p.opt with method := x } rf' c).ell (relabel { p.opt with method := x } rf' c).ci =
        snr c.ell c.ci := rfl
    rw [this]
    cases snr c.ell c.ci <;> rfl

theorem reorder_relabel (E : Env) (c : Coef) (o : Order) (q : Opt) (rf' : Option RobOut) :
    reorder E (relabel q rf' c) o = (reorder E c o).map (relabel q rf') := by
  unfold reorder orderIndex
  cases o with
  | PE => rfl
  | frequency => rfl
  | SNR =>
    have : (relabel q rf' c).SNR = c.SNR := rfl
    dsimp only
    rw [this]
    cases c.SNR <;> rfl
  | names l =>
    have : (relabel q rf' c).name = c.name := rfl
    dsimp only
    rw [this]
    cases l.mapM (listIndex c.name) <;> rfl

/-- If two methods give the same coefficients and weights, all the rest is the same. -/
theorem stageSolution_relabel (E : Env) (p : Prep) (m : List ℂ) (W : List ℝ) (rf rf' : Option RobOut) (x : Method)
    (h : stageFit E p = .ok (m, W, rf))
    (h' : stageFit E { p with opt := { p.opt with method := x } } = .ok (m, W, rf')) :
    stageSolution E { p with opt := { p.opt with method := x } } =
      (stageSolution E p).map (relabel { p.opt with method := x } rf') := by
  unfold stageSolution
  rw [h, h']
  simp only [ok_bind]
  rw [stageConf_relabel E p m W rf rf' x]
  cases stageConf E p m W (rawCoef p m W rf) with
  | error e => rfl
  | ok c1 =>
    simp only [Except.map, ok_bind]
    rw [stageDiagn_relabel]
    cases stageDiagn E p c1 with
    | error e => rfl
    | ok c2 =>
      simp only [Except.map, ok_bind]
      cases readOrder p.opt.ordercnstit with
      | error e => rfl
      | ok o =>
        simp only [ok_bind]
        rw [reorder_relabel]
        rfl

/-- Keyword arguments as `robustfit` sees them. -/
theorem readRobArgs_facts (kw : List (String × PyVal)) (hk : (kw.map Prod.fst).Nodup) (a0 a : RobArgs)
    (h : readRobArgs kw a0 = .ok a) :
    (∀ s, ("weight_function", PyVal.str s) ∈ kw → a.wfName = s) ∧
    ((∀ v, ("weight_function", v) ∉ kw) → a.wfName = a0.wfName) ∧
    (∀ q, ("rcond", PyVal.num q) ∈ kw → a.rcond = q) ∧
    ((∀ v, ("rcond", v) ∉ kw) → a.rcond = a0.rcond) := by
  induction kw generalizing a0 with
  | nil =>
    have := Except.ok.inj h
    subst this
    simp
  | cons kv kw ih =>
    obtain ⟨k, v⟩ := kv
    simp only [List.map_cons, List.nodup_cons, List.mem_map, Prod.exists, exists_and_right, exists_eq_right,
      not_exists] at hk
    obtain ⟨hk1, hk2⟩ := hk
    have other : ∀ a1 : RobArgs, k ≠ "weight_function" → k ≠ "rcond" → a1.wfName = a0.wfName → a1.rcond = a0.rcond →
        readRobArgs kw a1 = .ok a → _ := fun a1 h1 h2 e1 e2 hr => by
      obtain ⟨i1, i2, i3, i4⟩ := ih hk2 a1 hr
      refine (⟨?_, ?_, ?_, ?_⟩ : (∀ s, ("weight_function", PyVal.str s) ∈ (k, v) :: kw → a.wfName = s) ∧
        ((∀ w, ("weight_function", w) ∉ (k, v) :: kw) → a.wfName = a0.wfName) ∧
        (∀ q, ("rcond", PyVal.num q) ∈ (k, v) :: kw → a.rcond = q) ∧
        ((∀ w, ("rcond", w) ∉ (k, v) :: kw) → a.rcond = a0.rcond))
      · intro s hs
        rcases List.mem_cons.1 hs with hs | hs
        · exact absurd (congrArg Prod.fst hs).symm h1
        · exact i1 s hs
      · intro hn
        rw [← e1]; exact i2 fun w hw => hn w (List.mem_cons_of_mem _ hw)
      · intro q hq
        rcases List.mem_cons.1 hq with hq | hq
        · exact absurd (congrArg Prod.fst hq).symm h2
        · exact i3 q hq
      · intro hn
        rw [← e2]; exact i4 fun w hw => hn w (List.mem_cons_of_mem _ hw)
    unfold readRobArgs at h
    split_ifs at h with h1 h2 h3 h4 h5
    · subst h1
      split at h
      · rename_i s
        obtain ⟨i1, i2, i3, i4⟩ := ih hk2 _ h
        refine ⟨?_, ?_, ?_, ?_⟩
        · intro s' hs
          rcases List.mem_cons.1 hs with hs | hs
          · simp only [Prod.mk.injEq, PyVal.str.injEq, true_and] at hs
            rw [hs]; exact i2 hk1
          · exact absurd hs (hk1 _)
        · intro hn; exact absurd List.mem_cons_self (hn _)
        · intro q hq
          refine i3 q ?_
          simpa using hq
        · intro hn
          exact i4 fun v hv => hn v (List.mem_cons_of_mem _ hv)
      · simp at h
    · split at h
      · exact other _ h1 (by rw [h2]; decide) (by rfl) (by rfl) h
      · exact other _ h1 (by rw [h2]; decide) (by rfl) (by rfl) h
      · simp at h
    · subst h3
      split at h
      · rename_i q0
        obtain ⟨i1, i2, i3, i4⟩ := ih hk2 _ h
        refine ⟨?_, ?_, ?_, ?_⟩
        · intro s hs
          refine i1 s ?_
          simpa using hs
        · intro hn
          exact i2 fun v hv => hn v (List.mem_cons_of_mem _ hv)
        · intro q hq
          rcases List.mem_cons.1 hq with hq | hq
          · simp only [Prod.mk.injEq, PyVal.num.injEq, true_and] at hq
            rw [hq]; exact i4 hk1
          · exact absurd hq (hk1 _)
        · intro hn; exact absurd List.mem_cons_self (hn _)
      · simp at h
    · split at h
      · exact other _ h1 h3 (by rfl) (by rfl) h
      · simp at h
    · split at h
      · split_ifs at h
        exact other _ h1 h3 (by rfl) (by rfl) h
      · simp at h

/-- `robust_kw` chooses the weight function `name` and leaves `rcond` alone or sets it to a harmless value. -/
structure Chooses (kw : List (String × PyVal)) (name : String) : Prop where
  nodup : (kw.map Prod.fst).Nodup
  wf : ("weight_function", PyVal.str name) ∈ kw
  rcond : ∀ v, ("rcond", v) ∈ kw → ∃ q : ℚ, v = .num q ∧ (q ≤ 0 ∨ 1 ≤ q)

theorem Chooses.args {kw : List (String × PyVal)} {name : String} (hc : Chooses kw name) {a : RobArgs}
    (h : readRobArgs kw robDefaults = .ok a) : a.wfName = name ∧ exactRcond (some a.rcond) := by
  obtain ⟨h1, -, h3, h4⟩ := readRobArgs_facts kw hc.nodup _ _ h
  refine ⟨h1 _ hc.wf, ?_⟩
  by_cases hr : ∃ v, ("rcond", v) ∈ kw
  · obtain ⟨v, hv⟩ := hr
    obtain ⟨q, rfl, hq⟩ := hc.rcond v hv
    rw [h3 q hv]; exact hq
  · push Not at hr
    rw [h4 hr]; exact .inr le_rfl

variable {E : Env} {t : TimeArg} {u : Series} {v : Option Series} {lat : Option ℝ}

/-- C49 for users of `solve`: the run with `method='robust', robust_kw={'weight_function': 'ols'}` agrees with the run
with `method='ols'` in everything but the record of the options and of the robust fit. -/
theorem C49_solve (R : Ready E t u v) (opts opts' : Dict PyVal) (hnd : opts.keys.Nodup) (hnd' : opts'.keys.Nodup)
    (hsame : ∀ k, k ≠ "method" → k ≠ "robust_kw" → requested opts k = requested opts' k)
    (hm : requested opts "method" = some (.str "ols")) (hm' : requested opts' "method" = some (.str "robust"))
    (b : Bool) (kw : List (String × PyVal)) (hkw : requested opts' "robust_kw" = some (.dict b kw))
    (hc : Chooses kw "ols") (c c' : Coef) (h : solve E t u v lat opts = .ok c)
    (h' : solve E t u v lat opts' = .ok c') :
    c' = { c with opt := c'.opt, rf := c'.rf } ∧ c'.opt = { c.opt with method := c'.opt.method } ∧ c.rf = none ∧
    ∃ rf, c'.rf = some rf ∧ rf.b = rf.olsB ∧ rf.w = c.weights := by
  obtain ⟨opt, p, tn, con, m, W, rf, c1, c2, o, hopt, hp, hs⟩ := (solve_ok _ _ _ _ _ _ _).1 h
  obtain ⟨opt', p', tn', con', m', W', rf', c1', c2', o', hopt', hp', hs'⟩ := (solve_ok _ _ _ _ _ _ _).1 h'
  have ho := getOpt_method opts opts' hnd hnd' _ hsame _ _ hopt hopt'
  generalize hx : opt'.method = x at ho
  subst ho
  have hpp := prepOk_method hp hp'
  have hpo := hp.hopt
  subst hpo
  have hols : p.opt.method = .ols := (getOpt_requests _ hnd _ _ hopt).ols _ hm (by simp [PyVal.eqStr])
  obtain ⟨b2, kw2, hk2, hrob⟩ := (getOpt_requests _ hnd' _ _ hopt').robust _ hm' (by simp [PyVal.eqStr])
  rw [hkw] at hk2
  simp only [Option.some.injEq, PyVal.dict.injEq] at hk2
  obtain ⟨rfl, rfl⟩ := hk2
  have hfit := hs.fit
  have hfit' := hs'.fit
  have hl := R.lstsq none p.nm p.B (xraw p.ed) hp.rows (hp.height R.ht R.hu R.hv)
  have hmW : (E.num.lstsq none p.nm p.B (xraw p.ed)).b = m ∧ (p.ed.t.map fun _ => (1 : ℝ)) = W ∧ none = rf := by
    unfold stageFit at hfit
    rw [hols] at hfit
    simpa using hfit
  obtain ⟨hm1, hW1, hrf1⟩ := hmW
  have hmW' : m' = m ∧ W' = W ∧ ∃ r, rf' = some r ∧ r.b = r.olsB ∧ r.w = W := by
    unfold stageFit at hfit'
    rw [hpp] at hfit'
    dsimp only at hrob hfit'
    rw [hrob] at hfit'
    simp only [bind_eq_ok, pure_eq_ok, Except.ok.injEq, Prod.mk.injEq] at hfit'
    obtain ⟨a, ha, r, hr, rfl, rfl, rfl⟩ := hfit'
    obtain ⟨hwf, hex⟩ := hc.args ha
    obtain ⟨g1, g2, g3, g4, g5, g6⟩ := C49_ols R.lstsq hex hwf hp.rows (hp.height R.ht R.hu R.hv) r hr
    have hb : r.b = m := by
      rw [← hm1]
      have hmin' : IsMinNormSol p.nm p.B (xraw p.ed) r.b :=
        ⟨g1.1, fun b' hb => by rw [cost_zip, cost_zip]; exact g1.2.1 b' hb,
          fun b' hb he => g1.2.2 b' hb (by rw [← cost_zip, ← cost_zip]; exact he.le)⟩
      exact hmin'.unique (hp.height R.ht R.hu R.hv) (hl.2 trivial).1
    have hw : r.w = W := by
      rw [g3, ← hW1]
      have hlen : (xraw p.ed).length = p.ed.t.length := by
        rw [← hp.height R.ht R.hu R.hv, hp.B, List.length_map]
      refine List.ext_getElem (by simp [hlen]) fun i h1 h2 => by simp
    exact ⟨hb, hw, r, rfl, g2, hw⟩
  obtain ⟨rfl, rfl, r, hr1, hr2, hr3⟩ := hmW'
  have key := stageSolution_relabel E p _ _ rf rf' x hfit (by rw [← hpp]; exact hfit')
  rw [(stageSolution_ok E p c).2 ⟨_, _, _, _, _, _, hs⟩] at key
  have hc' := (stageSolution_ok E p' c').2 ⟨_, _, _, _, _, _, hs'⟩
  rw [hpp] at hc'
  have hcc : c' = relabel { p.opt with method := x } rf' c := by
    rw [key] at hc'
    exact (Except.ok.inj hc').symm
  have hh := hs.head
  subst hcc
  refine ⟨rfl, ?_, hh.rf.trans hrf1.symm, r, hr1, hr2, ?_⟩
  · show { p.opt with method := x } = { c.opt with method := x }
    rw [hh.opt]; rfl
  · rw [hr3]; exact hh.weights.symm

/-! ## Non-vacuity -/

/-- The example options with a method. -/
def methodOpts (me : String) (kw : List (String × PyVal)) : Dict PyVal :=
  [("constit", .seq .list [.str "M2"]), ("conf_int", .str "none"), ("trend", .bool false), ("nodal", .bool false),
   ("phase", .str "raw"), ("order_constit", .str "frequency"), ("epoch", .str "python"), ("method", .str me),
   ("robust_kw", .dict false kw)]

theorem methodOpts_ols : getOpt (methodOpts "ols" []) false = .ok (exOpt false) := by rfl

theorem methodOpts_robust (kw : List (String × PyVal)) :
    getOpt (methodOpts "robust" kw) false = .ok { exOpt false with method := .robust kw } := by
  unfold methodOpts
  rfl

theorem methodOpts_requested (me me' : String) (kw kw' : List (String × PyVal)) (k : String) (h1 : k ≠ "method")
    (h2 : k ≠ "robust_kw") : requested (methodOpts me kw) k = requested (methodOpts me' kw') k := by
  have e1 : ("method" == k) = false := by simpa using Ne.symm h1
  have e2 : ("robust_kw" == k) = false := by simpa using Ne.symm h2
  unfold requested
  congr 1
  simp only [methodOpts, List.find?, e1, e2]

/-- A run with the example options returns as soon as the fit does. -/
theorem quad_returns (opts : Dict PyVal) (q : Opt) (hopt : getOpt opts false = .ok q) (hq : LikeEx q)
    (hci : q.confInt = false) (hnd : q.nodiagn = true) (ho : q.ordercnstit = .str "frequency") (a b c d : ℝ)
    (hfit : ∀ p, QuadPrep none q a b c d p → ∃ m W rf, stageFit idealEnv p = .ok (m, W, rf)) :
    ∃ co, solve idealEnv quadT (quadSeries a b c d) none (some 45) opts = .ok co := by
  obtain ⟨p, hp⟩ := quad_prep a b c d none (.inl rfl) q hq
  obtain ⟨m, W, rf, hf⟩ := hfit p hp
  have hpo := hp.prep.hopt
  obtain ⟨c', ind, h1⟩ : ∃ c' ind, orderIndex idealEnv (rawCoef p m W rf) .frequency = .ok (c', ind) := ⟨_, _, rfl⟩
  refine ⟨_, (solve_ok _ _ _ _ _ _ _).2 ⟨q, p, _, _, m, W, rf, rawCoef p m W rf, rawCoef p m W rf, .frequency, hopt,
    hp.prep, hf, ?_, ?_, ?_, (reorder_ok _ _ _ _).2 ⟨c', ind, h1, rfl⟩⟩⟩
  · unfold stageConf; rw [hpo, hci]; rfl
  · unfold stageDiagn; rw [hpo, hnd]; rfl
  · rw [hpo, ho]; rfl

/-- Non-vacuity of C49: both runs return, with a non-zero misfit. -/
example : ∃ c c', solve idealEnv quadT (quadSeries 1 0 2 5) none (some 45) (methodOpts "ols" []) = .ok c ∧
    solve idealEnv quadT (quadSeries 1 0 2 5) none (some 45)
      (methodOpts "robust" [("weight_function", .str "ols")]) = .ok c' ∧
    c' = { c with opt := c'.opt, rf := c'.rf } ∧ c'.rf.isSome := by
  have R := quad_ready 1 0 2 5 none (.inl rfl)
  obtain ⟨c, hc⟩ := quad_returns (methodOpts "ols" []) _ methodOpts_ols ⟨rfl, rfl, rfl, rfl, rfl⟩ rfl rfl rfl 1 0 2 5
    (fun p hp => by
      unfold stageFit
      rw [hp.prep.hopt]
      exact ⟨_, _, _, rfl⟩)
  obtain ⟨c', hc'⟩ := quad_returns (methodOpts "robust" [("weight_function", .str "ols")]) _ (methodOpts_robust _)
    ⟨rfl, rfl, rfl, rfl, rfl⟩ rfl rfl rfl 1 0 2 5 (fun p hp => by
      unfold stageFit
      rw [hp.prep.hopt]
      obtain ⟨out, hout⟩ := C49_returns (N := idealEnv.num) (a := { robDefaults with wfName := "ols" }) R.lstsq
        (.inr le_rfl) rfl hp.prep.rows (hp.prep.height R.ht R.hu R.hv) hp.indep (by
          obtain ⟨z, -, -, hB⟩ := hp.B
          rw [hp.nm, hB]; simp) (by decide)
      refine ⟨out.b, out.w, some out, ?_⟩
      show ((readRobArgs [("weight_function", .str "ols")] robDefaults) >>= fun a => _) = _
      have : readRobArgs [("weight_function", .str "ols")] robDefaults = .ok { robDefaults with wfName := "ols" } := rfl
      rw [this, ok_bind, hout]
      rfl)
  obtain ⟨h1, -, -, rf, h2, -⟩ := C49_solve R (methodOpts "ols" []) (methodOpts "robust" [("weight_function", .str "ols")])
    (by decide) (by decide) (methodOpts_requested _ _ _ _) rfl rfl false _ rfl
    ⟨by decide, by simp, by simp⟩ c c' hc hc'
  exact ⟨c, c', hc, hc', h1, by rw [h2]; rfl⟩

/-- C46 for users of `solve`: a run with `andrews`, `huber` or `logistic` weights never returns. -/
theorem C46_solve (R : Ready E t u v) (opts : Dict PyVal) (hnd : opts.keys.Nodup) (me : String) (hme : me ≠ "ols")
    (hm : requested opts "method" = some (.str me)) (b : Bool) (kw : List (String × PyVal))
    (hkw : requested opts "robust_kw" = some (.dict b kw)) (name : String)
    (hname : name ∈ ["andrews", "huber", "logistic"]) (hc : Chooses kw name) (c : Coef) :
    solve E t u v lat opts ≠ .ok c := by
  intro h
  obtain ⟨opt, p, tn, con, m, W, rf, c1, c2, o, hopt, hp, hs⟩ := (solve_ok _ _ _ _ _ _ _).1 h
  obtain ⟨b2, kw2, hk2, hrob⟩ := (getOpt_requests _ hnd _ _ hopt).robust _ hm (by simp [PyVal.eqStr, hme])
  rw [hkw] at hk2
  simp only [Option.some.injEq, PyVal.dict.injEq] at hk2
  obtain ⟨rfl, rfl⟩ := hk2
  have hfit := hs.fit
  unfold stageFit at hfit
  rw [hp.hopt, hrob] at hfit
  simp only [bind_eq_ok, pure_eq_ok, Except.ok.injEq, Prod.mk.injEq] at hfit
  obtain ⟨a, ha, r, hr, -⟩ := hfit
  obtain ⟨hwf, hex⟩ := hc.args ha
  refine C46_unusable E.num R.lstsq a hex p.nm ?_ p.B (xraw p.ed) hp.rows (hp.height R.ht R.hu R.hv)
    (by rw [hwf]; exact hname) r hr
  rw [hp.nm]; unfold numCols; omega

/-- Non-vacuity of C46: the options are accepted, the run fails. -/
example (c : Coef) : solve idealEnv quadT (quadSeries 1 0 2 5) none (some 45)
    (methodOpts "robust" [("weight_function", .str "huber")]) ≠ .ok c :=
  C46_solve (quad_ready 1 0 2 5 none (.inl rfl)) _ (by decide) "robust" (by decide) rfl false _ rfl "huber" (by simp)
    ⟨by decide, by simp, by simp⟩ c

end

end UTide.Props
