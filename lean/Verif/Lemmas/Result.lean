import Verif.Lemmas.Signal

/-!
# The parts of a result of `solve`, and their lengths
-/

namespace UTide

noncomputable section

/-! ## Number of fitted coefficients -/

theorem rowNR_length {tref : ℝ} {sel : Sel} (hal : SelAligned tref sel) (fl : Flags) (tr lat t : ℝ) :
    (rowNR fl tr lat sel t).length = sel.nNR := by
  unfold rowNR; rw [List.length_zipWith, hal.nrFrq, List.length_map, hal.nNR, min_self]

theorem modelRow_length {tref : ℝ} {sel : Sel} (hal : SelAligned tref sel) (fl : Flags) (tr lat lor : ℝ)
    (trend ap : Bool) (t : ℝ) : (modelRow fl tr lat lor trend ap sel t).length = numCols trend sel := by
  unfold modelRow numCols
  have := rowNR_length hal fl tr lat t
  cases trend <;> simp [this, hal.nR] <;> omega

theorem PrepOk.aligned {E : Env} {opt : Opt} {t : TimeArg} {u : Series} {v : Option Series} {lat : Option ℝ}
    {tn : List Fl} {constit : Constit} {p : Prep} (hp : PrepOk E opt t u v lat tn constit p) :
    SelAligned p.ed.tref p.sel := cnstitsel_aligned _ _ _ _ _ hp.hsel

theorem PrepOk.rows {E : Env} {opt : Opt} {t : TimeArg} {u : Series} {v : Option Series} {lat : Option ℝ}
    {tn : List Fl} {constit : Constit} {p : Prep} (hp : PrepOk E opt t u v lat tn constit p) :
    ∀ r ∈ p.B, r.length = p.nm := by
  intro r hr
  rw [hp.B, List.mem_map] at hr
  obtain ⟨t, -, rfl⟩ := hr
  rw [hp.nm, modelRow_length hp.aligned]

theorem PrepOk.height {E : Env} {opt : Opt} {t : TimeArg} {u : Series} {v : Option Series} {lat : Option ℝ}
    {tn : List Fl} {constit : Constit} {p : Prep} (hp : PrepOk E opt t u v lat tn constit p) (ht : t.WF) (hu : u.WF)
    (hv : ∀ w, v = some w → w.WF) : p.B.length = (xraw p.ed).length := by
  obtain ⟨-, h2, h3, -, -⟩ := editData_usable tn _ _ (hp.init.same ht hu hv) _ hp.init.edit
  rw [hp.B, List.length_map, h2, h3, List.length_map, List.length_map]

theorem weightedFit_length (N : Num) (h : LstsqOk N.lstsq) (p : RobProblem) (hr : ∀ r ∈ p.X, r.length = p.ncol)
    (hy : p.X.length = p.y.length) (w : List ℝ) : (weightedFit N p w).b.length = p.ncol := by
  unfold weightedFit
  refine (h _ _ _ _ ?_ ?_).1
  · intro r hr'
    rw [List.mem_iff_getElem] at hr'
    obtain ⟨i, hi, rfl⟩ := hr'
    simp only [List.getElem_zipWith, List.length_map]
    exact hr _ (List.getElem_mem _)
  · simp [hy]

/-- The fit the loop ends with is one of the weighted fits. -/
theorem robLoop_fit (N : Num) (p : RobProblem) (maxit k i : ℕ) (w : List ℝ) (old : Option Old)
    (hold : ∀ o, old = some o → ∃ w', o.fit = weightedFit N p w') (e : RobEnd)
    (h : robLoop N p maxit k i w old = .ok e) : ∃ w', e.fit = weightedFit N p w' := by
  induction k generalizing i w old with
  | zero =>
    cases old with
    | none => simp [robLoop] at h
    | some o =>
      simp only [robLoop, Except.ok.injEq] at h
      subst h
      exact hold o rfl
  | succ k ih =>
    simp only [robLoop] at h
    cases hs : robStep N p i w old with
    | error e => rw [hs] at h; simp at h
    | ok st =>
      rw [hs] at h
      have key : (∀ e, st = .stop e → ∃ w', e.fit = weightedFit N p w') ∧
          ∀ o w', st = .next o w' → o.fit = weightedFit N p w := by
        have hrew : ∀ r, reweight p (weightedFit N p w) w r = .ok st → (∀ e, st = .stop e → ∃ w', e.fit = weightedFit N p w') ∧
          ∀ o w', st = .next o w' → o.fit = weightedFit N p w := by
          intro r hr
          unfold reweight at hr
          dsimp only at hr
          split at hr
          · simp at hr
          · simp only [bind_eq_ok, pure_eq_ok, Except.ok.injEq] at hr
            obtain ⟨w', -, rfl⟩ := hr
            exact ⟨fun e he => by simp at he, fun o w'' he => by simp at he; rw [← he.1]⟩
        unfold robStep at hs
        dsimp only at hs
        split at hs
        · simp at hs
        · cases old with
          | none => exact hrew _ hs
          | some o =>
            dsimp only at hs
            split at hs
            · have := Except.ok.inj hs; subst this
              exact ⟨fun e he => by simp at he; subst he; exact hold o rfl, fun o w' he => by simp at he⟩
            · split at hs
              · have := Except.ok.inj hs; subst this
                exact ⟨fun e he => by simp at he; subst he; exact ⟨w, rfl⟩, fun o w' he => by simp at he⟩
              · exact hrew _ hs
      cases st with
      | stop e' =>
        simp only [Except.ok.injEq] at h
        subst h
        exact key.1 _ rfl
      | next o w' =>
        simp only at h
        exact ih _ _ _ (fun o' ho' => by simp at ho'; subst ho'; exact ⟨w, key.2 _ _ rfl⟩) h

theorem robustfit_length (N : Num) (h : LstsqOk N.lstsq) (a : RobArgs) (ncol : ℕ) (X : List (List ℂ)) (y : List ℂ)
    (hr : ∀ r ∈ X, r.length = ncol) (hy : X.length = y.length) (rf : RobOut)
    (hrf : robustfit N a ncol X y = .ok rf) : rf.b.length = ncol := by
  unfold robustfit at hrf
  simp only [bind_eq_ok, pure_eq_ok, Except.ok.injEq] at hrf
  obtain ⟨wf, -, _, -, e, he, rfl⟩ := hrf
  obtain ⟨w', hw'⟩ := robLoop_fit N _ _ _ _ _ none (by simp) e he
  dsimp only
  rw [hw']
  exact weightedFit_length N h _ hr hy w'

theorem stageFit_length {E : Env} {opt : Opt} {t : TimeArg} {u : Series} {v : Option Series} {lat : Option ℝ}
    {tn : List Fl} {constit : Constit} {p : Prep} (hp : PrepOk E opt t u v lat tn constit p) (ht : t.WF) (hu : u.WF)
    (hv : ∀ w, v = some w → w.WF) (hl : LstsqOk E.num.lstsq) (m : List ℂ) (W : List ℝ) (rf : Option RobOut)
    (h : stageFit E p = .ok (m, W, rf)) : m.length = p.nm := by
  unfold stageFit at h
  split at h
  · have := Except.ok.inj h
    rw [Prod.mk.injEq] at this
    rw [← this.1]
    exact (hl _ _ _ _ hp.rows (hp.height ht hu hv)).1
  · simp only [bind_eq_ok, pure_eq_ok, Except.ok.injEq, Prod.mk.injEq] at h
    obtain ⟨a, -, rf', hrf, rfl, -, -⟩ := h
    exact robustfit_length _ hl _ _ _ _ hp.rows (hp.height ht hu hv) _ hrf

/-! ## Lengths of the unordered result -/

theorem allAp_length {tref : ℝ} {sel : Sel} (hal : SelAligned tref sel) (trend : Bool) (m : List ℂ)
    (hm : m.length = numCols trend sel) :
    (allAp sel m).length = sel.lind.length ∧ (allAm sel m).length = sel.lind.length := by
  obtain ⟨a, b, c, d, e, f, hb⟩ := exists_blocks sel trend m hm
  have hc : c.length = sel.refs.length := by rw [hb.c, hal.nR]
  have hd : d.length = sel.refs.length := by rw [hb.d, hal.nR]
  have key : ∀ (R : InfCon → ℂ) (refs : List RefCon) (c : List ℂ), c.length = refs.length →
      ((refs.zip c).flatMap fun p => p.1.inf.map fun q => R q * p.2).length =
        (refs.flatMap fun r => r.inf.map InfCon.lind).length := by
    intro R refs
    induction refs with
    | nil => intros; rfl
    | cons r refs ih =>
      intro c hc
      cases c with
      | nil => simp at hc
      | cons z c =>
        simp only [List.zip_cons_cons, List.flatMap_cons, List.length_append, List.length_map]
        rw [ih c (by simpa using hc)]
  unfold allAp allAm
  rw [hb.ap, hb.am, inferredCoef_eq sel _ a c hb.a hc, inferredCoef_eq sel _ b d hb.b hd, hal.lind_eq]
  simp only [List.length_append, key _ _ _ hc, key _ _ _ hd, List.length_map, hb.a, hb.b, hc, hd, hal.nNR]
  exact ⟨trivial, trivial⟩

theorem apOf_length {sel : Sel} (trend : Bool) (m : List ℂ)
    (hm : m.length = numCols trend sel) :
    (apOf sel m).length = sel.nNR + sel.nR ∧ (amOf sel m).length = sel.nNR + sel.nR := by
  obtain ⟨a, b, c, d, e, f, hb⟩ := exists_blocks sel trend m hm
  rw [hb.ap, hb.am]
  simp [hb.a, hb.b, hb.c, hb.d]

theorem rawCoef_len {tref : ℝ} {p : Prep} (hal : SelAligned tref p.sel) (trend : Bool) (m : List ℂ)
    (hm : m.length = numCols trend p.sel) (W : List ℝ) (rf : Option RobOut) :
    (rawCoef p m W rf).Len p.sel.lind.length := by
  obtain ⟨h1, h2⟩ := allAp_length hal trend m hm
  refine ⟨?_, ?_, rfl, ellOf_len _ _ _ _ h1 h2⟩
  · simp [rawCoef, hal.name]
  · simp [rawCoef, hal.frq]

theorem packCi_len (td : Bool) (l : List Ci1) : (packCi td l).Len l.length := by
  cases td <;> simp [packCi, CiArr.Len]

theorem inferRef_length (i : ConfIn) (vars : List Vars) (rk : RefCon × ℕ) (l : List Ci1)
    (h : inferRef i vars rk = .ok l) : l.length = rk.1.inf.length := by
  unfold inferRef at h
  simp only [bind_eq_ok] at h
  obtain ⟨_, -, _, -, _, -, h⟩ := h
  split at h
  · simp only [bind_eq_ok, pure_eq_ok, Except.ok.injEq] at h
    obtain ⟨_, -, _, -, rfl⟩ := h
    simp
  · simp only [pure_eq_ok, Except.ok.injEq] at h
    subst h; simp

/-- One interval per constituent. -/
theorem confidence_len {E : Env} {opt : Opt} {t : TimeArg} {u : Series} {v : Option Series} {lat : Option ℝ}
    {tn : List Fl} {constit : Constit} {p : Prep} (hp : PrepOk E opt t u v lat tn constit p) (m : List ℂ)
    (W : List ℝ) (hm : m.length = p.nm) (ci : CiArr) (h : confidence E.num (confIn p m W) = .ok ci) :
    ci.Len p.sel.lind.length := by
  have hal := hp.aligned
  rw [hp.nm] at hm
  obtain ⟨h1, h2⟩ := apOf_length _ m hm
  unfold confidence at h
  simp only [bind_eq_ok, pure_eq_ok, Except.ok.injEq] at h
  obtain ⟨pw, -, GH, -, rows, hrows, inf, hinf, rfl⟩ := h
  have hr := mapM_length _ _ _ hrows
  have hXu : (confIn p m W).Xu.length = p.sel.nNR + p.sel.nR := by simp [confIn, h1, h2]
  have hlen : (rows.map Prod.fst ++ inf).length = p.sel.lind.length := by
    rw [List.length_append, List.length_map, hr, List.length_range, hXu, hal.lind_eq]
    simp only [List.length_append, List.length_map, hal.nNR, hal.nR]
    congr 1
    unfold inferCi at hinf
    have hrefs : (confIn p m W).sel = p.sel := rfl
    have hin : (confIn p m W).infer = p.infer.isSome := rfl
    rw [hrefs, hin] at hinf
    cases hi : p.infer with
    | none =>
      rw [hi] at hinf
      simp only [Option.isSome_none, Bool.false_eq_true, if_false, Except.ok.injEq] at hinf
      have := hp.hsel
      rw [hi] at this
      obtain ⟨-, -, h0, -⟩ := cnstitsel_none _ _ _ _ this
      rw [h0, ← hinf]; rfl
    | some s =>
      rw [hi] at hinf
      simp only [Option.isSome_some, if_true] at hinf
      split at hinf
      · simp only [bind_eq_ok, pure_eq_ok, Except.ok.injEq] at hinf
        obtain ⟨l, hl, rfl⟩ := hinf
        rw [List.length_flatten, List.length_flatMap]
        have := mapM_map _ List.length (fun rk : RefCon × ℕ => rk.1.inf.length) _ _ hl
          (fun a _ b hb => inferRef_length _ _ _ _ hb)
        rw [this]
        have e1 : (p.sel.refs.zipIdx.map fun rk : RefCon × ℕ => rk.1.inf.length) =
            (p.sel.refs.zipIdx.map Prod.fst).map fun r => r.inf.length := by
          rw [List.map_map]; rfl
        rw [e1, List.zipIdx_map_fst]
        congr 1
        apply List.map_congr_left
        intro r _
        simp
      · simp at hinf
  rw [← hlen]
  exact packCi_len _ _

/-! ## The result before and after re-ordering -/

/-- `full` is the result in the order of the fit, `ind` the order asked for, `c` what is returned. -/
structure Solved (E : Env) (p : Prep) (m : List ℂ) (W : List ℝ) (rf : Option RobOut) (full : Coef) (o : Order)
    (ind : List ℕ) (c : Coef) : Prop where
  fit : stageFit E p = .ok (m, W, rf)
  order : readOrder p.opt.ordercnstit = .ok o
  result : c = full.permute ind
  name : full.name = p.sel.name
  ell : full.ell = ellOf p.opt.twodim (allAp p.sel m) (allAm p.sel m)
  frq : full.frq = p.sel.frq
  lind : full.lind = p.sel.lind
  head : SameHead (rawCoef p m W rf) full
  ci : (p.opt.confInt = false ∧ full.ci = none) ∨
    (p.opt.confInt = true ∧ ∃ ci, confidence E.num (confIn p m W) = .ok ci ∧ full.ci = some ci)
  PE : full.PE = if p.opt.nodiagn = true ∧ o ≠ .PE then none else some (pe full.ell)
  SNR : (p.opt.nodiagn = true ∧ full.SNR = none ∧ full.diagn = none) ∨
    (p.opt.nodiagn = false ∧ ∃ s, snr full.ell full.ci = .ok s ∧ full.SNR = some s ∧
      full.diagn = some ⟨gather full.name (E.num.argsort (pe full.ell)).reverse,
        gather (pe full.ell) (E.num.argsort (pe full.ell)).reverse,
        gather s (E.num.argsort (pe full.ell)).reverse⟩)
  indPE : o = .PE → ind = (E.num.argsort (pe full.ell)).reverse
  indFreq : o = .frequency → ind = E.num.argsort (full.frq.map Fl.fin)
  indSNR : o = .SNR → ∃ s, full.SNR = some s ∧ ind = (E.num.argsort s).reverse
  indNames : ∀ l, o = .names l → l.mapM (listIndex full.name) = .ok ind

theorem solve_solved (E : Env) (t : TimeArg) (u : Series) (v : Option Series) (lat : Option ℝ)
    (opts : Dict PyVal) (c : Coef) (h : solve E t u v lat opts = .ok c) :
    ∃ opt p tn constit m W rf full o ind, getOpt opts v.isSome = .ok opt ∧ PrepOk E opt t u v lat tn constit p ∧
      Solved E p m W rf full o ind c := by
  obtain ⟨opt, p, tn, constit, m, W, rf, c1, c2, o, hopt, hp, hs⟩ := (solve_ok _ _ _ _ _ _ _).1 h
  obtain ⟨full, ind, hord, rfl⟩ := (reorder_ok _ _ _ _).1 hs.reorder
  obtain ⟨h1, h2⟩ := stageConf_ok _ _ _ _ _ _ hs.conf
  obtain ⟨h3, h4, h5⟩ := orderIndex_coef _ _ _ _ _ hord
  have hd := stageDiagn_ok _ _ _ _ hs.diagn
  have h6 : c2.name = p.sel.name ∧ c2.ell = ellOf p.opt.twodim (allAp p.sel m) (allAm p.sel m) ∧
      c2.frq = p.sel.frq ∧ c2.lind = p.sel.lind ∧ SameHead (rawCoef p m W rf) c2 ∧ c2.ci = c1.ci := by
    rcases hd with ⟨-, rfl⟩ | ⟨-, s, -, rfl⟩
    · rw [h1]; exact ⟨rfl, rfl, rfl, rfl, by constructor <;> rfl, rfl⟩
    · rw [h1]; exact ⟨rfl, rfl, rfl, rfl, by constructor <;> rfl, rfl⟩
  obtain ⟨g1, g2, g3, g4, g5, g6⟩ := h6
  have k1 : full.name = c2.name := by rw [h3]
  have k2 : full.ell = c2.ell := by rw [h3]
  have k3 : full.frq = c2.frq := by rw [h3]
  have k4 : full.lind = c2.lind := by rw [h3]
  have k5 : full.ci = c2.ci := by rw [h3]
  have k6 : full.SNR = c2.SNR := by rw [h3]
  have k7 : full.diagn = c2.diagn := by rw [h3]
  have k8 : SameHead c2 full := by rw [h3]; constructor <;> rfl
  have hPE2 : c2.PE = if p.opt.nodiagn = true then none else some (pe c2.ell) := by
    rcases hd with ⟨hn, rfl⟩ | ⟨hn, s, -, rfl⟩
    · rw [if_pos hn, h1]; rfl
    · rw [if_neg (by simp [hn])]
  refine ⟨opt, p, tn, constit, m, W, rf, full, o, ind, hopt, hp, ?_⟩
  have hci : full.ci = c1.ci := by rw [k5, g6]
  refine ⟨hs.fit, hs.order, rfl, by rw [k1, g1], by rw [k2, g2], by rw [k3, g3], by rw [k4, g4], g5.trans k8,
    ?_, ?_, ?_, ?_, ?_, ?_, ?_⟩
  · rcases h2 with ⟨hc, rfl⟩ | ⟨hc, ci, hci', hce⟩
    · exact .inl ⟨hc, by rw [hci]; rfl⟩
    · exact .inr ⟨hc, ci, hci', by rw [hci, hce]⟩
  · by_cases ho : o = .PE
    · rw [h4 ho, hPE2, k2]
      by_cases hn : p.opt.nodiagn = true <;> simp [hn, ho]
    · rw [h5 ho, hPE2, k2]
      by_cases hn : p.opt.nodiagn = true <;> simp [hn, ho]
  · rcases hd with ⟨hn, rfl⟩ | ⟨hn, s, hs', rfl⟩
    · refine .inl ⟨hn, ?_, ?_⟩
      · rw [k6, h1]; rfl
      · rw [k7, h1]; rfl
    · refine .inr ⟨hn, s, ?_, k6, ?_⟩
      · rw [k2, k5]; exact hs'
      · rw [k7, k2, k1]
  · intro ho
    subst ho
    unfold orderIndex at hord
    have := Except.ok.inj hord
    rw [Prod.mk.injEq] at this
    rw [← this.2, k2]
    congr 2
    rw [hPE2]
    split <;> rfl
  · intro ho
    subst ho
    unfold orderIndex at hord
    have := Except.ok.inj hord
    rw [Prod.mk.injEq] at this
    rw [← this.2, k3]
  · intro ho
    subst ho
    unfold orderIndex at hord
    dsimp only at hord
    split at hord
    · next s hs' =>
      have := Except.ok.inj hord
      rw [Prod.mk.injEq] at this
      exact ⟨s, by rw [k6, hs'], this.2.symm⟩
    · simp at hord
  · intro l ho
    subst ho
    unfold orderIndex at hord
    simp only [bind_eq_ok, pure_eq_ok, Except.ok.injEq, Prod.mk.injEq] at hord
    obtain ⟨i, hi, -, rfl⟩ := hord
    rw [k1]; exact hi

/-! ## Consequences -/

section
variable {E : Env} {opt : Opt} {t : TimeArg} {u : Series} {v : Option Series} {lat : Option ℝ} {tn : List Fl}
  {constit : Constit} {p : Prep} {m : List ℂ} {W : List ℝ} {rf : Option RobOut} {full : Coef} {o : Order}
  {ind : List ℕ} {c : Coef}

theorem energies_length {n : ℕ} {e : EllArr} (h : e.Len n) : (energies e).length = n := by
  cases e with
  | one A g => simpa [energies] using h.1
  | two a b c d => obtain ⟨h1, h2, -, -⟩ := h; simp [energies, h1, h2]

theorem pe_length {n : ℕ} {e : EllArr} (h : e.Len n) : (pe e).length = n := by
  cases e with
  | one A g => simpa [pe] using energies_length h
  | two a b c d => simpa [pe] using energies_length h

theorem noises_length {n : ℕ} {e : CiArr} (h : e.Len n) : (noises e).length = n := by
  cases e with
  | one A g => simpa [noises] using h.1
  | two a b c d => obtain ⟨h1, h2, -, -⟩ := h; simp [noises, h1, h2]

theorem snr_length {n : ℕ} {e : EllArr} (h : e.Len n) (ci : Option CiArr) (hci : ∀ x, ci = some x → x.Len n)
    (s : List Fl) (hs : snr e ci = .ok s) : s.length = n := by
  cases ci with
  | none => simp [snr] at hs
  | some x =>
    simp only [snr, Except.ok.injEq] at hs
    subst hs
    simp [energies_length h, noises_length (hci x rfl)]

theorem Solved.mlen (hs : Solved E p m W rf full o ind c) (hp : PrepOk E opt t u v lat tn constit p) (ht : t.WF)
    (hu : u.WF) (hv : ∀ w, v = some w → w.WF) (hl : LstsqOk E.num.lstsq) : m.length = p.nm :=
  stageFit_length hp ht hu hv hl _ _ _ hs.fit

theorem Solved.len (hs : Solved E p m W rf full o ind c) (hp : PrepOk E opt t u v lat tn constit p)
    (hm : m.length = p.nm) : full.Len p.sel.lind.length := by
  rw [hp.nm] at hm
  have := rawCoef_len hp.aligned _ m hm W rf
  refine ⟨?_, ?_, ?_, ?_⟩
  · rw [hs.name]; exact this.name
  · rw [hs.frq]; exact this.frq
  · rw [hs.lind]
  · rw [hs.ell]; exact this.ell

theorem Solved.ciLen (hs : Solved E p m W rf full o ind c) (hp : PrepOk E opt t u v lat tn constit p)
    (hm : m.length = p.nm) : ∀ x, full.ci = some x → x.Len p.sel.lind.length := by
  intro x hx
  rcases hs.ci with ⟨-, h⟩ | ⟨-, ci, hci, h⟩
  · rw [h] at hx; simp at hx
  · rw [h] at hx
    rw [← Option.some.inj hx]
    exact confidence_len hp m W hm ci hci

theorem Solved.snrLen (hs : Solved E p m W rf full o ind c) (hp : PrepOk E opt t u v lat tn constit p)
    (hm : m.length = p.nm) : ∀ s, full.SNR = some s → s.length = p.sel.lind.length := by
  intro s hss
  rcases hs.SNR with ⟨-, h, -⟩ | ⟨-, s', h1, h2, -⟩
  · rw [h] at hss; simp at hss
  · rw [h2] at hss
    rw [← Option.some.inj hss]
    exact snr_length (hs.len hp hm).ell _ (hs.ciLen hp hm) _ h1

/-- Sorting orders permute. -/
theorem Solved.perm (hs : Solved E p m W rf full o ind c) (hp : PrepOk E opt t u v lat tn constit p)
    (hm : m.length = p.nm) (ha : ArgsortOk E.num.argsort) (ho : ∀ l, o ≠ .names l) :
    ind.Perm (List.range p.sel.lind.length) := by
  have hlen := hs.len hp hm
  cases o with
  | PE =>
    rw [hs.indPE rfl]
    have := (ha (pe full.ell)).1
    rw [pe_length hlen.ell] at this
    exact (List.reverse_perm _).trans this
  | frequency =>
    rw [hs.indFreq rfl]
    have := (ha (full.frq.map Fl.fin)).1
    rwa [List.length_map, hlen.frq] at this
  | SNR =>
    obtain ⟨s, hss, hi⟩ := hs.indSNR rfl
    rw [hi]
    have := (ha s).1
    rw [hs.snrLen hp hm s hss] at this
    exact (List.reverse_perm _).trans this
  | names l => exact absurd rfl (ho l)

theorem listIndex_ok (l : List String) (s : String) (i : ℕ) : listIndex l s = .ok i ↔ s ∈ l ∧ i = l.idxOf s := by
  unfold listIndex
  split
  · next h => simp [h, eq_comm]
  · next h => simp [h]

theorem listIndex_error (l : List String) (s : String) (e : PyErr) :
    listIndex l s = .error e ↔ s ∉ l ∧ e = .valueError := by
  unfold listIndex
  split
  · next h => simp [h]
  · next h => simp [h, eq_comm]

/-- Positions in range, whatever the order. -/
theorem Solved.ind_lt (hs : Solved E p m W rf full o ind c) (hp : PrepOk E opt t u v lat tn constit p)
    (hm : m.length = p.nm) (ha : ArgsortOk E.num.argsort) : ∀ i ∈ ind, i < p.sel.lind.length := by
  by_cases ho : ∀ l, o ≠ .names l
  · exact perm_range_lt (hs.perm hp hm ha ho)
  · push Not at ho
    obtain ⟨l, ho⟩ := ho
    have h1 := hs.indNames l ho
    intro i hi
    obtain ⟨s, -, h⟩ := mapM_mem' _ _ _ h1 i hi
    obtain ⟨h2, rfl⟩ := (listIndex_ok _ _ _).1 h
    have := List.idxOf_lt_length_of_mem h2
    rwa [(hs.len hp hm).name] at this

/-- With an explicit order the names are exactly that order. -/
theorem Solved.names (hs : Solved E p m W rf full o ind c) (l : List String) (ho : o = .names l) : c.name = l := by
  have h1 := (mapM_ok _ _ _).1 (hs.indNames l ho)
  rw [hs.result]
  show gather full.name ind = l
  clear hs ho
  induction h1 with
  | nil => rfl
  | cons h _ ih =>
    obtain ⟨h2, rfl⟩ := (listIndex_ok _ _ _).1 h
    rw [gather_cons _ _ _ (List.idxOf_lt_length_of_mem h2), ih]
    simp

end

end

end UTide
