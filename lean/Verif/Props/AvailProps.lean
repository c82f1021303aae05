import Verif.Props.WhiteProps
import Verif.Props.QuadExample
import Verif.Props.RobustOls

/-!
# Confidence intervals are an addition to the fit, and are available when the data over-determine it: C71, C72
-/

namespace UTide.Props

noncomputable section

open Classical Matrix

local notation "conj" => starRingEnd ℂ

section
variable {E : Env} {t : TimeArg} {u : Series} {v : Option Series} {lat : Option ℝ} {opts : Dict PyVal}
  {c : Coef} {opt : Opt} {p : Prep} {tn : List Fl} {constit : Constit} {m : List ℂ} {W : List ℝ}
  {rf : Option RobOut} {full : Coef} {o : Order} {ind : List ℕ}

/-! ## The computation of intervals succeeds -/

theorem block_total {nm : ℕ} (M : Matrix (Fin nm) (Fin nm) ℂ) (nc k : ℕ) (h : k + nc < nm) : ∃ G, block M nc k = .ok G :=
  ⟨_, block_ok M nc ⟨k, by omega⟩ ⟨k + nc, h⟩ rfl⟩

theorem bind_ex {α β : Type} {x : Except PyErr α} {f : α → Except PyErr β} {y : α} (h : x = .ok y)
    (h2 : ∃ r, f y = .ok r) : ∃ r, (x >>= f) = .ok r := by rw [h]; exact h2

theorem power_total (pw : Option Power) (sl : Power → List Fl) (k : ℕ) :
    (∀ w, pw = some w → k < (sl w).length) → ∃ pu : Option Fl,
      (match pw with | none => .ok none | some p => (getIdx (sl p) k).map some) = (.ok pu : Except PyErr _) := by
  intro h
  cases pw with
  | none => exact ⟨none, rfl⟩
  | some w => exact ⟨some _, by dsimp only; rw [getIdx_lt _ _ (h w rfl)]; rfl⟩

theorem ciOne_total (N : Num) (hM : MvnOk N.mvn) (i : ConfIn) (pw : Option Power)
    (GH : Matrix (Fin i.nm) (Fin i.nm) ℂ × Matrix (Fin i.nm) (Fin i.nm) ℂ) (nc k : ℕ) (hk : k + nc < i.nm)
    (h1 : k < i.Xu.length) (h2 : k < i.Yu.length) (h3 : k < i.g.length)
    (h4 : i.twodim = true → k < i.Xv.length ∧ k < i.Yv.length ∧ k < i.theta.length)
    (hpw : pw = none ∨ (i.linci = true ∧ ∀ w, pw = some w → k < w.Puu.length ∧ k < w.Pvv.length)) :
    ∃ r, ciOne N i pw GH nc k = .ok r := by
  obtain ⟨G, hG⟩ := block_total GH.1 nc k hk
  obtain ⟨H, hH⟩ := block_total GH.2 nc k hk
  unfold ciOne
  rw [hG, ok_bind, hH, ok_bind, getIdx_lt _ _ h1, ok_bind, getIdx_lt _ _ h2, ok_bind, getIdx_lt _ _ h3, ok_bind]
  obtain ⟨pu, hpu⟩ := power_total pw Power.Puu k (by
    intro w hw
    rcases hpw with h | ⟨-, h⟩
    · rw [h] at hw; cases hw
    · exact (h w hw).1)
  obtain ⟨pv, hpv⟩ := power_total pw Power.Pvv k (by
    intro w hw
    rcases hpw with h | ⟨-, h⟩
    · rw [h] at hw; cases hw
    · exact (h w hw).2)
  refine bind_ex hpu ?_
  by_cases htd : i.twodim = true
  · obtain ⟨h5, h6, h7⟩ := h4 htd
    simp only [htd, if_true]
    rw [getIdx_lt _ _ h5, ok_bind, getIdx_lt _ _ h6, ok_bind]
    refine bind_ex hpv ?_
    by_cases hl : i.linci = true
    · rw [if_pos hl]; exact ⟨_, rfl⟩
    · rw [if_neg hl]
      obtain rfl : pw = none := by
        rcases hpw with h | ⟨h, -⟩
        · exact h
        · exact absurd h hl
      rw [getIdx_lt _ _ h7, ok_bind]
      cases Except.ok.inj hpu
      dsimp only
      rw [ok_bind]
      rcases monteCarlo2_or N hM k none _ _ _ _ (i.g[k]) (i.theta[k]) G H with ⟨r, hr⟩ | ⟨h, -⟩
      · exact ⟨_, by rw [hr]; rfl⟩
      · cases h
  · simp only [Bool.not_eq_true] at htd
    simp only [htd, Bool.false_eq_true, if_false]
    by_cases hl : i.linci = true
    · rw [if_pos hl]; exact ⟨_, rfl⟩
    · rw [if_neg hl]
      obtain rfl : pw = none := by
        rcases hpw with h | ⟨h, -⟩
        · exact h
        · exact absurd h hl
      cases Except.ok.inj hpu
      rcases monteCarlo1_or N hM k none _ _ (i.g[k]) H _ _ with ⟨r, hr⟩ | ⟨h, -⟩
      · exact ⟨_, by rw [hr]; rfl⟩
      · cases h

/-- Whenever `Gall` and `Hall` can be computed the intervals can, up to the noise power. -/
theorem prep_confidence_of (hM : MvnOk E.num.mvn) (hp : PrepOk E opt t u v lat tn constit p)
    (hinf : p.infer = none) (hm : m.length = p.nm) {GH} (hcov : covariances E.num (confIn p m W) = .ok GH)
    (hpw : opt.white = true ∨ (opt.linci = true ∧ ∃ w, residualPower E.num p.ed (confIn p m W).e p.sel.frq = .ok w)) :
    ∃ ci, confidence E.num (confIn p m W) = .ok ci := by
  obtain ⟨hrefs, hnR, hname, hlen, hnm⟩ := prep_noRefs hp hinf
  have hml : m.length = numCols (!opt.notrend) p.sel := by rw [hm, hp.nm]
  obtain ⟨a1, a2⟩ := apOf_length _ m hml
  obtain ⟨b1, b2⟩ := allAp_length hp.aligned _ m hml
  have hll : p.sel.lind.length = p.sel.nNR := by rw [hp.aligned.lind_eq, hrefs, hp.aligned.nNR]; simp
  have hXl : (confIn p m W).Xu.length = p.sel.nNR := by simp [confIn, a1, a2, hnR]
  have hYl : (confIn p m W).Yu.length = p.sel.nNR := by simp [confIn, a1, a2, hnR]
  have hell := ellOf_len p.opt.twodim _ _ _ b1 b2
  have hgl : (confIn p m W).g.length = p.sel.nNR := by
    show (ellOf p.opt.twodim (allAp p.sel m) (allAm p.sel m)).gs.length = _
    rw [← hll]
    generalize ellOf p.opt.twodim (allAp p.sel m) (allAm p.sel m) = e at hell
    cases e with
    | one A g => exact hell.2
    | two A b c g => exact hell.2.2.2
  have htl : (confIn p m W).twodim = true → (confIn p m W).Xv.length = p.sel.nNR ∧ (confIn p m W).Yv.length = p.sel.nNR ∧
      (confIn p m W).theta.length = p.sel.nNR := by
    intro htd
    have htd' : p.opt.twodim = true := htd
    refine ⟨by simp [confIn, a1, a2, hnR, htd'], by simp [confIn, a1, a2, hnR, htd'], ?_⟩
    show (ellOf p.opt.twodim (allAp p.sel m) (allAm p.sel m)).thetas.length = _
    rw [← hll]
    rw [htd'] at hell ⊢
    exact hell.2.2.1
  obtain ⟨pw, hpw1, hpw2⟩ : ∃ pw, (if (confIn p m W).white = true then Except.ok none
      else (residualPower E.num (confIn p m W).ed (confIn p m W).e (confIn p m W).frq).map some) = .ok pw ∧
      (pw = none ∨ ((confIn p m W).linci = true ∧ ∀ w, pw = some w → w.Puu.length = p.sel.nNR ∧ w.Pvv.length = p.sel.nNR)) := by
    by_cases hw : (confIn p m W).white = true
    · exact ⟨none, if_pos hw, .inl rfl⟩
    · rw [if_neg hw]
      rcases hpw with h | ⟨hl, w, hr⟩
      · exact absurd (by show p.opt.white = true; rw [hp.hopt, h]) hw
      · refine ⟨some w, ?_, .inr ⟨by show p.opt.linci = true; rw [hp.hopt, hl], ?_⟩⟩
        · show (residualPower E.num p.ed (confIn p m W).e p.sel.frq).map some = _
          rw [hr]; rfl
        · intro w' hw'
          cases hw'
          have hfr : p.sel.frq.length = p.sel.nNR := by
            rw [hp.aligned.frq, List.length_map, hll]
          unfold residualPower at hr
          simp only [bind_eq_ok, pure_eq_ok, Except.ok.injEq] at hr
          obtain ⟨ba, -, rfl⟩ := hr
          simp [hfr]
  unfold confidence
  rw [hpw1, ok_bind, hcov, ok_bind]
  obtain ⟨rows, hrows⟩ := mapM_total (ciOne E.num (confIn p m W) pw GH (confIn p m W).Xu.length)
    (List.range (confIn p m W).Xu.length) (by
      intro k hk
      rw [List.mem_range, hXl] at hk
      refine ciOne_total E.num hM (confIn p m W) pw GH _ k ?_ (by omega) (by omega) (by omega) ?_ ?_
      · rw [hXl]; show k + p.sel.nNR < p.nm; omega
      · intro htd
        obtain ⟨c1, c2, c3⟩ := htl htd
        exact ⟨by omega, by omega, by omega⟩
      · rcases hpw2 with h | ⟨h, h'⟩
        · exact .inl h
        · refine .inr ⟨h, fun w hw => ?_⟩
          obtain ⟨d1, d2⟩ := h' w hw
          exact ⟨by omega, by omega⟩)
  rw [hrows, ok_bind]
  have hno : (confIn p m W).infer = false := by show p.infer.isSome = false; rw [hinf]; rfl
  unfold inferCi
  rw [hno]
  exact ⟨_, rfl⟩

theorem prep_confidence (hI : InvOk E.num.inv) (hM : MvnOk E.num.mvn) (hp : PrepOk E opt t u v lat tn constit p)
    (R : Ready E t u v) (hinf : p.infer = none) (hm : m.length = p.nm) (hW : W = p.B.map fun _ => 1)
    (hi : IndepColumns p.nm p.B) (hlt : p.nm < p.B.length)
    (hpw : opt.white = true ∨ (opt.linci = true ∧ ∃ w, residualPower E.num p.ed (confIn p m W).e p.sel.frq = .ok w)) :
    ∃ ci, confidence E.num (confIn p m W) = .ok ci := by
  have hxl : (xraw p.ed).length = p.B.length := (hp.height R.ht R.hu R.hv).symm
  exact prep_confidence_of hM hp hinf hm (covariances_total hI (confIn p m W) hW hp.rows hi _ (prep_paired hp hinf) (by
    show (xraw p.ed).length ≠ p.nm; omega)) hpw

/-- Even sampling: the residual power can always be computed, provided the first two times differ. -/
theorem residualPower_even (N : Num) (ed : Edited) (e : List ℂ) (frq : List ℝ) (heq : ed.equi = true)
    (hne : ed.t ≠ []) (ht : e.length = ed.t.length) (hle : ed.t.length ≤ ed.tin.length) (t0 t1 : ℝ) (rest : List ℝ)
    (htin : ed.tin = t0 :: t1 :: rest) (h01 : t0 ≠ t1) : ∃ w, residualPower N ed e frq = .ok w := by
  have hd : ¬ (24 * (t1 - t0) = 0) := by
    intro h0
    exact h01 (by linarith)
  have main : ∀ e' : List ℂ, e'.length = ed.tin.length → ∃ ba, bandPsd N ed.tin e' frq true = .ok ba := by
    intro e' he'
    have hl : 2 ≤ e'.length := by rw [he', htin]; simp
    obtain ⟨t0', t1', r', h1, h2⟩ : ∃ t0' t1' r', (if e'.length % 2 = 1 then ed.tin.dropLast else ed.tin) = t0' :: t1' :: r' ∧
        ¬ (24 * (t1' - t0') = 0) := by
      by_cases ho : e'.length % 2 = 1
      · rw [if_pos ho]
        have : 3 ≤ e'.length := by omega
        cases rest with
        | nil => rw [he', htin] at this; simp at this
        | cons t2 r => exact ⟨t0, t1, _, by rw [htin]; rfl, hd⟩
      · rw [if_neg ho]; exact ⟨t0, t1, rest, htin, hd⟩
    have hs : ∃ s f, bandSpectra N (t0' :: t1' :: r') (evenPart e') true = .ok (s, f) ∧ f ≠ [] := by
      unfold bandSpectra
      simp only [if_true, if_neg h2]
      exact ⟨_, _, rfl, by simp⟩
    obtain ⟨s, f, h3, h4⟩ := hs
    unfold bandPsd
    rw [h1, h3]
    simp only [ok_bind, fbndavg, if_neg h4]
    exact ⟨_, rfl⟩
  unfold residualPower
  rw [if_pos heq]
  by_cases hlt : ed.t.length < ed.tin.length
  · rw [if_pos hlt]
    unfold complexInterp
    rw [if_neg hne, ok_bind]
    obtain ⟨ba, hba⟩ := main (ed.tin.map fun x => ⟨interp x (ed.t.zip (e.map Complex.re)),
      interp x (ed.t.zip (e.map Complex.im))⟩) (by simp)
    rw [hba]; exact ⟨_, rfl⟩
  · rw [if_neg hlt, ok_bind]
    obtain ⟨ba, hba⟩ := main e (by omega)
    rw [hba]; exact ⟨_, rfl⟩

end

/-! ## Runs that differ only in what is asked about intervals -/

/-- The options that concern intervals, noise and printing. -/
def intervalKeys : List String := ["conf_int", "white", "MC_n", "verbose"]

theorem validateOrder_eq (x a b : PyVal) (i j : Bool) (h : validateOrderConstit x i = .ok a)
    (h' : validateOrderConstit x j = .ok b) : b = a := by
  unfold validateOrderConstit at h h'
  cases x with
  | none => exact (Except.ok.inj h').symm.trans (Except.ok.inj h)
  | str s =>
    dsimp only at h h'
    by_cases h1 : s ∈ ["PE", "frequency"] ++ (if i then ["SNR"] else [])
    · by_cases h2 : s ∈ ["PE", "frequency"] ++ (if j then ["SNR"] else [])
      · rw [if_pos h1] at h
        rw [if_pos h2] at h'
        exact (Except.ok.inj h').symm.trans (Except.ok.inj h)
      · rw [if_neg h2] at h'; cases h'
    · rw [if_neg h1] at h; cases h
  | seq k xs => exact (Except.ok.inj h').symm.trans (Except.ok.inj h)
  | dict d kv => exact (Except.ok.inj h').symm.trans (Except.ok.inj h)
  | _ => cases h

/-- All other options are read alike. -/
theorem getOpt_conf (opts opts' : Dict PyVal) (hnd : opts.keys.Nodup) (hnd' : opts'.keys.Nodup) (is2D : Bool)
    (heq : ∀ k, k ∉ intervalKeys → requested opts k = requested opts' k) (q q' : Opt)
    (h : getOpt opts is2D = .ok q) (h' : getOpt opts' is2D = .ok q') :
    q' = { q with confInt := q'.confInt, linci := q'.linci, white := q'.white, nodiagn := q'.nodiagn,
                  verbose := q'.verbose } := by
  obtain ⟨hk, c, oc, ci, me, tr, ph, no, inf, ray, rk, wh, ve, ep, h1, h2, h3, h4, h5, h6, h7, h8, h9, h10,
      h11, h12, h13, r1, r2, r3, r4, r5, r6, r7, r8, r9, r10, r11, r12, r13, r14, r15, r16⟩ := getOpt_ok opts hnd is2D q h
  obtain ⟨hk', c', oc', ci', me', tr', ph', no', inf', ray', rk', wh', ve', ep', h1', h2', h3', h4', h5', h6', h7', h8', h9', h10',
      h11', h12', h13', r1', r2', r3', r4', r5', r6', r7', r8', r9', r10', r11', r12', r13', r14', r15', r16'⟩ :=
    getOpt_ok opts' hnd' is2D q' h'
  simp only [requested_eq] at heq
  have tr1 : ∀ {k : String} {x y : PyVal}, k ∉ intervalKeys → effective opts k = some x →
      effective opts' k = some y → y = x := by
    intro k x y hk hx hy
    rw [← heq k hk, hx] at hy
    exact (Option.some.inj hy).symm
  obtain rfl := tr1 (by decide) h1 h1'
  obtain rfl := tr1 (by decide) h2 h2'
  obtain rfl := tr1 (by decide) h4 h4'
  obtain rfl := tr1 (by decide) h5 h5'
  obtain rfl := tr1 (by decide) h6 h6'
  obtain rfl := tr1 (by decide) h7 h7'
  obtain rfl := tr1 (by decide) h8 h8'
  obtain rfl := tr1 (by decide) h9 h9'
  obtain rfl := tr1 (by decide) h10 h10'
  obtain rfl := tr1 (by decide) h13 h13'
  have okinj : ∀ {x : Except PyErr Bool} {a b : Bool}, x = .ok a → x = .ok b → b = a := by
    intro x a b ha hb; rw [ha] at hb; exact (Except.ok.inj hb).symm
  have e1 : q'.notrend = q.notrend := by
    have := okinj r6 r6'; exact Bool.not_inj this
  have e4 : q'.infer = q.infer := by rw [r3] at r3'; exact (Except.ok.inj r3').symm
  have e6 : q'.flags.nodsatlint = q.flags.nodsatlint := okinj r11 r11'
  have e7 : q'.flags.gwchlint = q.flags.gwchlint := okinj r13 r13'
  have e8 : q'.flags.nodsatnone = q.flags.nodsatnone := by
    rw [e6] at r12'
    by_cases hl : q.flags.nodsatlint = true
    · rw [if_pos hl] at r12 r12'; rw [r12, r12']
    · rw [if_neg hl] at r12 r12'
      exact Bool.not_inj (okinj r12 r12')
  have e9 : q'.flags.gwchnone = q.flags.gwchnone := by
    rw [e7] at r14'
    by_cases hl : q.flags.gwchlint = true
    · rw [if_pos hl] at r14 r14'; rw [r14, r14']
    · rw [if_neg hl] at r14 r14'
      exact okinj r14 r14'
  have e10 : q'.ordercnstit = q.ordercnstit := validateOrder_eq _ _ _ _ _ r4 r4'
  have e11 : q'.rmin = q.rmin := by
    rcases r16 with hr | ⟨b, hr, hq⟩
    · rcases r16' with hr' | ⟨b', hr', hq'⟩
      · rw [hr] at hr'; injection hr' with hr'; exact hr'.symm
      · rw [hr] at hr'; simp at hr'
    · rcases r16' with hr' | ⟨b', hr', hq'⟩
      · rw [hr] at hr'; simp at hr'
      · rw [hr] at hr'; injection hr' with hr'; rw [hq, hq', hr']
  have e12 : q'.flags = q.flags := flags_ext _ _ e6 e8 e7 e9
  have e13 : q'.twodim = q.twodim := by rw [r1, r1']
  have e14 : q'.cnstit = q.cnstit := by rw [r2, r2']
  have e15 : q'.epoch = q.epoch := by rw [r5, r5']
  have e16 : q'.method = q.method := by
    cases hm : q.method with
    | ols =>
      cases hm' : q'.method with
      | ols => rfl
      | robust kw =>
        rw [hm] at r15; rw [hm'] at r15'
        have := okinj r15 r15'.1
        cases this
    | robust kw =>
      cases hm' : q'.method with
      | ols =>
        rw [hm] at r15; rw [hm'] at r15'
        have := okinj r15.1 r15'
        cases this
      | robust kw' =>
        rw [hm] at r15; rw [hm'] at r15'
        obtain ⟨-, b, hb⟩ := r15
        obtain ⟨-, b', hb'⟩ := r15'
        rw [hb] at hb'
        injection hb' with _ hb'
        rw [hb']
  cases q; cases q'
  simp only at e1 e4 e10 e11 e12 e13 e14 e15 e16
  subst e1 e4 e10 e11 e12 e13 e14 e15 e16
  rfl

/-- The prepared problem does not depend on them. -/
theorem prepOk_conf {E : Env} {opt : Opt} {t : TimeArg} {u : Series} {v : Option Series} {lat : Option ℝ}
    {tn : List Fl} {constit : Constit} {p : Prep} {a b w n ve : Bool} (hp : PrepOk E opt t u v lat tn constit p) :
    PrepOk E { opt with confInt := a, linci := b, white := w, nodiagn := n, verbose := ve } t u v lat tn constit
      { p with opt := { opt with confInt := a, linci := b, white := w, nodiagn := n, verbose := ve } } :=
  { init := ⟨hp.init.hlat, hp.init.shapes, hp.init.time, hp.init.edit⟩
    cons := hp.cons, hinfer := hp.hinfer, hsel := hp.hsel, check := hp.check, hopt := rfl, nm := hp.nm, B := hp.B }

theorem prepOk_unique {E : Env} {opt : Opt} {t : TimeArg} {u : Series} {v : Option Series} {lat : Option ℝ}
    {tn tn' : List Fl} {constit constit' : Constit} {p p' : Prep} (hp : PrepOk E opt t u v lat tn constit p)
    (hp' : PrepOk E opt t u v lat tn' constit' p') : p' = p := by
  have e1 := (stagePrep_ok E opt t u v lat _).2 ⟨_, _, hp⟩
  have e2 := (stagePrep_ok E opt t u v lat _).2 ⟨_, _, hp'⟩
  exact Except.ok.inj (e2.symm.trans e1)

/-! ## C71 -/

/-- The same fit: everything but intervals, signal-to-noise ratios, diagnostics and the record of the options. Percent
energies agree where both are given (they are stored when asked for by the order, or with intervals). -/
structure SameFit (c c' : Coef) : Prop where
  name : c'.name = c.name
  ell : c'.ell = c.ell
  mean : c'.mean = c.mean
  frq : c'.frq = c.frq
  lind : c'.lind = c.lind
  reftime : c'.reftime = c.reftime
  lat : c'.lat = c.lat
  nR : c'.nR = c.nR
  nNR : c'.nNR = c.nNR
  nI : c'.nI = c.nI
  weights : c'.weights = c.weights
  rf : c'.rf = c.rf
  PE : ∀ x y, c.PE = some x → c'.PE = some y → y = x

/-- **C71**: two runs whose options agree except for those concerning intervals give the same fit, unless the order
of constituents is by signal-to-noise ratio. -/
theorem C71_same_fit {E : Env} {t : TimeArg} {u : Series} {v : Option Series} {lat : Option ℝ}
    {opts opts' : Dict PyVal} (hnd : opts.keys.Nodup) (hnd' : opts'.keys.Nodup)
    (heq : ∀ k, k ∉ intervalKeys → requested opts k = requested opts' k) (c c' : Coef)
    (h : solve E t u v lat opts = .ok c) (h' : solve E t u v lat opts' = .ok c')
    (hord : ¬ IsStr c.opt.ordercnstit "SNR") : SameFit c c' := by
  obtain ⟨opt, p, tn, constit, m, W, rf, full, o, ind, ho, hp, S⟩ := solve_solved _ _ _ _ _ _ _ h
  obtain ⟨opt', p', tn', constit', m', W', rf', full', o', ind', ho', hp', S'⟩ := solve_solved _ _ _ _ _ _ _ h'
  have hq := getOpt_conf opts opts' hnd hnd' _ heq _ _ ho ho'
  rw [hq] at hp'
  have hpp := prepOk_unique (prepOk_conf hp) hp'
  have hfit' := S'.fit
  have ef : stageFit E p' = stageFit E p := by
    rw [hpp]; unfold stageFit; rw [← hp.hopt]
  rw [ef, S.fit] at hfit'
  have hmm := Except.ok.inj hfit'
  simp only [Prod.mk.injEq] at hmm
  obtain ⟨rfl, rfl, rfl⟩ := hmm
  have eo : o' = o := by
    have h1 := S'.order
    rw [hpp] at h1
    have h2 := S.order
    rw [hp.hopt] at h2
    exact Except.ok.inj (h1.symm.trans h2)
  subst eo
  have e1 : full'.name = full.name := by rw [S.name, S'.name, hpp]
  have e2 : full'.ell = full.ell := by rw [S.ell, S'.ell, hpp, ← hp.hopt]
  have e3 : full'.frq = full.frq := by rw [S.frq, S'.frq, hpp]
  have e4 : full'.lind = full.lind := by rw [S.lind, S'.lind, hpp]
  have ei : ind' = ind := by
    cases o' with
    | PE => rw [S.indPE rfl, S'.indPE rfl, e2]
    | frequency => rw [S.indFreq rfl, S'.indFreq rfl, e3]
    | SNR =>
      exfalso

      have h1 : c.opt.ordercnstit = p.opt.ordercnstit := by
        rw [S.result]; show full.opt.ordercnstit = _; rw [S.head.opt]; rfl
      have h2 := S.order
      rw [← h1] at h2
      exact absurd rfl (readOrder_SNR _ _ h2 hord)
    | names l =>
      have h1 := S.indNames l rfl
      have h2 := S'.indNames l rfl
      rw [e1] at h2
      exact Except.ok.inj (h2.symm.trans h1)
  subst ei
  have hh := S.head
  have hh' := S'.head
  have k : ∀ {α : Type} (f : Coef → α), f full = f (rawCoef p m W rf) → f full' = f (rawCoef p' m W rf) →
      f (rawCoef p' m W rf) = f (rawCoef p m W rf) → f full' = f full := by
    intro α f a b d; rw [a, b, d]
  rw [S.result, S'.result]
  refine ⟨?_, ?_, ?_, ?_, ?_, ?_, ?_, ?_, ?_, ?_, ?_, ?_, ?_⟩
  · show gather full'.name _ = gather full.name _; rw [e1]
  · show full'.ell.permute _ = full.ell.permute _; rw [e2]
  · exact k Coef.mean hh.mean hh'.mean (by rw [hpp, ← hp.hopt]; rfl)
  · show gather full'.frq _ = gather full.frq _; rw [e3]
  · show gather full'.lind _ = gather full.lind _; rw [e4]
  · exact k Coef.reftime hh.reftime hh'.reftime (by rw [hpp]; rfl)
  · exact k Coef.lat hh.lat hh'.lat (by rw [hpp]; rfl)
  · exact k Coef.nR hh.nR hh'.nR (by rw [hpp]; rfl)
  · exact k Coef.nNR hh.nNR hh'.nNR (by rw [hpp]; rfl)
  · exact k Coef.nI hh.nI hh'.nI (by rw [hpp]; rfl)
  · exact k Coef.weights hh.weights hh'.weights rfl
  · exact k Coef.rf hh.rf hh'.rf rfl
  · intro x y hx hy
    have hx' : full.PE.map (gather · ind') = some x := hx
    have hy' : full'.PE.map (gather · ind') = some y := hy
    rw [S.PE] at hx'
    rw [S'.PE, e2] at hy'
    split at hx'
    · cases hx'
    · split at hy'
      · cases hy'
      · rw [← Option.some.inj hx', ← Option.some.inj hy']

/-- **C71**, the usual case: asking for intervals, in any way, only adds to a run without them. -/
theorem C71_added {E : Env} {t : TimeArg} {u : Series} {v : Option Series} {lat : Option ℝ}
    {opts opts' : Dict PyVal} (hnd : opts.keys.Nodup) (hnd' : opts'.keys.Nodup)
    (heq : ∀ k, k ∉ intervalKeys → requested opts k = requested opts' k) (c c' : Coef)
    (h : solve E t u v lat opts = .ok c) (h' : solve E t u v lat opts' = .ok c') (hno : c.ci = none) :
    SameFit c c' := by
  refine C71_same_fit hnd hnd' heq c c' h h' fun hs => ?_
  obtain ⟨opt, p, tn, constit, m, W, rf, full, o, ind, ho, hp, S⟩ := solve_solved _ _ _ _ _ _ _ h
  have h1 : c.opt = p.opt := by rw [S.result]; exact S.head.opt
  have h2 := S.order
  rw [← h1] at h2
  have h3 : o = .SNR := by
    rcases hs with hs | hs <;> rw [hs] at h2 <;> exact (Except.ok.inj h2).symm
  obtain ⟨s, h4, -⟩ := S.indSNR h3
  have hq := (getOpt_requests _ hnd _ _ ho).diagn
  have h5 : full.ci = none := by
    rw [S.result] at hno
    exact Option.map_eq_none_iff.1 hno
  rcases S.ci with ⟨h6, -⟩ | ⟨-, ci, -, h6⟩
  · rcases S.SNR with ⟨-, h7, -⟩ | ⟨h7, -⟩
    · rw [h7] at h4; cases h4
    · rw [hp.hopt] at h6 h7
      rw [h7, h6] at hq; cases hq
  · rw [h6] at h5; cases h5

/-! ## C72 -/

section
variable {E : Env} {t : TimeArg} {u : Series} {v : Option Series} {lat : Option ℝ} {opts : Dict PyVal}
  {c : Coef} {opt : Opt} {p : Prep} {tn : List Fl} {constit : Constit} {m : List ℂ} {W : List ℝ}
  {rf : Option RobOut} {full : Coef} {o : Order} {ind : List ℕ}

/-- Independent columns separate the constituents. -/
theorem Facts.separated (F : Facts E t u v lat opts c opt p tn constit m W rf full o ind) (R : Ready E t u v)
    (hnd : opts.keys.Nodup) (hk : AllKept c) (hinf : p.infer = none) (hi : IndepColumns p.nm p.B) :
    Separated c none v.isSome (SampleTime tn u.data (v.map Series.data)) := by
  refine ⟨(F.perm_names R hnd hk).nodup_iff.2 (F.nodup hinf hi), ?_⟩
  intro P M mean slope hT hs hz
  have hs' : opt.notrend = true → slope = 0 := by rw [← F.copt]; exact hs
  obtain ⟨hP, hM⟩ := F.tiedBy hnd P M (by rw [hinf]; exact hT)
  have h0 := hi (nameCoef p.sel (!opt.notrend) P M mean (slope * (p.ed.lor : ℂ)))
    (by rw [F.prep.nm]; exact (nameCoef_blocks F.prep.aligned _ _ _ _ _).length) (by
      intro r hr
      rw [F.B_eq, List.mem_map] at hr
      obtain ⟨τ, hτ, rfl⟩ := hr
      rw [F.row_curve R hnd hk (by rw [hinf]; rfl) P M mean slope hP hM hs' τ hτ]
      exact hz τ ((F.mem_times R τ).1 hτ))
  have hn := (F.noRefs hinf).2.2.1
  refine ⟨h0 _ (by simp [nameCoef]), ?_, ?_⟩
  · cases hnt : opt.notrend with
    | true => exact hs' hnt
    | false =>
      have := h0 (slope * (p.ed.lor : ℂ)) (by simp [nameCoef, hnt])
      rcases mul_eq_zero.1 this with h | h
      · exact h
      · exact absurd (by exact_mod_cast h) (F.lorNonzero hnt)
  · intro n hn'
    rw [(F.perm_names R hnd hk).mem_iff, hn] at hn'
    exact ⟨h0 _ (by simp only [nameCoef, List.mem_append, List.mem_map]; exact .inl (.inl (.inl (.inl (.inl ⟨n, hn', rfl⟩))))),
      h0 _ (by simp only [nameCoef, List.mem_append, List.mem_map]; exact .inl (.inl (.inl (.inl (.inr ⟨n, hn', rfl⟩)))))⟩

theorem samples_le (tn : List Fl) (xs : List (Option ℂ)) : (samples tn xs).length ≤ (finiteTimes tn).length := by
  unfold samples finiteTimes
  induction tn generalizing xs with
  | nil => simp
  | cons a l ih =>
    cases xs with
    | nil => simp
    | cons x xs =>
      have := ih xs
      rw [List.zip_cons_cons, List.filterMap_cons, List.filterMap_cons]
      cases a with
      | fin r =>
        have e : (Fl.fin r).toReal? = some r := rfl
        cases x with
        | none => simp only [e, Option.bind_some, Option.map_none, List.length_cons]; omega
        | some z => simp only [e, Option.bind_some, Option.map_some, List.length_cons]; omega
      | _ => simpa [Fl.toReal?] using this

/-- The result after intervals have been added. -/
theorem finish_total (hs : Solved E p m W rf full o ind c) (q' : Opt) (hci : q'.confInt = true)
    (hnd : q'.nodiagn = false) (hoc : q'.ordercnstit = p.opt.ordercnstit) (hmet : q'.method = p.opt.method)
    (ci : CiArr) (hconf : confidence E.num (confIn { p with opt := q' } m W) = .ok ci) :
    ∃ c', stageSolution E { p with opt := q' } = .ok c' := by
  have hfit : stageFit E { p with opt := q' } = .ok (m, W, rf) := by
    rw [← hs.fit]; unfold stageFit; dsimp only; rw [hmet]
  unfold stageSolution
  rw [hfit, ok_bind]
  dsimp only
  have h1 : stageConf E { p with opt := q' } m W (rawCoef { p with opt := q' } m W rf) =
      .ok { rawCoef { p with opt := q' } m W rf with ci := some ci } := by
    unfold stageConf
    dsimp only
    rw [if_pos hci, hconf]
    rfl
  rw [h1, ok_bind]
  obtain ⟨c2, h2, h3, h4⟩ : ∃ c2, stageDiagn E { p with opt := q' }
      { rawCoef { p with opt := q' } m W rf with ci := some ci } = .ok c2 ∧ c2.name = p.sel.name ∧ c2.SNR.isSome := by
    unfold stageDiagn
    dsimp only
    rw [hnd]
    exact ⟨_, rfl, rfl, rfl⟩
  rw [h2, ok_bind, hoc, hs.order, ok_bind]
  unfold reorder orderIndex
  cases o with
  | PE => exact ⟨_, rfl⟩
  | frequency => exact ⟨_, rfl⟩
  | SNR =>
    dsimp only
    obtain ⟨s, hs'⟩ := Option.isSome_iff_exists.1 h4
    rw [hs']
    exact ⟨_, rfl⟩
  | names l =>
    have := hs.indNames l rfl
    rw [hs.name] at this
    dsimp only
    rw [h3, this]
    exact ⟨_, rfl⟩

/-- The data over-determine the model. -/
structure Overdetermined (c : Coef) (tn : List Fl) (u : Series) (v : Option Series) : Prop where
  separated : Separated c none v.isSome (SampleTime tn u.data (v.map Series.data))
  more : numPar c < (sampleTimes tn u v).length

/-- **C72**: when the data over-determine the model, intervals can be had: linearised or Monte Carlo ones with a white
noise floor, linearised ones also with the coloured one if sampling is even. -/
theorem C72_available {opts' : Dict PyVal} (R : Ready E t u v) (hI : InvOk E.num.inv) (hM : MvnOk E.num.mvn)
    (hnd : opts.keys.Nodup) (hnd' : opts'.keys.Nodup)
    (heq : ∀ k, k ∉ intervalKeys → requested opts k = requested opts' k)
    (hm : ∃ x, requested opts "method" = some x ∧ IsStr x "ols")
    (h : solve E t u v lat opts = .ok c) (hinf : readInfer c.opt.infer = .ok none) (hk : AllKept c)
    (htn : normalizeTime E.dt64 t.arr c.opt.epoch = .ok tn) (hov : Overdetermined c tn u v)
    (q' : Opt) (hq' : getOpt opts' v.isSome = .ok q') (hci : q'.confInt = true)
    (hnoise : q'.white = true ∨ (q'.linci = true ∧ EvenlySpaced (finiteTimes tn) ∧
      ∃ t0 t1 rest, finiteTimes tn = t0 :: t1 :: rest ∧ t0 ≠ t1)) :
    ∃ c', solve E t u v lat opts' = .ok c' := by
  obtain ⟨p, constit, m, W, rf, full, o, ind, F, hols, hpi, -⟩ :=
    run_facts R hnd hm h none hinf (fun s hs => by cases hs) tn htn
  have hqq := getOpt_conf opts opts' hnd hnd' _ heq _ _ F.hopt hq'
  have hp' : PrepOk E q' t u v lat tn constit { p with opt := q' } := by
    rw [hqq]; exact prepOk_conf F.prep
  have hi := F.indep R hnd hk (by rw [hpi]; rfl) (by rw [hpi]; exact hov.separated)
  have hlt : p.nm < p.B.length := by
    rw [← F.numPar_eq R hnd hk hpi, ← F.t_length, (F.samples R).2.1]
    exact hov.more
  have hpo := F.prep.hopt
  obtain ⟨ci, hconf⟩ := prep_confidence (m := m) (W := W) hI hM hp' R hpi F.mlen (F.ones hols) hi hlt (by
    rcases hnoise with hw | ⟨hl, he, t0, t1, rest, htin, h01⟩
    · exact .inl hw
    · refine .inr ⟨hl, ?_⟩
      obtain ⟨e1, e2, e3, -, e5⟩ := editData_usable tn _ _ (F.prep.init.same R.ht R.hu R.hv) _ F.prep.init.edit
      have hequi : p.ed.equi = true := by
        rw [(timeStats_ok _ _ _ _ _ _ e5).1]
        exact C68_even _ (by rw [htin]; simp) he
      refine residualPower_even E.num p.ed _ _ hequi ?_ ?_ ?_ t0 t1 rest (by rw [e1, htin]) h01
      · intro h0
        have := F.t_length
        rw [h0, List.length_nil] at this
        omega
      · have e6 : (xraw p.ed).length = p.ed.t.length := by rw [e2, e3]; simp
        have e7 := F.t_length
        simp [confIn, weightedResidual, xmodOf, F.ones hols, e6, e7]
      · rw [e1, e2, List.length_map, usable_samples _ _ _ (F.samples R).1]
        exact samples_le _ _)
  have hnd2 : q'.nodiagn = false := by
    rw [(getOpt_requests _ hnd' _ _ hq').diagn, hci]; rfl
  obtain ⟨c', hc'⟩ := finish_total F.solved q' hci hnd2 (by rw [hpo, hqq]) (by rw [hpo, hqq]) ci hconf
  refine ⟨c', ?_⟩
  obtain ⟨m', W', rf', c1, c2, o', hs'⟩ := (stageSolution_ok E _ c').1 hc'
  exact (solve_ok _ _ _ _ _ _ _).2 ⟨q', _, tn, constit, m', W', rf', c1, c2, o', hq', hp', hs'⟩

/-- **C72**, conversely: a run of ordinary least squares without inference that returns intervals had data that
over-determine the model. In all other cases it raises. -/
theorem C72_needed (R : Ready E t u v) (hI : InvOk E.num.inv) (hnd : opts.keys.Nodup)
    (hm : ∃ x, requested opts "method" = some x ∧ IsStr x "ols")
    (h : solve E t u v lat opts = .ok c) (hinf : readInfer c.opt.infer = .ok none) (hk : AllKept c)
    (htn : normalizeTime E.dt64 t.arr c.opt.epoch = .ok tn) (hci : c.ci ≠ none) : Overdetermined c tn u v := by
  obtain ⟨p, constit, m, W, rf, full, o, ind, F, hols, hpi, -⟩ :=
    run_facts R hnd hm h none hinf (fun s hs => by cases hs) tn htn
  have hc : c.opt.confInt = true := by
    rcases F.solved.ci with ⟨-, h2⟩ | ⟨h1, -⟩
    · exfalso; apply hci
      rw [F.solved.result]; show full.ci.map _ = _; rw [h2]; rfl
    · rw [← F.prep.hopt]; exact h1
  obtain ⟨hi, hlt⟩ := F.full_rank R hI hols hc
  refine ⟨F.separated R hnd hk hpi hi, ?_⟩
  unfold sampleTimes
  rw [F.numPar_eq R hnd hk hpi, ← (F.samples R).2.1, F.t_length]
  exact hlt

end

/-! ## Non-vacuity -/

/-- The example options with a choice of intervals and noise model. -/
def ciOpts (ci : String) (wh : Bool) : Dict PyVal :=
  [("constit", .seq .list [.str "M2"]), ("conf_int", .str ci), ("trend", .bool false), ("nodal", .bool false),
   ("phase", .str "raw"), ("order_constit", .str "frequency"), ("epoch", .str "python"), ("method", .str "ols"),
   ("white", .bool wh)]

def ciOpt (td lin wh : Bool) : Opt :=
  { exOpt td with confInt := true, linci := lin, white := wh, nodiagn := false }

theorem ciOpts_linear (td wh : Bool) : getOpt (ciOpts "linear" wh) td = .ok (ciOpt td true wh) := by
  cases td <;> cases wh <;> rfl

theorem ciOpts_MC (td wh : Bool) : getOpt (ciOpts "MC" wh) td = .ok (ciOpt td false wh) := by
  cases td <;> cases wh <;> rfl

theorem ciOpts_none (td wh : Bool) : getOpt (ciOpts "none" wh) td = .ok { exOpt td with white := wh } := by
  cases td <;> cases wh <;> rfl

theorem ciOpts_requested (ci ci' : String) (wh wh' : Bool) (k : String) (hk : k ∉ intervalKeys) :
    requested (ciOpts ci wh) k = requested (ciOpts ci' wh') k := by
  simp only [intervalKeys, List.mem_cons, List.not_mem_nil, or_false, not_or] at hk
  have e1 : ("conf_int" == k) = false := by simpa using Ne.symm hk.1
  have e2 : ("white" == k) = false := by simpa using Ne.symm hk.2.1
  unfold requested
  congr 1
  simp only [ciOpts, List.find?, e1, e2]

/-- The facts used below about an example run. -/
structure QuadRun (opts : Dict PyVal) (q : Opt) (a b c d : ℝ) (v : Option Series) (co : Coef) : Prop where
  returned : solve idealEnv quadT (quadSeries a b c d) v (some 45) opts = .ok co
  opt : co.opt = q
  kept : AllKept co
  over : Overdetermined co quadTn (quadSeries a b c d) v
  name : co.name = ["M2"]

theorem quad_run_facts {opts : Dict PyVal} {q : Opt} {a b c d : ℝ} {v : Option Series} {co : Coef}
    (hv : v = none ∨ ∃ a b c d, v = some (quadSeries a b c d)) (hnd : opts.keys.Nodup)
    (hopt : getOpt opts v.isSome = .ok q) (hq : LikeEx q) (ho : q.ordercnstit = .str "frequency")
    (h : solve idealEnv quadT (quadSeries a b c d) v (some 45) opts = .ok co) : QuadRun opts q a b c d v co := by
  have R := quad_ready a b c d v hv
  obtain ⟨opt, p, tn, constit, m, W, rf, full, o, ind, F⟩ := solve_facts R h
  have hqq := Except.ok.inj (hopt.symm.trans F.hopt)
  subst hqq
  obtain ⟨p', hp'⟩ := quad_prep a b c d v hv q hq
  have hpp := prepOk_unique hp'.prep F.prep
  have htn : tn = quadTn := by
    have h1 := F.prep.init.time
    rw [hq.epoch, quad_times] at h1
    exact (Except.ok.inj h1).symm
  subst htn
  have hco : co.opt = q := F.copt
  have hk : AllKept co := .inl (.inr (.inl (.inl (by rw [hco, ho]))))
  have hinf : p.infer = none := by rw [hpp]; exact hp'.infer
  have hi : IndepColumns p.nm p.B := by rw [hpp]; exact hp'.indep
  refine ⟨h, hco, hk, ⟨F.separated R hnd hk hinf hi, ?_⟩, ?_⟩
  · unfold sampleTimes
    rw [F.numPar_eq R hnd hk hinf, quad_usable a b c d v hv, hpp, hp'.nm]
    simp
  · have := F.perm_names R hnd hk
    rw [hpp, hp'.names] at this
    exact List.perm_singleton.1 this

/-- Four samples of M2: intervals of both kinds can be had with a white noise floor. -/
theorem quad_ci (a b c d : ℝ) (v : Option Series) (hv : v = none ∨ ∃ a b c d, v = some (quadSeries a b c d)) (lin : Bool) :
    ∃ co, QuadRun (ciOpts (if lin then "linear" else "MC") true) (ciOpt v.isSome lin true) a b c d v co ∧ co.ci ≠ none := by
  have R := quad_ready a b c d v hv
  have hret : ∃ c0, solve idealEnv quadT (quadSeries a b c d) v (some 45) (ciOpts "none" true) = .ok c0 := by
    have hs : GoodShapes quadT (quadSeries a b c d) v := by
      refine ⟨rfl, rfl, ?_⟩
      rintro w rfl
      rcases hv with h | ⟨d, e, f, g, h⟩
      · cases h
      · cases h; rfl
    have hus := quad_usable a b c d v hv
    refine solve_total idealEnv _ _ v 45 _ _ quadTn (.names ["M2"]) .frequency (ciOpts_none v.isSome true) rfl rfl rfl rfl rfl
      ⟨by simpa using M2_known, .inl (by simp)⟩ rfl (.inr rfl) hs R.ht R.hu R.hv quad_times ?_
      (fun k => by simp [nodalSingular, exOpt]) (fun h => by simp [exOpt] at h)
    intro h0
    rw [h0] at hus
    simp at hus
  obtain ⟨c0, hc0⟩ := hret
  have Q0 := quad_run_facts hv (by decide) (ciOpts_none v.isSome true) ⟨rfl, rfl, rfl, rfl, rfl⟩ rfl hc0
  have hok : getOpt (ciOpts (if lin then "linear" else "MC") true) v.isSome = .ok (ciOpt v.isSome lin true) := by
    cases lin
    · exact ciOpts_MC _ _
    · exact ciOpts_linear _ _
  obtain ⟨co, hco⟩ := C72_available R idealNum_ok.inv idealNum_ok.mvn (by decide)
    (by cases lin <;> decide) (ciOpts_requested "none" (if lin then "linear" else "MC") true true)
    ⟨.str "ols", rfl, .inl rfl⟩ hc0 (by rw [Q0.opt]; rfl) Q0.kept (by rw [Q0.opt]; exact quad_times) Q0.over _ hok rfl (.inl rfl)
  have Q := quad_run_facts hv (by cases lin <;> decide) hok ⟨rfl, rfl, rfl, rfl, rfl⟩ rfl hco
  refine ⟨co, Q, ?_⟩
  obtain ⟨opt, p, tn, constit, m, W, rf, full, o, ind, F⟩ := solve_facts R hco
  have hqq := Except.ok.inj (hok.symm.trans F.hopt)
  subst hqq
  rcases F.solved.ci with ⟨h1, -⟩ | ⟨-, ci, -, h2⟩
  · rw [F.prep.hopt] at h1; cases h1
  · rw [F.solved.result]
    intro h3
    have h4 : full.ci.map (CiArr.permute ind) = none := h3
    rw [h2] at h4
    cases h4

/-- Non-vacuity of C70, with data that leave a residual: the run returns, and the theorem speaks about it. -/
example : ∃ c, WhiteRun idealEnv quadT (quadSeries 1 0 2 5) none (some 45) (ciOpts "linear" true) c quadTn ∧
    c.name = ["M2"] := by
  obtain ⟨c, Q, -⟩ := quad_ci 1 0 2 5 none (.inl rfl) true
  exact ⟨c, ⟨Q.returned, by decide, ⟨.str "ols", rfl, .inl rfl⟩, by rw [Q.opt]; rfl, by rw [Q.opt]; rfl,
    by rw [Q.opt]; rfl, by rw [Q.opt]; rfl, Q.kept, by rw [Q.opt]; exact quad_times⟩, Q.name⟩

example : ∃ c, WhiteRun idealEnv quadT (quadSeries 1 0 2 5) (some (quadSeries 3 1 4 1)) (some 45) (ciOpts "linear" true) c
    quadTn ∧ c.name = ["M2"] := by
  obtain ⟨c, Q, -⟩ := quad_ci 1 0 2 5 (some (quadSeries 3 1 4 1)) (.inr ⟨_, _, _, _, rfl⟩) true
  exact ⟨c, ⟨Q.returned, by decide, ⟨.str "ols", rfl, .inl rfl⟩, by rw [Q.opt]; rfl, by rw [Q.opt]; rfl,
    by rw [Q.opt]; rfl, by rw [Q.opt]; rfl, Q.kept, by rw [Q.opt]; exact quad_times⟩, Q.name⟩

/-- Non-vacuity of C71 and C72: a run without intervals, one with linearised and one with Monte Carlo intervals. -/
example : ∃ c c' c'', solve idealEnv quadT (quadSeries 1 0 2 5) none (some 45) (ciOpts "none" true) = .ok c ∧
    solve idealEnv quadT (quadSeries 1 0 2 5) none (some 45) (ciOpts "linear" true) = .ok c' ∧
    solve idealEnv quadT (quadSeries 1 0 2 5) none (some 45) (ciOpts "MC" true) = .ok c'' ∧
    c'.ci ≠ none ∧ c''.ci ≠ none ∧ SameFit c c' ∧ SameFit c c'' ∧ Overdetermined c quadTn (quadSeries 1 0 2 5) none := by
  obtain ⟨c', Q', h'⟩ := quad_ci 1 0 2 5 none (.inl rfl) true
  obtain ⟨c'', Q'', h''⟩ := quad_ci 1 0 2 5 none (.inl rfl) false
  obtain ⟨c, hc⟩ := quad_returns (ciOpts "none" true) _ (ciOpts_none false true) ⟨rfl, rfl, rfl, rfl, rfl⟩ rfl rfl rfl 1 0 2 5
    (fun p hp => by
      unfold stageFit
      rw [hp.prep.hopt]
      exact ⟨_, _, _, rfl⟩)
  have Q := quad_run_facts (v := none) (.inl rfl) (by decide) (ciOpts_none false true) ⟨rfl, rfl, rfl, rfl, rfl⟩ rfl hc
  have hord : ¬ IsStr c.opt.ordercnstit "SNR" := by rw [Q.opt]; exact not_snr false
  exact ⟨c, c', c'', hc, Q'.returned, Q''.returned, h', h'',
    C71_same_fit (by decide) (by decide) (ciOpts_requested _ _ _ _) c c' hc Q'.returned hord,
    C71_same_fit (by decide) (by decide) (ciOpts_requested _ _ _ _) c c'' hc Q''.returned hord, Q.over⟩

end

end UTide.Props
