import Verif.Props.McProps
import Verif.Props.CiProps
import Verif.Props.SwapProps

/-!
# When Monte-Carlo intervals fail: C110
-/

namespace UTide.Props

noncomputable section

open Classical Matrix

/-! ## Lemmas -/

theorem mapM_iff {α β : Type} (f : α → Except PyErr β) (l : List α) :
    (∃ r, l.mapM f = .ok r) ↔ ∀ a ∈ l, ∃ b, f a = .ok b :=
  ⟨fun ⟨r, hr⟩ a ha => by obtain ⟨b, -, hb⟩ := mapM_mem _ _ _ hr a ha; exact ⟨b, hb⟩, mapM_total f l⟩

theorem scaled_div (x k e : ℝ) (he : e ≠ 0) : (Fl.fin x * Fl.fin k).div (.fin e) = .fin (x * k / e) := by
  show (if e = 0 then _ else _) = _
  rw [if_neg he]

theorem finMatrix_total {n : ℕ} (M : Matrix (Fin n) (Fin n) Fl) (A : Matrix (Fin n) (Fin n) ℝ) (h : ∀ i j, M i j = .fin (A i j)) :
    ∃ A, finMatrix M = .ok A := by
  unfold finMatrix
  rw [if_pos (by intro i j; rw [h]; rfl)]
  exact ⟨_, rfl⟩

theorem band_iff (K : Matrix (Fin 4) (Fin 4) ℝ) (a b d : Fl) :
    (∃ A, finMatrix (mcScaled K a b d) = .ok A) ↔ (∃ x, a = .fin x) ∧ (∃ x, b = .fin x) ∧
      (|K 0 2| + |K 0 3| + |K 1 2| + |K 1 3| ≠ 0 → ∃ x, d = .fin x) ∧ K 0 0 + K 1 1 ≠ 0 ∧ K 2 2 + K 3 3 ≠ 0 := by
  constructor
  · rintro ⟨A, hA⟩
    obtain ⟨pu, pv, puv, h1, h2, h3, h4, h5, -⟩ := scaled_band K a b d A hA
    exact ⟨⟨_, h1⟩, ⟨_, h2⟩, fun h => ⟨_, h3 h⟩, h4, h5⟩
  · rintro ⟨⟨pu, rfl⟩, ⟨pv, rfl⟩, h3, h4, h5⟩
    have hs : 0 ≤ |K 0 2| + |K 0 3| + |K 1 2| + |K 1 3| := by positivity
    obtain ⟨puv, hd⟩ : ∃ puv, (|K 0 2| + |K 0 3| + |K 1 2| + |K 1 3| ≠ 0 → d = .fin puv) := by
      by_cases h0 : |K 0 2| + |K 0 3| + |K 1 2| + |K 1 3| = 0
      · exact ⟨0, fun h => absurd h0 h⟩
      · obtain ⟨x, hx⟩ := h3 h0
        exact ⟨x, fun _ => hx⟩
    refine finMatrix_total _ (bandCov K pu pv puv) ?_
    intro i j
    unfold mcScaled bandCov
    simp only [Matrix.of_apply]
    rw [scaled_div _ _ _ h4, scaled_div _ _ _ h5]
    by_cases c1 : i.val < 2 ∧ j.val < 2
    · rw [if_pos c1, if_pos c1]
    rw [if_neg c1, if_neg c1]
    by_cases c2 : 2 ≤ i.val ∧ 2 ≤ j.val
    · rw [if_pos c2, if_pos c2]
    rw [if_neg c2, if_neg c2]
    by_cases h0 : |K 0 2| + |K 0 3| + |K 1 2| + |K 1 3| = 0
    · rw [h0, if_neg (lt_irrefl _), div_zero]
    · rw [if_pos (lt_of_le_of_ne hs (Ne.symm h0)), hd h0, scaled_div _ _ _ h0]

theorem band1_iff (D : Matrix (Fin 2) (Fin 2) ℝ) (a : Fl) :
    (∃ A, finMatrix (Matrix.of fun i j => (a * Fl.fin (D i j)).div (.fin (D 0 0 + D 1 1))) = .ok A) ↔
      (∃ x, a = .fin x) ∧ D 0 0 + D 1 1 ≠ 0 := by
  constructor
  · rintro ⟨A, hA⟩
    obtain ⟨pu, h1, h2, -⟩ := scaled_band1 D a A hA
    exact ⟨⟨_, h1⟩, h2⟩
  · rintro ⟨⟨pu, rfl⟩, h2⟩
    refine finMatrix_total _ (bandCov1 D pu) ?_
    intro i j
    rw [Matrix.of_apply, scaled_div _ _ _ h2]
    rfl

theorem monteCarlo2_iff (N : Num) (hN : MvnOk N.mvn) (c : ℕ) (p : Fl × Fl × Fl) (Xu Yu Xv Yv g theta : ℝ)
    (G H : Matrix (Fin 2) (Fin 2) ℂ) :
    (∃ r, monteCarlo2 N c (some p) Xu Yu Xv Yv g theta G H = .ok r) ↔
    ∃ A, finMatrix (mcScaled (mcCov G H) p.1 p.2.1 p.2.2) = .ok A := by
  constructor
  · rintro ⟨r, h⟩
    have h' : monteCarlo2 N c (some p) (![Xu, Yu, Xv, Yv] 0) (![Xu, Yu, Xv, Yv] 1) (![Xu, Yu, Xv, Yv] 2)
      (![Xu, Yu, Xv, Yv] 3) g theta G H = .ok r := h
    obtain ⟨M, -, hM, -⟩ := monteCarlo2_draws h'
    obtain ⟨A, hA, -⟩ := hM p rfl
    exact ⟨A, hA⟩
  · rintro ⟨A, hA⟩
    rcases monteCarlo2_or N hN c (some p) Xu Yu Xv Yv g theta G H with h | ⟨-, h⟩
    · exact h
    · exfalso
      unfold monteCarlo2 at h
      dsimp only at h
      rw [hA] at h
      simp only [ok_bind, pure_eq_ok] at h
      obtain ⟨x, hx⟩ := angleCi_total theta (((N.mvn c 4 ![Xu, Yu, Xv, Yv] (nearestSPD N A) nrlzn).map fun r =>
        cs2cep2 (r 0) (r 1) (r 2) (r 3)).map Ell.theta) (by rw [List.map_map]; exact mvn_map_ne N hN _ _ _ _ _)
      obtain ⟨y, hy⟩ := angleCi_total g (((N.mvn c 4 ![Xu, Yu, Xv, Yv] (nearestSPD N A) nrlzn).map fun r =>
        cs2cep2 (r 0) (r 1) (r 2) (r 3)).map Ell.g) (by rw [List.map_map]; exact mvn_map_ne N hN _ _ _ _ _)
      rw [hx, ok_bind, hy] at h
      cases h

theorem monteCarlo1_iff (N : Num) (hN : MvnOk N.mvn) (c : ℕ) (p : Fl) (Xu Yu g : ℝ) (G H : Matrix (Fin 2) (Fin 2) ℂ)
    (D : Matrix (Fin 2) (Fin 2) ℝ) (hD : D = !![mcCov G H 0 0, mcCov G H 0 1; mcCov G H 1 0, mcCov G H 1 1]) :
    (∃ r, monteCarlo1 N c (some p) Xu Yu g H (varXuOf G) (varYuOf H) = .ok r) ↔
    ∃ A, finMatrix (Matrix.of fun i j => (p * Fl.fin (D i j)).div (.fin (D 0 0 + D 1 1))) = .ok A := by
  constructor
  · rintro ⟨r, h⟩
    have h' : monteCarlo1 N c (some p) (![Xu, Yu] 0) (![Xu, Yu] 1) g H (varXuOf G) (varYuOf H) = .ok r := h
    obtain ⟨M, D', hD', -, hM, -⟩ := monteCarlo1_draws h'
    obtain ⟨A, hA, -⟩ := hM p rfl
    rw [hD, ← hD']
    exact ⟨A, hA⟩
  · rintro ⟨A, hA⟩
    rcases monteCarlo1_or N hN c (some p) Xu Yu g H (varXuOf G) (varYuOf H) with h | ⟨-, h⟩
    · exact h
    · exfalso
      subst hD
      unfold monteCarlo1 at h
      dsimp only at h
      erw [hA] at h
      simp only [ok_bind, pure_eq_ok] at h
      obtain ⟨y, hy⟩ := angleCi_total g (((N.mvn c 2 ![Xu, Yu] (nearestSPD N A) nrlzn).map fun r =>
        cs2cep1 (r 0) (r 1)).map Ell.g) (by rw [List.map_map]; exact mvn_map_ne N hN _ _ _ _ _)
      rw [hy] at h
      cases h

/-- Where the linearised intervals of a constituent are computed, the Monte-Carlo ones are if and only if the rescaled
covariance matrix is finite. -/
theorem ciOne_mc_iff (N : Num) (hN : MvnOk N.mvn) (i : ConfIn) (p : Power)
    (GH : Matrix (Fin i.nm) (Fin i.nm) ℂ × Matrix (Fin i.nm) (Fin i.nm) ℂ) (nc c : ℕ)
    (hth : i.twodim = true → c < i.theta.length) (hp : p.Puv.length = p.Puu.length)
    (r : Ci1 × Vars) (h : ciOne N i (some p) GH nc c = .ok r) :
    ∃ (G H : Matrix (Fin 2) (Fin 2) ℂ) (pu puv : Fl), block GH.1 nc c = .ok G ∧ block GH.2 nc c = .ok H ∧
      p.Puu[c]? = some pu ∧ p.Puv[c]? = some puv ∧
      (i.twodim = false → ((∃ r, ciOne N { i with linci := false } (some p) GH nc c = .ok r) ↔
        (∃ x, pu = .fin x) ∧ mcCov G H 0 0 + mcCov G H 1 1 ≠ 0)) ∧
      (i.twodim = true → ∃ pv, p.Pvv[c]? = some pv ∧ ((∃ r, ciOne N { i with linci := false } (some p) GH nc c = .ok r) ↔
        (∃ x, pu = .fin x) ∧ (∃ x, pv = .fin x) ∧
        (|mcCov G H 0 2| + |mcCov G H 0 3| + |mcCov G H 1 2| + |mcCov G H 1 3| ≠ 0 → ∃ x, puv = .fin x) ∧
        mcCov G H 0 0 + mcCov G H 1 1 ≠ 0 ∧ mcCov G H 2 2 + mcCov G H 3 3 ≠ 0)) := by
  unfold ciOne at h ⊢
  simp only [bind_eq_ok] at h
  obtain ⟨G, hG, H, hH, Xu, hXu, Yu, hYu, g, hg, pu, hpu, h⟩ := h
  obtain ⟨pu, hpu', rfl⟩ := power_some p Power.Puu c _ hpu
  have hl := (List.getElem?_eq_some_iff.1 hpu').1
  have hpv' : p.Puv[c]? = some (p.Puv[c]'(by rw [hp]; exact hl)) := List.getElem?_eq_getElem _
  have hpv'' : getIdx p.Puv c = .ok (p.Puv[c]'(by rw [hp]; exact hl)) := getIdx_lt _ _ _
  refine ⟨G, H, pu, _, hG, hH, hpu', hpv', fun htd => ?_, fun htd => ?_⟩
  · simp only [hG, hH, hXu, hYu, hg, ok_bind]
    rw [hpu]
    simp only [ok_bind]
    rw [if_neg (by rw [htd]; decide)]
    simp only [Bool.false_eq_true, if_false]
    have e := (monteCarlo1_iff N hN c pu Xu Yu g G H _ rfl).trans (band1_iff _ pu)
    simp only [Matrix.cons_val_zero, Matrix.cons_val_one, Matrix.of_apply] at e
    rw [← show _ ↔ _ from e]
    constructor
    · rintro ⟨r, hr⟩
      simp only [bind_eq_ok] at hr
      obtain ⟨y, hy, -⟩ := hr
      exact ⟨y, hy⟩
    · rintro ⟨y, hy⟩
      exact ⟨_, by rw [hy]; rfl⟩
  · rw [if_pos htd] at h
    simp only [bind_eq_ok] at h
    obtain ⟨Xv, hXv, Yv, hYv, pv, hpv, -⟩ := h
    obtain ⟨pv, hpv1, rfl⟩ := power_some p Power.Pvv c _ hpv
    refine ⟨pv, hpv1, ?_⟩
    simp only [hG, hH, hXu, hYu, hg, ok_bind]
    rw [hpu]
    simp only [ok_bind]
    rw [if_pos htd]
    simp only [hXv, hYv, ok_bind]
    rw [hpv]
    simp only [ok_bind, Bool.false_eq_true, if_false]
    rw [getIdx_lt _ _ (hth htd), ok_bind, hpv'']
    simp only [Except.map, ok_bind]
    rw [← band_iff, ← monteCarlo2_iff N hN c (pu, pv, _) Xu Yu Xv Yv g (i.theta[c]'(hth htd)) G H]
    constructor
    · rintro ⟨r, hr⟩
      simp only [bind_eq_ok] at hr
      obtain ⟨y, hy, -⟩ := hr
      exact ⟨y, hy⟩
    · rintro ⟨y, hy⟩
      exact ⟨_, by rw [hy]; rfl⟩

section
variable {E : Env} {t : TimeArg} {u : Series} {v : Option Series} {lat : Option ℝ} {opts optsMC : Dict PyVal}
  {c : Coef} {opt : Opt} {p : Prep} {tn : List Fl} {constit : Constit} {m : List ℂ} {W : List ℝ}
  {rf : Option RobOut} {full : Coef} {o : Order} {ind : List ℕ}

/-- The same call with Monte-Carlo instead of linearised intervals, coloured noise, no inference. -/
theorem Facts.mcOutcome (F : Facts E t u v lat opts c opt p tn constit m W rf full o ind) (hnd : opts.keys.Nodup)
    (hN : MvnOk E.num.mvn) (hl : opt.linci = true) (hci : opt.confInt = true) (hw : opt.white = false)
    (hinf : p.infer = none) (hoMC : getOpt optsMC v.isSome = .ok { opt with linci := false }) :
    ∃ w GH, residualPower E.num p.ed (confIn p m W).e p.sel.frq = .ok w ∧ covariances E.num (confIn p m W) = .ok GH ∧
      (∀ k < p.sel.nNR, ∃ r, ciOne E.num (confIn p m W) (some w) GH p.sel.nNR k = .ok r) ∧
      (v.isSome = true → ∀ k < p.sel.nNR, k < (confIn p m W).theta.length) ∧
      ((∃ c', solve E t u v lat optsMC = .ok c') ↔ ∀ k < p.sel.nNR,
        ∃ r, ciOne E.num { confIn p m W with linci := false } (some w) GH p.sel.nNR k = .ok r) ∧
      ((¬ ∃ c', solve E t u v lat optsMC = .ok c') → solve E t u v lat optsMC = .error .linAlgError) := by
  have hp := F.prep
  have hpo : p.opt = opt := hp.hopt
  rcases F.solved.ci with ⟨h4, -⟩ | ⟨-, ci, hc, -⟩
  · rw [hpo, hci] at h4; cases h4
  unfold confidence at hc
  simp only [bind_eq_ok, pure_eq_ok, Except.ok.injEq] at hc
  obtain ⟨pw, hpw, GH, hGH, rows, hrows, inf, hif, -⟩ := hc
  have hml : m.length = numCols (!opt.notrend) p.sel := by rw [F.mlen, hp.nm]
  obtain ⟨a1, a2⟩ := apOf_length _ m hml
  obtain ⟨b1, b2⟩ := allAp_length hp.aligned _ m hml
  obtain ⟨hrefs, hnR, hname, hlen, hnm⟩ := F.noRefs hinf
  have hXl : (confIn p m W).Xu.length = p.sel.nNR := by simp [confIn, a1, a2, hnR]
  have hw' : (confIn p m W).white = false := by show p.opt.white = _; rw [hpo, hw]
  rw [hw', if_neg (by decide)] at hpw
  obtain ⟨w, hres, rfl⟩ : ∃ w, residualPower E.num p.ed (confIn p m W).e p.sel.frq = .ok w ∧ pw = some w := by
    cases hr : residualPower E.num (confIn p m W).ed (confIn p m W).e (confIn p m W).frq with
    | error e => rw [hr] at hpw; cases hpw
    | ok w => rw [hr] at hpw; exact ⟨w, hr, (Except.ok.inj hpw).symm⟩
  have hpuv : w.Puv.length = w.Puu.length := by
    unfold residualPower at hres
    simp only [bind_eq_ok, pure_eq_ok, Except.ok.injEq] at hres
    obtain ⟨_, -, rfl⟩ := hres
    simp
  have hth : v.isSome = true → ∀ c < p.sel.nNR, c < (confIn p m W).theta.length := by
    intro htd c hc
    have htd' : p.opt.twodim = true := (F.td hnd).trans htd
    have e : (confIn p m W).theta.length = p.sel.lind.length := by
      simp [confIn, ellOf, htd', EllArr.thetas, b1, b2]
    rw [e, hp.aligned.lind_eq]
    simp only [List.length_append, List.length_map, hp.aligned.nNR] at hc ⊢
    omega
  have htd2 : (confIn p m W).twodim = v.isSome := F.td hnd
  have hlin : (confIn p m W).linci = true := by show p.opt.linci = true; rw [hpo, hl]
  rw [hXl] at hrows
  have hrow : ∀ k < p.sel.nNR, ∃ r, ciOne E.num (confIn p m W) (some w) GH p.sel.nNR k = .ok r := by
    intro k hk
    obtain ⟨r, -, hr⟩ := mapM_mem _ _ _ hrows k (List.mem_range.2 hk)
    exact ⟨r, hr⟩
  -- the same call with the other kind of interval
  have hsol : solve E t u v lat optsMC = stageSolution E { p with opt := { opt with linci := false } } := by
    unfold solve
    rw [hoMC, ok_bind]
    have : stagePrep E { opt with linci := false } t u v lat = .ok { p with opt := { opt with linci := false } } := by
      rw [stagePrep_ok]
      exact ⟨tn, constit, ⟨⟨hp.init.hlat, hp.init.shapes, hp.init.time, hp.init.edit⟩, hp.cons, hp.hinfer, hp.hsel, hp.check, rfl, hp.nm, hp.B⟩⟩
    rw [this, ok_bind]
  have hfit : stageFit E { p with opt := { opt with linci := false } } = .ok (m, W, rf) := by
    rw [← F.solved.fit, ← hpo]; rfl
  have hconf : confIn { p with opt := { opt with linci := false } } m W = { confIn p m W with linci := false } := by
    rw [← hpo]; rfl
  have hrun : ∀ e, confidence E.num { confIn p m W with linci := false } = .error e →
      solve E t u v lat optsMC = .error e := by
    intro e he
    rw [hsol]
    unfold stageSolution
    rw [hfit, ok_bind]
    dsimp only
    unfold stageConf
    dsimp only
    rw [if_pos hci, hconf, he]
    rfl
  have hcov : covariances E.num { confIn p m W with linci := false } = .ok GH := (covariances_linci _ _ _).trans hGH
  have hpw' : (if ({ confIn p m W with linci := false } : ConfIn).white = true then Except.ok none else
      (residualPower E.num ({ confIn p m W with linci := false } : ConfIn).ed
        ({ confIn p m W with linci := false } : ConfIn).e ({ confIn p m W with linci := false } : ConfIn).frq).map some) =
      .ok (some w) := by
    have : ({ confIn p m W with linci := false } : ConfIn).white = false := hw'
    rw [this, if_neg (by decide)]
    exact hpw
  have hnoinf : ({ confIn p m W with linci := false } : ConfIn).infer = false := by
    show p.infer.isSome = false; rw [hinf]; rfl
  have hXl' : ({ confIn p m W with linci := false } : ConfIn).Xu.length = p.sel.nNR := hXl
  have hnd2 : opt.nodiagn = false := by
    have := (getOpt_requests _ hnd _ _ F.hopt).diagn
    rw [this, hci]; rfl
  have hok : (∃ r, (List.range p.sel.nNR).mapM (ciOne E.num { confIn p m W with linci := false } (some w) GH p.sel.nNR) =
      .ok r) → ∃ c', solve E t u v lat optsMC = .ok c' := by
    rintro ⟨r, hr⟩
    have hcf : ∃ ci, confidence E.num (confIn { p with opt := { opt with linci := false } } m W) = .ok ci := by
      rw [hconf]
      unfold confidence
      rw [hpw', ok_bind, hcov, ok_bind]
      dsimp only at hXl' ⊢
      rw [hXl']
      erw [hr]
      rw [ok_bind]
      unfold inferCi
      dsimp only
      rw [if_neg (by rw [show (confIn p m W).infer = false from hnoinf]; decide)]
      exact ⟨_, rfl⟩
    obtain ⟨ci', hci'⟩ := hcf
    rw [hsol]
    exact finish_total F.solved { opt with linci := false } hci hnd2 (by rw [hpo]) (by rw [hpo]) ci' hci'
  have herr : (List.range p.sel.nNR).mapM (ciOne E.num { confIn p m W with linci := false } (some w) GH p.sel.nNR) =
      .error .linAlgError → solve E t u v lat optsMC = .error .linAlgError := by
    intro hr
    apply hrun
    unfold confidence
    rw [hpw', ok_bind, hcov, ok_bind]
    dsimp only at hXl' ⊢
    rw [hXl']
    erw [hr]
    rfl
  have hor := mapM_or (ciOne E.num { confIn p m W with linci := false } (some w) GH p.sel.nNR)
    .linAlgError (List.range p.sel.nNR) (by
      intro c hc
      obtain ⟨r, hr⟩ := hrow c (List.mem_range.1 hc)
      rcases ciOne_mc E.num hN _ (some w) GH _ c hlin (fun h => hth (htd2 ▸ h) c (List.mem_range.1 hc))
        (fun x hx => by cases hx; exact hpuv) r hr with h | ⟨-, h⟩
      · exact .inl h
      · exact .inr h)
  refine ⟨w, GH, hres, hGH, hrow, hth, ?_, ?_⟩
  · have e : (∀ k < p.sel.nNR, ∃ r, ciOne E.num { confIn p m W with linci := false } (some w) GH p.sel.nNR k = .ok r) ↔
      ∀ k ∈ List.range p.sel.nNR, ∃ r, ciOne E.num { confIn p m W with linci := false } (some w) GH p.sel.nNR k = .ok r :=
      by simp only [List.mem_range]
    rw [e, ← mapM_iff]
    refine ⟨fun h => ?_, hok⟩
    rcases hor with hr | hr
    · exact hr
    · obtain ⟨c', hc'⟩ := h
      rw [herr hr] at hc'
      cases hc'
  · intro hno
    rcases hor with hr | hr
    · exact absurd (hok hr) hno
    · exact herr hr

end

theorem resid_sum_ne {n : ℕ} (f : Fin n → ℝ) (d : ℝ) (hd : 0 < d) :
    (∑ j, f j ^ 2) / d ≠ 0 ↔ ∃ x ∈ List.ofFn f, x ≠ 0 := by
  rw [div_ne_zero_iff, and_iff_left hd.ne']
  constructor
  · intro h
    by_contra hc
    push_neg at hc
    exact h (Finset.sum_eq_zero fun j _ => by rw [hc (f j) (by rw [List.mem_ofFn]; exact ⟨j, rfl⟩)]; simp)
  · rintro ⟨x, hx, hne⟩ h0
    rw [List.mem_ofFn] at hx
    obtain ⟨j, rfl⟩ := hx
    have := (Finset.sum_eq_zero_iff_of_nonneg (fun j _ => sq_nonneg (f j))).1 h0 j (Finset.mem_univ _)
    exact hne (pow_eq_zero_iff (by norm_num) |>.1 this)

theorem kron_traces (K : Matrix (Fin 4) (Fin 4) ℝ) (su sv suv vc vs vcs : ℝ) (pa : 0 < vc) (pb : 0 ≤ vs)
    (h : K = !![su * vc, su * vcs, suv * vc, suv * vcs; su * vcs, su * vs, suv * vcs, suv * vs;
      suv * vc, suv * vcs, sv * vc, sv * vcs; suv * vcs, suv * vs, sv * vcs, sv * vs]) :
    (K 0 0 + K 1 1 ≠ 0 ↔ su ≠ 0) ∧ (K 2 2 + K 3 3 ≠ 0 ↔ sv ≠ 0) ∧
      (|K 0 2| + |K 0 3| + |K 1 2| + |K 1 3| ≠ 0 ↔ suv ≠ 0) := by
  subst h
  have hv : vc + vs ≠ 0 := by positivity
  refine ⟨?_, ?_, ?_⟩
  · show su * vc + su * vs ≠ 0 ↔ _
    rw [← mul_add, mul_ne_zero_iff, and_iff_left hv]
  · show sv * vc + sv * vs ≠ 0 ↔ _
    rw [← mul_add, mul_ne_zero_iff, and_iff_left hv]
  · show |suv * vc| + |suv * vcs| + |suv * vcs| + |suv * vs| ≠ 0 ↔ _
    rw [abs_mul, abs_mul, abs_mul, ← mul_add, ← mul_add, ← mul_add, mul_ne_zero_iff, abs_ne_zero, and_iff_left]
    have : 0 < |vc| := abs_pos.2 pa.ne'
    positivity

theorem mc_fail_facts {E : Env} {t : TimeArg} {u : Series} {v : Option Series} {lat : Option ℝ}
    {opts optsMC : Dict PyVal} {c : Coef} {tn : List Fl} (R : Ready E t u v) (hI : InvOk E.num.inv) (hN : MvnOk E.num.mvn)
    (H : ColourRun E t u v lat opts c tn) (hoMC : getOpt optsMC v.isSome = .ok { c.opt with linci := false }) :
    ∃ (ed : Edited) (qu qv : CurvePar) (frq : List ℝ) (w : Power), editData tn u.data (v.map Series.data) = .ok ed ∧
      BestFit c (sampleTimes tn u v) (sampleU tn u v) qu ∧ BestFit c (sampleTimes tn u v) (sampleV tn u v) qv ∧
      frq.Perm c.frq ∧
      residualPower E.num ed
        (List.zipWith (fun a b => (⟨a, b⟩ : ℂ)) (residuals c (sampleTimes tn u v) (sampleU tn u v) qu)
          (residuals c (sampleTimes tn u v) (sampleV tn u v) qv)) frq = .ok w ∧
      (v.isSome = false → residuals c (sampleTimes tn u v) (sampleV tn u v) qv =
        (residuals c (sampleTimes tn u v) (sampleU tn u v) qu).map fun _ => 0) ∧
      ((∃ c', solve E t u v lat optsMC = .ok c') ↔ ∀ k < frq.length, (∃ x, w.Puu[k]? = some (.fin x)) ∧
        (∃ x ∈ residuals c (sampleTimes tn u v) (sampleU tn u v) qu, x ≠ 0) ∧
        (v.isSome = true → (∃ x, w.Pvv[k]? = some (.fin x)) ∧
          (∃ x ∈ residuals c (sampleTimes tn u v) (sampleV tn u v) qv, x ≠ 0) ∧
          (combine (residuals c (sampleTimes tn u v) (sampleU tn u v) qu)
            (residuals c (sampleTimes tn u v) (sampleV tn u v) qv) ≠ 0 → ∃ x, w.Puv[k]? = some (.fin x)))) ∧
      ((¬ ∃ c', solve E t u v lat optsMC = .ok c') → solve E t u v lat optsMC = .error .linAlgError) := by
  obtain ⟨p, constit, m, W, rf, full, o, ind, F, hols, hinf, -⟩ :=
    run_facts R H.keys H.ols H.returned none H.infer (fun s hs => by cases hs) tn H.time
  obtain ⟨x, hx⟩ := F.data R
  obtain ⟨hi, hlt⟩ := F.full_rank R hI hols H.ci
  obtain ⟨-, hts, hxs⟩ := F.samples R
  have hU : sampleU tn u v = List.ofFn fun j => (x j).re := by
    have : sampleU tn u v = (xraw p.ed).map Complex.re := by rw [hxs, List.map_map]; rfl
    rw [this, hx, List.map_ofFn]; rfl
  have hV : sampleV tn u v = List.ofFn fun j => (x j).im := by
    have : sampleV tn u v = (xraw p.ed).map Complex.im := by rw [hxs, List.map_map]; rfl
    rw [this, hx, List.map_ofFn]; rfl
  have hT : sampleTimes tn u v = p.ed.t := hts.symm
  obtain ⟨qu, hqu, hru, -⟩ := F.bestFit R H.keys H.kept hinf hi fun j => (x j).re
  obtain ⟨qv, hqv, hrv, -⟩ := F.bestFit R H.keys H.kept hinf hi fun j => (x j).im
  have hfrq : p.sel.frq.Perm c.frq := by
    have : c.frq = gather full.frq ind := by rw [F.solved.result]; rfl
    rw [this, ← F.solved.frq]
    exact (gather_perm _ (by rw [F.len.frq]; exact F.kept H.keys R H.kept)).symm
  obtain ⟨w, GH, hres, hGH, hrow, hth, hiff, herr⟩ := F.mcOutcome H.keys hN H.linear H.ci H.coloured hinf hoMC
  have hd := gram_det p.nm p.B F.prep.rows hi
  have hP := F.paired hinf
  have hm := F.solution R hols hi x hx
  have hS := F.split R H.keys hinf x hx hm
  have hxl : (xraw p.ed).length = p.B.length := (F.prep.height R.ht R.hu R.hv).symm
  have hcov := covariances_total hI (confIn p m W) (F.ones hols) F.prep.rows hi _ hP (by
    show (xraw p.ed).length ≠ p.nm; omega)
  rw [hcov] at hGH
  obtain ⟨G, H'⟩ := GH
  obtain ⟨hG, hH⟩ := Prod.mk.inj (Except.ok.inj hGH)
  obtain ⟨hrefs, hnR, hname, hlen, hnm⟩ := F.noRefs hinf
  have hll : p.sel.lind.length = p.sel.nNR := by rw [F.prep.aligned.lind_eq, hrefs, F.prep.aligned.nNR]; simp
  have hfl : p.sel.frq.length = p.sel.nNR := by rw [F.prep.aligned.frq, List.length_map, hll]
  have htd : (confIn p m W).twodim = v.isSome := F.td H.keys
  have hpuv : w.Puv.length = w.Puu.length := by
    have h' := hres
    unfold residualPower at h'
    simp only [bind_eq_ok, pure_eq_ok, Except.ok.injEq] at h'
    obtain ⟨_, -, rfl⟩ := h'
    simp
  have hdof : (0 : ℝ) < (p.B.length : ℝ) - p.nm := by rw [sub_pos]; exact_mod_cast hlt
  rw [hT, hU, hV]
  refine ⟨p.ed, qu, qv, p.sel.frq, w, F.prep.init.edit, hqu, hqv, hfrq, ?_, ?_, ?_, herr⟩
  · rw [hru, hrv, ← hres, F.residual R H.keys hols hinf hi x hx]
    congr 1
    apply List.ext_getElem
    · simp
    · intro j _ _; simp
  · intro hvs
    have h0 : (fun j => (x j).im) = fun _ => 0 := by
      funext j; exact F.scalar_im R (Option.not_isSome_iff_eq_none.1 (by rw [hvs]; decide)) x hx j
    rw [hru, hrv, List.map_ofFn, h0]
    congr 1
    funext j
    simp [gramRes, fitted]
  · rw [hiff, hfl]
    refine forall_congr' fun k => forall_congr' fun hk => ?_
    have h2 := F.two_le hinf
    let k' : Fin p.nm := ⟨k, by omega⟩
    have hms : resMS (confIn p m W) (fun j => (x j).re) =
        (∑ j, gramRes (designM p.nm p.B) (fun j => (x j).re) j ^ 2) / ((p.B.length : ℝ) - p.nm) := by
      show _ / ((((xraw p.ed).length : ℕ) : ℝ) - _) = _
      rw [hxl]; rfl
    have hmsv : resMS (confIn p m W) (fun j => (x j).im) =
        (∑ j, gramRes (designM p.nm p.B) (fun j => (x j).im) j ^ 2) / ((p.B.length : ℝ) - p.nm) := by
      show _ / ((((xraw p.ed).length : ℕ) : ℝ) - _) = _
      rw [hxl]; rfl
    have hmp : resMP (confIn p m W) (fun j => (x j).re) (fun j => (x j).im) =
        (∑ j, gramRes (designM p.nm p.B) (fun j => (x j).re) j * gramRes (designM p.nm p.B) (fun j => (x j).im) j) /
          ((p.B.length : ℝ) - p.nm) := by
      show _ / ((((xraw p.ed).length : ℕ) : ℝ) - _) = _
      rw [hxl]; rfl
    have hmat := mcCov_eq hS (F.ones hols) hP hd k' G H' hG.symm hH.symm _ _ _ _ _ _ hms.symm hmsv.symm hmp.symm rfl rfl rfl
    have hbd : (swapPerm p.sel.nNR p.nm (F.two_le hinf) k').val = k'.val + p.sel.nNR := by
      rw [swapPerm_val]; exact if_pos hk
    have hbG := block_ok (nm := p.nm) G p.sel.nNR k' _ hbd
    have hbH := block_ok (nm := p.nm) H' p.sel.nNR k' _ hbd
    obtain ⟨r, hr⟩ := hrow k hk
    obtain ⟨G2, H2, pu, puv, hG2, hH2, hpu, hpuv', hone, htwo⟩ := ciOne_mc_iff E.num hN (confIn p m W) w (G, H') p.sel.nNR k
      (fun h => hth (htd ▸ h) k hk) hpuv r hr
    have eG := Except.ok.inj (hbG.symm.trans hG2)
    have eH := Except.ok.inj (hbH.symm.trans hH2)
    erw [eG, eH] at hmat
    have pa : 0 < ∑ j, cosForm (designM p.nm p.B) k' j ^ 2 := by
      rw [← sumSq_fin]
      exact (F.blue_cos R H.keys H.kept hinf hi k' _ (List.getElem?_eq_getElem (by rw [hlen]; exact hk))).sumSq_pos
        ⟨fun _ => 1, fun _ => 0, 0, 0⟩ (fun _ => rfl) rfl
    have hb : 0 ≤ ∑ j, sinForm (designM p.nm p.B) k' j ^ 2 := Finset.sum_nonneg fun _ _ => sq_nonneg _
    obtain ⟨e00, e22, e02⟩ := kron_traces _ _ _ _ _ _ _ pa hb hmat
    rw [hru, hrv, combine_fin, ← resid_sum_ne _ _ hdof, ← resid_sum_ne _ _ hdof]
    have esuv : (∑ j, gramRes (designM p.nm p.B) (fun j => (x j).re) j * gramRes (designM p.nm p.B) (fun j => (x j).im) j) /
          ((p.B.length : ℝ) - p.nm) ≠ 0 ↔
        (∑ j, gramRes (designM p.nm p.B) (fun j => (x j).re) j * gramRes (designM p.nm p.B) (fun j => (x j).im) j) ≠ 0 := by
      rw [div_ne_zero_iff, and_iff_left hdof.ne']
    have e02' := e02.trans esuv
    generalize (∑ j, gramRes (designM p.nm p.B) (fun j => (x j).re) j * gramRes (designM p.nm p.B) (fun j => (x j).im) j) =
      suv at e02' ⊢
    generalize (∑ j, gramRes (designM p.nm p.B) (fun j => (x j).re) j ^ 2) / ((p.B.length : ℝ) - p.nm) = su at e00 ⊢
    generalize (∑ j, gramRes (designM p.nm p.B) (fun j => (x j).im) j ^ 2) / ((p.B.length : ℝ) - p.nm) = sv at e22 ⊢
    clear hmat e02 esuv
    generalize mcCov G2 H2 = K at *
    cases hv : v.isSome with
    | false =>
      rw [hv] at htd
      rw [hone htd, e00, hpu]
      simp
    | true =>
      rw [hv] at htd
      obtain ⟨pv, hpv, hvec⟩ := htwo htd
      rw [hvec, e00, e22, e02', hpu, hpv, hpuv']
      simp only [Option.some.injEq]
      exact ⟨fun ⟨h1, h2, h3, h4, h5⟩ => ⟨h1, h4, fun _ => ⟨h2, h5, h3⟩⟩,
        fun ⟨h1, h4, h⟩ => ⟨h1, (h trivial).1, (h trivial).2.2, h4, (h trivial).2.1⟩⟩

/-! ## C110 -/

section
variable {E : Env} {t : TimeArg} {u v : Series} {lat : Option ℝ} {opts optsMC : Dict PyVal} {c : Coef} {tn : List Fl}

/-- **C110**, one series: given linearised intervals with coloured noise, the same call with `conf_int='MC'` returns if and
only if the power in the band of every constituent is a number and the fit is not perfect; otherwise it raises
LinAlgError. -/
theorem C110_scalar (R : Ready E t u none) (hI : InvOk E.num.inv) (hN : MvnOk E.num.mvn)
    (H : ColourRun E t u none lat opts c tn) (hoMC : getOpt optsMC false = .ok { c.opt with linci := false }) :
    ∃ (ed : Edited) (q : CurvePar) (frq : List ℝ) (w : Power), editData tn u.data none = .ok ed ∧
      BestFit c (sampleTimes tn u none) (sampleU tn u none) q ∧ frq.Perm c.frq ∧
      residualPower E.num ed ((residuals c (sampleTimes tn u none) (sampleU tn u none) q).map Complex.ofReal) frq =
        .ok w ∧
      ((∃ c', solve E t u none lat optsMC = .ok c') ↔ ∀ k < frq.length, (∃ x, w.Puu[k]? = some (.fin x)) ∧
        ∃ x ∈ residuals c (sampleTimes tn u none) (sampleU tn u none) q, x ≠ 0) ∧
      ((¬ ∃ c', solve E t u none lat optsMC = .ok c') → solve E t u none lat optsMC = .error .linAlgError) := by
  obtain ⟨ed, qu, qv, frq, w, hed, hqu, hqv, hperm, hw, hz, hiff, herr⟩ := mc_fail_facts R hI hN H hoMC
  refine ⟨ed, qu, frq, w, hed, hqu, hperm, ?_, ?_, herr⟩
  · rw [← hw, hz rfl]
    congr 1
    apply List.ext_getElem
    · simp
    · intro j _ _
      simp only [List.getElem_map, List.getElem_zipWith]
      rfl
  · rw [hiff]
    simp

/-- **C110**, two series: the power of both must be a number, neither fit perfect, and if the residuals are correlated
their cross power must be a number as well. -/
theorem C110_vector (R : Ready E t u (some v)) (hI : InvOk E.num.inv) (hN : MvnOk E.num.mvn)
    (H : ColourRun E t u (some v) lat opts c tn) (hoMC : getOpt optsMC true = .ok { c.opt with linci := false }) :
    ∃ (ed : Edited) (qu qv : CurvePar) (frq : List ℝ) (w : Power) (ru rv : List ℝ),
      editData tn u.data (some v.data) = .ok ed ∧
      BestFit c (sampleTimes tn u (some v)) (sampleU tn u (some v)) qu ∧
      BestFit c (sampleTimes tn u (some v)) (sampleV tn u (some v)) qv ∧
      ru = residuals c (sampleTimes tn u (some v)) (sampleU tn u (some v)) qu ∧
      rv = residuals c (sampleTimes tn u (some v)) (sampleV tn u (some v)) qv ∧ frq.Perm c.frq ∧
      residualPower E.num ed (List.zipWith (fun a b => (⟨a, b⟩ : ℂ)) ru rv) frq = .ok w ∧
      ((∃ c', solve E t u (some v) lat optsMC = .ok c') ↔ ∀ k < frq.length,
        (∃ x, w.Puu[k]? = some (.fin x)) ∧ (∃ x, w.Pvv[k]? = some (.fin x)) ∧
        (combine ru rv ≠ 0 → ∃ x, w.Puv[k]? = some (.fin x)) ∧ (∃ x ∈ ru, x ≠ 0) ∧ ∃ x ∈ rv, x ≠ 0) ∧
      ((¬ ∃ c', solve E t u (some v) lat optsMC = .ok c') → solve E t u (some v) lat optsMC = .error .linAlgError) := by
  obtain ⟨ed, qu, qv, frq, w, hed, hqu, hqv, hperm, hw, -, hiff, herr⟩ := mc_fail_facts R hI hN H hoMC
  refine ⟨ed, qu, qv, frq, w, _, _, hed, hqu, hqv, rfl, rfl, hperm, hw, ?_, herr⟩
  rw [hiff]
  refine forall_congr' fun k => forall_congr' fun hk => ?_
  exact ⟨fun ⟨h1, h4, h⟩ => ⟨h1, (h rfl).1, (h rfl).2.2, h4, (h rfl).2.1⟩,
    fun ⟨h1, h2, h3, h4, h5⟩ => ⟨h1, h4, fun _ => ⟨h2, h5, h3⟩⟩⟩

end

/-- Five samples of M2, with linearised intervals and coloured noise. -/
theorem pent_colour (z : ℂ) (x e d : ℝ) :
    ∃ c, PentRun (ciOpts "linear" false) (ciOpt false true false)
      (x * (z.re ^ 2 - z.im ^ 2) + e * (1 - z.re) + d * z.im)
      (x * z.re - e * (1 - (z.re ^ 2 - z.im ^ 2)) - d * (2 * z.re * z.im))
      (x + e * (2 * (z.re - (z.re ^ 2 - z.im ^ 2))))
      (x * z.re - e * (1 - (z.re ^ 2 - z.im ^ 2)) + d * (2 * z.re * z.im))
      (x * (z.re ^ 2 - z.im ^ 2) + e * (1 - z.re) - d * z.im) none c ∧
      ColourRun idealEnv pentT (pentData z x e d) none (some 45) (ciOpts "linear" false) c pentTn := by
  obtain ⟨c, Q, -⟩ : ∃ co, PentRun (ciOpts "linear" false) (ciOpt false true false)
      (x * (z.re ^ 2 - z.im ^ 2) + e * (1 - z.re) + d * z.im)
      (x * z.re - e * (1 - (z.re ^ 2 - z.im ^ 2)) - d * (2 * z.re * z.im))
      (x + e * (2 * (z.re - (z.re ^ 2 - z.im ^ 2))))
      (x * z.re - e * (1 - (z.re ^ 2 - z.im ^ 2)) + d * (2 * z.re * z.im))
      (x * (z.re ^ 2 - z.im ^ 2) + e * (1 - z.re) - d * z.im) none co ∧ co.ci ≠ none :=
    pent_ci _ _ _ _ _ none (.inl rfl) false
  exact ⟨c, Q, Q.returned, by decide, ⟨.str "ols", rfl, .inl rfl⟩, by rw [Q.opt]; rfl, by rw [Q.opt]; rfl,
    by rw [Q.opt]; rfl, by rw [Q.opt]; rfl, Q.kept, by rw [Q.opt]; exact pent_times⟩

/-- Non-vacuity of C110, both ways: with noise in the data the call returns; when the fit is perfect it raises. -/
theorem pent_mc (z : ℂ) (h0 : m2 0.25 = (starRingEnd ℂ) z ^ 2) (h1 : m2 0.375 = (starRingEnd ℂ) z) (h2 : m2 0.5 = 1)
    (h3 : m2 0.625 = z) (h4 : m2 0.75 = z ^ 2) (hu : z.re ^ 2 + z.im ^ 2 = 1) (hr : 0 < z.re) (hi : 0 < z.im) :
    (∃ c, solve idealEnv pentT (pentData z 1 1 0) none (some 45) (ciOpts "MC" false) = .ok c) ∧
    solve idealEnv pentT (pentData z 1 0 0) none (some 45) (ciOpts "MC" false) = .error .linAlgError := by
  obtain ⟨hlt, hpos⟩ := pent_even_pos z hu hr hi
  have hq : LikeEx (ciOpt false true false) := ⟨rfl, rfl, rfl, rfl, rfl⟩
  have main : ∀ x e, ∃ (frq : List ℝ) (w : Power), frq = [linFreqs 0.5 47] ∧ (∃ y, w.Puu[0]? = some (.fin y)) ∧
      ((∃ c', solve idealEnv pentT (pentData z x e 0) none (some 45) (ciOpts "MC" false) = .ok c') ↔
        ∀ k < frq.length, (∃ x, w.Puu[k]? = some (.fin x)) ∧ ∃ y ∈ pentRes z e 0, y ≠ 0) ∧
      ((¬ ∃ c', solve idealEnv pentT (pentData z x e 0) none (some 45) (ciOpts "MC" false) = .ok c') →
        solve idealEnv pentT (pentData z x e 0) none (some 45) (ciOpts "MC" false) = .error .linAlgError) := by
    intro x e
    obtain ⟨c, Q, H⟩ := pent_colour z x e 0
    obtain ⟨ed, f, frq, w, hed, hf, hperm, hw, hiff, herr⟩ := C110_scalar (optsMC := ciOpts "MC" false)
      (u := pentData z x e 0) (pent_ready _ _ _ _ _ none (.inl rfl)) idealNum_ok.inv idealNum_ok.mvn H
      (by rw [Q.opt]; exact ciOpts_MC false false)
    rw [pent_sampleTimes z x e 0 none (.inl rfl), pent_sampleU] at hf hw hiff
    obtain ⟨eX, eY, hres⟩ := pent_best Q hq z h0 h1 h2 h3 h4 hu hr hi x e 0 f hf
    have hfrq : frq = [linFreqs 0.5 47] := List.perm_singleton.1 (by rw [← Q.frq]; exact hperm)
    subst hfrq
    obtain ⟨e1, e2, e3, e4⟩ := pent_edited z x e 0 none (.inl rfl) _ hq ed hed
    rw [hres] at hw hiff
    refine ⟨_, w, rfl, ?_, hiff, herr⟩
    simp only [pentRes, List.map_cons, List.map_nil] at hw
    obtain ⟨hPu, -⟩ := pent_power idealEnv.num ed e1 e2 e3 e4 _ _ _ _ _ w hw
    exact ⟨_, hPu⟩
  constructor
  · obtain ⟨frq, w, rfl, hw, hiff, -⟩ := main 1 1
    rw [hiff]
    intro k hk
    have : k = 0 := by simpa using hk
    subst this
    refine ⟨hw, 1 * (1 - z.re), ?_, ?_⟩
    · simp [pentRes]
    · have : 0 < 1 - z.re := by linarith
      positivity
  · obtain ⟨frq, w, rfl, hw, hiff, herr⟩ := main 1 0
    apply herr
    rw [hiff]
    intro h
    obtain ⟨-, y, hy, hne⟩ := h 0 (by simp)
    apply hne
    simpa [pentRes] using hy

/-- The same for a current whose two components have uncorrelated residuals. -/
theorem pent_mc_pair (z : ℂ) (Z : PentRot z) :
    ∃ c, solve idealEnv pentT (pentData z 1 1 0) (some (pentData z 2 0 1)) (some 45) (ciOpts "MC" false) = .ok c := by
  obtain ⟨hlt, hpos⟩ := pent_even_pos z Z.hu Z.hr Z.hi
  obtain ⟨c, Q⟩ := pent_pair z false 1 1 0 2 0 1
  have H : ColourRun idealEnv pentT (pentData z 1 1 0) (some (pentData z 2 0 1)) (some 45) (ciOpts "linear" false) c pentTn :=
    ⟨PentRun.returned Q, by decide, ⟨.str "ols", rfl, .inl rfl⟩, by rw [PentRun.opt Q]; rfl, by rw [PentRun.opt Q]; rfl,
      by rw [PentRun.opt Q]; rfl, by rw [PentRun.opt Q]; rfl, PentRun.kept Q, by rw [PentRun.opt Q]; exact pent_times⟩
  obtain ⟨ed, qu, qv, frq, w, ru, rv, hed, hqu, hqv, rfl, rfl, hperm, hw, hiff, -⟩ := C110_vector (optsMC := ciOpts "MC" false)
    (pent_pair_ready z 1 1 0 2 0 1) idealNum_ok.inv idealNum_ok.mvn H
    (by rw [PentRun.opt Q]; exact ciOpts_MC true false)
  obtain ⟨sU, sV⟩ := pent_sampleUV z 1 1 0 2 0 1
  rw [pent_sampleTimes z 1 1 0 (some (pentData z 2 0 1)) (.inr ⟨_, _, _, _, _, rfl⟩)] at hqu hqv hw hiff
  rw [sU] at hqu hw hiff
  rw [sV] at hqv hw hiff
  obtain ⟨b1, b2, b5⟩ := pent_best Q (pent_like false) z Z.h0 Z.h1 Z.h2 Z.h3 Z.h4 Z.hu Z.hr Z.hi _ _ _ _ hqu
  obtain ⟨b3, b4, b6⟩ := pent_best Q (pent_like false) z Z.h0 Z.h1 Z.h2 Z.h3 Z.h4 Z.hu Z.hr Z.hi _ _ _ _ hqv
  have hfrq : frq = [linFreqs 0.5 47] := List.perm_singleton.1 (by rw [← PentRun.frq Q]; exact hperm)
  subst hfrq
  obtain ⟨e1, e2, e3, e4⟩ := pent_edited z 1 1 0 (some (pentData z 2 0 1)) (.inr ⟨_, _, _, _, _, rfl⟩) _ (pent_like false) ed hed
  rw [b5, b6] at hw hiff
  rw [hiff]
  intro k hk
  have : k = 0 := by simpa using hk
  subst this
  simp only [pentRes, List.zipWith_cons_cons, List.zipWith_nil_left] at hw
  obtain ⟨hPu, hPv⟩ := pent_power idealEnv.num ed e1 e2 e3 e4 _ _ _ _ _ w hw
  refine ⟨⟨_, hPu⟩, ⟨_, hPv⟩, fun h => absurd ?_ h, ⟨1 * (1 - z.re), by simp [pentRes], ?_⟩, z.im, by simp [pentRes], Z.hi.ne'⟩
  · simp only [combine, pentRes, List.zipWith_cons_cons, List.zipWith_nil_left, List.sum_cons, List.sum_nil]
    ring
  · have : 0 < 1 - z.re := by linarith
    positivity

/-- Non-vacuity of C109 with coloured noise. -/
example : ∃ (u u' v' : Series) (c c' : Coef), McRun idealEnv pentT u none (some 45) (ciOpts "MC" false) c pentTn ∧
    McRun idealEnv pentT u' (some v') (some 45) (ciOpts "MC" false) c' pentTn ∧
    c.opt.white = false ∧ c'.opt.white = false ∧ c.name = ["M2"] ∧ c'.name = ["M2"] := by
  obtain ⟨z, Z⟩ := pent_rot
  obtain ⟨⟨c, hc⟩, -⟩ := pent_mc z Z.h0 Z.h1 Z.h2 Z.h3 Z.h4 Z.hu Z.hr Z.hi
  obtain ⟨c', hc'⟩ := pent_mc_pair z Z
  have Q := pent_run_facts (v := none) (.inl rfl) (by decide) (ciOpts_MC false false) ⟨rfl, rfl, rfl, rfl, rfl⟩ rfl hc
  have Q' := pent_run_facts (v := some (pentData z 2 0 1)) (.inr ⟨_, _, _, _, _, rfl⟩) (by decide) (ciOpts_MC true false)
    ⟨rfl, rfl, rfl, rfl, rfl⟩ rfl hc'
  exact ⟨_, _, _, c, c', ⟨Q.returned, by decide, ⟨.str "ols", rfl, .inl rfl⟩, by rw [Q.opt]; rfl, by rw [Q.opt]; rfl,
    by rw [Q.opt]; rfl, Q.kept, by rw [Q.opt]; exact pent_times⟩,
    ⟨Q'.returned, by decide, ⟨.str "ols", rfl, .inl rfl⟩, by rw [Q'.opt]; rfl, by rw [Q'.opt]; rfl,
    by rw [Q'.opt]; rfl, Q'.kept, by rw [Q'.opt]; exact pent_times⟩, by rw [Q.opt]; rfl, by rw [Q'.opt]; rfl,
    Q.name, Q'.name⟩

/-- Non-vacuity of C110: with noise in the data the call returns, and where the fit is perfect it raises, though the
linearised intervals are returned in both cases. -/
example : ∃ u u' c c', ColourRun idealEnv pentT u none (some 45) (ciOpts "linear" false) c pentTn ∧
    ColourRun idealEnv pentT u' none (some 45) (ciOpts "linear" false) c' pentTn ∧
    getOpt (ciOpts "MC" false) false = .ok { c.opt with linci := false } ∧
    (∃ c'', solve idealEnv pentT u none (some 45) (ciOpts "MC" false) = .ok c'') ∧
    solve idealEnv pentT u' none (some 45) (ciOpts "MC" false) = .error .linAlgError := by
  obtain ⟨z, Z⟩ := pent_rot
  obtain ⟨h1, h2⟩ := pent_mc z Z.h0 Z.h1 Z.h2 Z.h3 Z.h4 Z.hu Z.hr Z.hi
  obtain ⟨c, Q, H⟩ := pent_colour z 1 1 0
  obtain ⟨c', -, H'⟩ := pent_colour z 1 0 0
  exact ⟨_, _, c, c', H, H', by rw [Q.opt]; exact ciOpts_MC false false, h1, h2⟩

end

end UTide.Props
