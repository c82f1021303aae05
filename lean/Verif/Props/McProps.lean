import Verif.Lemmas.McCov
import Verif.Props.ColourProps
import Verif.Props.ConfProps
import Mathlib.LinearAlgebra.Matrix.PosDef

/-!
# Monte-Carlo intervals come from the sampling distribution of least squares: C109
-/

namespace UTide.Props

noncomputable section

open Classical Matrix

local notation "conj" => starRingEnd ℂ

/-! ## Specification -/

/-- Half width of a 95 % interval from the median absolute deviation. -/
def halfWidth (x : List ℝ) : ℝ := 1.96 * median (x.map fun a => |a - median x|) / 0.6745

/-- The half width of angles: the first is replaced by the estimate, the others are counted within half a turn of it. -/
def AngleWidth (est : ℝ) (draws : List ℝ) (s : Fl) : Prop :=
  ∃ ys, List.Forall₂ (fun x y : ℝ => (∃ k : ℤ, y = x + k * 360) ∧ est - 180 ≤ y ∧ y < est + 180) (est :: draws.tail) ys ∧
    s = .fin (halfWidth ys)

/-- Intervals of an ellipse from samples of its four coefficients. -/
structure FromDraws (draws : List (Fin 4 → ℝ)) (e : Ell) (r : Ci1) : Prop where
  maj : r.maj = .fin (halfWidth (draws.map fun y => (ellRow y).Lsmaj))
  min : r.min = .fin (halfWidth (draws.map fun y => (ellRow y).Lsmin))
  theta : AngleWidth e.theta (draws.map fun y => (ellRow y).theta) r.theta
  g : AngleWidth e.g (draws.map fun y => (ellRow y).g) r.g

/-- Intervals of amplitude and phase from samples of the two coefficients. -/
structure FromDraws1 (draws : List (Fin 2 → ℝ)) (e : Ell) (r : Ci1) : Prop where
  maj : r.maj = .fin (halfWidth (draws.map ampOf))
  g : AngleWidth e.g (draws.map phaseOf) r.g

/-- Covariance matrix of the linear combinations `a`, `b` of data with uncorrelated noise of variance `s`. -/
def estCov1 (s : ℝ) (a b : List ℝ) : Matrix (Fin 2) (Fin 2) ℝ :=
  Matrix.of fun i j => s * combine (![a, b] i) (![a, b] j)

/-- Covariance matrix of the combinations `a`, `b` of `u` and of `v`, when the noise has variance `su` in `u`, `sv` in
`v` and covariance `suv`. -/
def estCov (su sv suv : ℝ) (a b : List ℝ) : Matrix (Fin 4) (Fin 4) ℝ :=
  Matrix.of fun i j => (if i.val < 2 ∧ j.val < 2 then su else if 2 ≤ i.val ∧ 2 ≤ j.val then sv else suv) *
    combine (![a, b, a, b] i) (![a, b, a, b] j)

/-- Estimated covariance of the noise of two series, from their residuals and the number of parameters. -/
def resCov (c : Coef) (τ y z : List ℝ) (qy qz : CurvePar) : ℝ :=
  combine (residuals c τ y qy) (residuals c τ z qz) / ((τ.length : ℝ) - numPar c)

/-- A run with Monte-Carlo intervals: ordinary least squares without inference. -/
structure McRun (E : Env) (t : TimeArg) (u : Series) (v : Option Series) (lat : Option ℝ) (opts : Dict PyVal)
    (c : Coef) (tn : List Fl) : Prop where
  returned : solve E t u v lat opts = .ok c
  keys : opts.keys.Nodup
  ols : ∃ x, requested opts "method" = some x ∧ IsStr x "ols"
  infer : readInfer c.opt.infer = .ok none
  ci : c.opt.confInt = true
  mc : c.opt.linci = false
  kept : AllKept c
  time : normalizeTime E.dt64 t.arr c.opt.epoch = .ok tn

/-! ## Lemmas -/

theorem angleCi_width (est : ℝ) (x : List ℝ) (s : Fl) (h : angleCi est x = .ok s) : AngleWidth est x s := by
  cases x with
  | nil => cases h
  | cons z l =>
    unfold angleCi at h
    simp only [setFirst, bind_eq_ok, pure_eq_ok, Except.ok.injEq] at h
    obtain ⟨x', rfl, y, hy, rfl⟩ := h
    obtain ⟨y', hy', hlen, -, hall⟩ := (C55_cluster 360 (by norm_num) (est :: l)).2 est l rfl
    cases Except.ok.inj (hy.symm.trans hy')
    refine ⟨y, ?_, rfl⟩
    rw [List.tail_cons, List.forall₂_iff_get]
    refine ⟨hlen.symm, fun i h1 h2 => ?_⟩
    obtain ⟨⟨k, hk⟩, h3, h4⟩ := hall i _ _ (List.getElem?_eq_getElem h1) (List.getElem?_eq_getElem h2)
    simp only [List.get_eq_getElem]
    exact ⟨⟨k, hk⟩, by linarith, by linarith⟩

theorem monteCarlo2_draws {N : Num} {c : ℕ} {P : Option (Fl × Fl × Fl)} {x : Fin 4 → ℝ} {g theta : ℝ}
    {G H : Matrix (Fin 2) (Fin 2) ℂ} {r : Ci1}
    (h : monteCarlo2 N c P (x 0) (x 1) (x 2) (x 3) g theta G H = .ok r) :
    ∃ M, (P = none → M = mcCov G H) ∧
      (∀ p, P = some p → ∃ A, finMatrix (mcScaled (mcCov G H) p.1 p.2.1 p.2.2) = .ok A ∧ M = nearestSPD N A) ∧
      ∀ e : Ell, e.g = g → e.theta = theta → FromDraws (N.mvn c 4 x M 200) e r := by
  have hx : ![x 0, x 1, x 2, x 3] = x := by funext i; fin_cases i <;> rfl
  unfold monteCarlo2 at h
  rw [hx] at h
  simp only [bind_eq_ok, pure_eq_ok, Except.ok.injEq] at h
  obtain ⟨M, hM, tci, ht, gci, hg, rfl⟩ := h
  refine ⟨M, ?_, ?_, ?_⟩
  · rintro rfl
    exact (Except.ok.inj hM).symm
  · rintro p rfl
    simp only [bind_eq_ok, pure_eq_ok, Except.ok.injEq] at hM
    obtain ⟨A, hA, rfl⟩ := hM
    exact ⟨A, hA, rfl⟩
  · rintro e rfl rfl
    rw [List.map_map] at ht hg
    refine ⟨?_, ?_, angleCi_width _ _ _ ht, angleCi_width _ _ _ hg⟩
    · dsimp only; rw [List.map_map]; rfl
    · dsimp only; rw [List.map_map]; rfl

theorem monteCarlo1_draws {N : Num} {c : ℕ} {P : Option Fl} {x : Fin 2 → ℝ} {g : ℝ}
    {G H : Matrix (Fin 2) (Fin 2) ℂ} {r : Ci1}
    (h : monteCarlo1 N c P (x 0) (x 1) g H (varXuOf G) (varYuOf H) = .ok r) :
    ∃ M D : Matrix (Fin 2) (Fin 2) ℝ, D = !![mcCov G H 0 0, mcCov G H 0 1; mcCov G H 1 0, mcCov G H 1 1] ∧
      (P = none → M = D) ∧
      (∀ p, P = some p → ∃ A, finMatrix (Matrix.of fun i j => (p * Fl.fin (D i j)).div (.fin (D 0 0 + D 1 1))) = .ok A ∧
        M = nearestSPD N A) ∧
      ∀ e : Ell, e.g = g → FromDraws1 (N.mvn c 2 x M 200) e r := by
  have hx : ![x 0, x 1] = x := by funext i; fin_cases i <;> rfl
  unfold monteCarlo1 at h
  rw [hx] at h
  simp only [bind_eq_ok, pure_eq_ok, Except.ok.injEq] at h
  obtain ⟨M, hM, gci, hg, rfl⟩ := h
  refine ⟨M, _, rfl, ?_, ?_, ?_⟩
  · rintro rfl
    exact (Except.ok.inj hM).symm
  · rintro p rfl
    simp only [bind_eq_ok, pure_eq_ok, Except.ok.injEq] at hM
    obtain ⟨A, hA, rfl⟩ := hM
    exact ⟨A, hA, rfl⟩
  · rintro e rfl
    rw [List.map_map] at hg
    refine ⟨?_, angleCi_width _ _ _ hg⟩
    rw [List.map_map]; rfl

section
variable {E : Env} {t : TimeArg} {u : Series} {v : Option Series} {lat : Option ℝ} {opts : Dict PyVal}
  {c : Coef} {opt : Opt} {p : Prep} {tn : List Fl} {constit : Constit} {m : List ℂ} {W : List ℝ}
  {rf : Option RobOut} {full : Coef} {o : Order} {ind : List ℕ}

theorem power_some (w : Power) (sl : Power → List Fl) (k : ℕ) (pu : Option Fl)
    (h : (getIdx (sl w) k).map some = (.ok pu : Except PyErr _)) : ∃ a, (sl w)[k]? = some a ∧ pu = some a := by
  unfold getIdx at h
  cases hq : (sl w)[k]? with
  | none => rw [hq] at h; cases h
  | some y => rw [hq] at h; exact ⟨y, rfl, (Except.ok.inj h).symm⟩

/-- Interval and ellipse of the constituent at position `k` of the selection. -/
theorem Facts.mcRow (F : Facts E t u v lat opts c opt p tn constit m W rf full o ind) (R : Ready E t u v)
    (hI : InvOk E.num.inv) (hnd : opts.keys.Nodup) (hols : opt.method = .ols) (hci : opt.confInt = true)
    (hmc : opt.linci = false) (hinf : p.infer = none) (x : Fin p.B.length → ℂ) (hx : xraw p.ed = List.ofFn x) :
    ∃ ci pw, full.ci = some ci ∧ (opt.white = true → pw = none) ∧
      (opt.white = false → ∃ w, pw = some w ∧ residualPower E.num p.ed (confIn p m W).e p.sel.frq = .ok w) ∧
      ∀ (k : Fin p.nm), k.val < p.sel.nNR →
        let D := designM p.nm p.B
        let dof := (p.B.length : ℝ) - p.nm
        let su := (∑ j, gramRes D (fun j => (x j).re) j ^ 2) / dof
        let sv := (∑ j, gramRes D (fun j => (x j).im) j ^ 2) / dof
        let suv := (∑ j, gramRes D (fun j => (x j).re) j * gramRes D (fun j => (x j).im) j) / dof
        let X := ![∑ j, cosForm D k j * (x j).re, ∑ j, sinForm D k j * (x j).re, ∑ j, cosForm D k j * (x j).im,
          ∑ j, sinForm D k j * (x j).im]
        let vc := ∑ j, cosForm D k j ^ 2
        let vs := ∑ j, sinForm D k j ^ 2
        let vcs := ∑ j, cosForm D k j * sinForm D k j
        ∃ (e : Ell) (r : Ci1) (G H : Matrix (Fin 2) (Fin 2) ℂ),
          mcCov G H = !![su * vc, su * vcs, suv * vc, suv * vcs;
           su * vcs, su * vs, suv * vcs, suv * vs;
           suv * vc, suv * vcs, sv * vc, sv * vcs;
           suv * vcs, suv * vs, sv * vcs, sv * vs] ∧
        ellipseAt full.ell k = some e ∧ e = (if v.isSome then ellRow X else cs2cep1 (X 0) (X 1)) ∧
        (v.isSome = true → intervalAt ci k = some r ∧ ∃ P, (pw = none → P = none) ∧
          (∀ w, pw = some w → ∃ a b d, w.Puu[k.val]? = some a ∧ w.Pvv[k.val]? = some b ∧ w.Puv[k.val]? = some d ∧
            P = some (a, b, d)) ∧
          monteCarlo2 E.num k P (X 0) (X 1) (X 2) (X 3) e.g e.theta G H = .ok r) ∧
        (v.isSome = false → intervalAt ci k = some ⟨r.maj, .fin 0, .fin 0, r.g⟩ ∧
          monteCarlo1 E.num k (powerRow pw Power.Puu k) (X 0) (X 1) e.g H (varXuOf G) (varYuOf H) = .ok r) := by
  obtain ⟨hi, hlt⟩ := F.full_rank R hI hols hci
  have hd := gram_det p.nm p.B F.prep.rows hi
  have hP := F.paired hinf
  have hm := F.solution R hols hi x hx
  have hS := F.split R hnd hinf x hx hm
  obtain ⟨hrefs, hnR, hname, hlen, hnm⟩ := F.noRefs hinf
  rcases F.solved.ci with ⟨h4, -⟩ | ⟨-, ci, hc, hfull⟩
  · rw [F.prep.hopt, hci] at h4; cases h4
  have hxl : (xraw p.ed).length = p.B.length := (F.prep.height R.ht R.hu R.hv).symm
  have hcov := covariances_total hI (confIn p m W) (F.ones hols) F.prep.rows hi _ hP (by
    show (xraw p.ed).length ≠ p.nm; omega)
  unfold confidence at hc
  simp only [bind_eq_ok, pure_eq_ok, Except.ok.injEq] at hc
  obtain ⟨pw, hpw, GH, hGH, rows, hrows, inf, hinf', hpack⟩ := hc
  rw [hcov] at hGH
  obtain ⟨G, H⟩ := GH
  obtain ⟨hG, hH⟩ := Prod.mk.inj (Except.ok.inj hGH)
  have hml : m.length = numCols (!opt.notrend) p.sel := by rw [F.mlen, F.prep.nm]
  obtain ⟨a1, a2⟩ := apOf_length _ m hml
  have hXl : (confIn p m W).Xu.length = p.sel.nNR := by simp [confIn, a1, a2, hnR]
  refine ⟨ci, pw, hfull, ?_, ?_, ?_⟩
  · intro hw
    have : (confIn p m W).white = true := by show p.opt.white = true; rw [F.prep.hopt, hw]
    rw [this, if_pos rfl] at hpw
    exact (Except.ok.inj hpw).symm
  · intro hw
    have : (confIn p m W).white = false := by show p.opt.white = false; rw [F.prep.hopt, hw]
    rw [this, if_neg (by simp)] at hpw
    cases hr : residualPower E.num (confIn p m W).ed (confIn p m W).e (confIn p m W).frq with
    | error e => rw [hr] at hpw; cases hpw
    | ok w => rw [hr] at hpw; exact ⟨w, (Except.ok.inj hpw).symm, hr⟩
  · intro k hk
    dsimp only
    obtain ⟨g1, g2⟩ := F.ap_get hinf _ hm k hk
    obtain ⟨c1, c2, c3, c4⟩ := pair_coefs hP x k
    have hms : resMS (confIn p m W) (fun j => (x j).re) =
        (∑ j, gramRes (designM p.nm p.B) (fun j => (x j).re) j ^ 2) / ((p.B.length : ℝ) - p.nm) := by
      show _ / ((((xraw p.ed).length : ℕ) : ℝ) - _) = _
      rw [hxl]; rfl
    have hmsv : resMS (confIn p m W) (fun j => (x j).im) =
        (∑ j, gramRes (designM p.nm p.B) (fun j => (x j).im) j ^ 2) / ((p.B.length : ℝ) - p.nm) := by
      show _ / ((((xraw p.ed).length : ℕ) : ℝ) - _) = _
      rw [hxl]; rfl
    have hmp : resMP (confIn p m W) (fun j => (x j).re) (fun j => (x j).im) =
        (∑ j, gramRes (designM p.nm p.B) (fun j => (x j).re) j * gramRes (designM p.nm p.B) (fun j => (x j).im) j) /
          ((p.B.length : ℝ) - p.nm) := by
      show _ / ((((xraw p.ed).length : ℕ) : ℝ) - _) = _
      rw [hxl]; rfl
    have hmat := mcCov_eq hS (F.ones hols) hP hd k G H hG.symm hH.symm _ _ _ _ _ _ hms.symm hmsv.symm hmp.symm rfl rfl rfl
    have hbd : (swapPerm p.sel.nNR p.nm (F.two_le hinf) k).val = k.val + p.sel.nNR := by
      rw [swapPerm_val]; exact if_pos hk
    have hbG := block_ok (nm := p.nm) G p.sel.nNR k _ hbd
    have hbH := block_ok (nm := p.nm) H p.sel.nNR k _ hbd
    have hXu : (confIn p m W).Xu[k.val]? = some (∑ j, cosForm (designM p.nm p.B) k j * (x j).re) := by
      show (List.zipWith _ _ _)[k.val]? = _
      rw [List.getElem?_zipWith, g1, g2, ← c1]
    have hYu : (confIn p m W).Yu[k.val]? = some (∑ j, sinForm (designM p.nm p.B) k j * (x j).re) := by
      show (List.zipWith _ _ _)[k.val]? = _
      rw [List.getElem?_zipWith, g1, g2, ← c2]
    have htd := F.td hnd
    have hrefl : allAp p.sel m = apOf p.sel m ∧ allAm p.sel m = amOf p.sel m := by
      unfold allAp allAm inferredCoef; rw [hrefs]; simp
    obtain ⟨row, hrow1, hrow2⟩ := mapM_getElem? _ _ _ hrows k.val k.val (by
      rw [List.getElem?_range (by rw [hXl]; exact hk)])
    have hrow : intervalAt ci k.val = some (if v.isSome then row.1 else ⟨row.1.maj, .fin 0, .fin 0, row.1.g⟩) := by
      have hl : (rows.map Prod.fst ++ inf)[k.val]? = some row.1 := by
        rw [List.getElem?_append_left (by rw [List.length_map]; exact (List.getElem?_eq_some_iff.1 hrow1).1),
          List.getElem?_map, hrow1]; rfl
      rw [← hpack]
      have : (confIn p m W).twodim = v.isSome := htd
      rw [this]
      unfold packCi
      cases v with
      | none =>
        simp only [Option.isSome_none, Bool.false_eq_true, if_false, intervalAt, List.getElem?_map, hl,
          Option.map_some, Option.bind_some]
      | some w =>
        simp only [Option.isSome_some, if_true, intervalAt, List.getElem?_map, hl, Option.map_some, Option.bind_some]
    have hell : ellOf p.opt.twodim (allAp p.sel m) (allAm p.sel m) = full.ell := F.solved.ell.symm
    have hellAt : ellipseAt full.ell k.val = some (if v.isSome then
        cs2cep2 (∑ j, cosForm (designM p.nm p.B) k j * (x j).re) (∑ j, sinForm (designM p.nm p.B) k j * (x j).re)
          (∑ j, cosForm (designM p.nm p.B) k j * (x j).im) (∑ j, sinForm (designM p.nm p.B) k j * (x j).im)
        else cs2cep1 (∑ j, cosForm (designM p.nm p.B) k j * (x j).re)
          (∑ j, sinForm (designM p.nm p.B) k j * (x j).re)) := by
      rw [F.solved.ell, hrefl.1, hrefl.2, htd]
      unfold ellOf
      cases v with
      | none =>
        simp only [Option.isSome_none, Bool.false_eq_true, if_false, ellipseAt, List.getElem?_map,
          List.getElem?_zipWith, g1, g2, Option.map_some, Option.bind_some, ell1, c1, c2]
        rfl
      | some w =>
        simp only [Option.isSome_some, if_true, ellipseAt, List.getElem?_map,
          List.getElem?_zipWith, g1, g2, Option.map_some, Option.bind_some, ell2, c1, c2, c3, c4]
    unfold ciOne at hrow2
    simp only [bind_eq_ok, getIdx_ok] at hrow2
    obtain ⟨G', hG', H', hH', Xu, hXu', Yu, hYu', g, hg, pu, hpu, hrow2⟩ := hrow2
    rw [hXl] at hG' hH'
    have eG := Except.ok.inj (hbG.symm.trans hG')
    have eH := Except.ok.inj (hbH.symm.trans hH')
    have eXu := Option.some.inj (hXu.symm.trans hXu')
    have eYu := Option.some.inj (hYu.symm.trans hYu')
    have hlin' : (confIn p m W).linci = false := by show p.opt.linci = false; rw [F.prep.hopt, hmc]
    have htd' : (confIn p m W).twodim = v.isSome := htd
    have hgs : (full.ell.gs)[k.val]? = some g := by rw [← hell]; exact hg
    rw [htd', hlin'] at hrow2
    refine ⟨_, row.1, G', H', by rw [← eG, ← eH]; exact hmat, hellAt, rfl, fun hvs => ?_, fun hvs => ?_⟩
    · rw [hvs] at hrow hrow2 hellAt ⊢
      simp only [if_true, bind_eq_ok, getIdx_ok, Bool.false_eq_true, if_false, pure_eq_ok, Except.ok.injEq] at hrow hrow2 hellAt ⊢
      refine ⟨hrow, ?_⟩
      obtain ⟨Xv, hXv, Yv, hYv, pv, hpv, theta, hth, puv, hpuv, r', hr', hrow2⟩ := hrow2
      have htd2 : p.opt.twodim = true := by rw [htd, hvs]
      have eXv : Xv = ∑ j, cosForm (designM p.nm p.B) k j * (x j).im := by
        have : (confIn p m W).Xv[k.val]? = some (∑ j, cosForm (designM p.nm p.B) k j * (x j).im) := by
          show (if p.opt.twodim then List.zipWith _ _ _ else [])[k.val]? = _
          rw [if_pos htd2, List.getElem?_zipWith, g1, g2, ← c3]
        exact Option.some.inj (hXv.symm.trans this)
      have eYv : Yv = ∑ j, sinForm (designM p.nm p.B) k j * (x j).im := by
        have : (confIn p m W).Yv[k.val]? = some (∑ j, sinForm (designM p.nm p.B) k j * (x j).im) := by
          show (if p.opt.twodim then List.zipWith _ _ _ else [])[k.val]? = _
          rw [if_pos htd2, List.getElem?_zipWith, g1, g2, ← c4]
        exact Option.some.inj (hYv.symm.trans this)
      have hths : (full.ell.thetas)[k.val]? = some theta := by rw [← hell]; exact hth
      have hang : ∀ e, ellipseAt full.ell k.val = some e → full.ell.gs[k.val]? = some g →
          full.ell.thetas[k.val]? = some theta → e.g = g ∧ e.theta = theta := by
        cases full.ell with
        | one A g => intro e _ _ h; cases h
        | two a b d f =>
          intro e h1 h2 h3
          simp only [ellipseAt, EllArr.gs, EllArr.thetas] at h1 h2 h3
          rw [h2, h3] at h1
          simp only [Option.bind_eq_some_iff, Option.bind_some, Option.map_some, Option.some.injEq] at h1
          obtain ⟨_, _, _, _, rfl⟩ := h1
          exact ⟨rfl, rfl⟩
      obtain ⟨e1, e2⟩ := hang _ hellAt hgs hths
      rw [← hrow2]
      dsimp only
      rw [← eXu, ← eYu, eXv, eYv, ← e1, ← e2] at hr'
      cases pw with
      | none =>
        cases Except.ok.inj hpu
        exact ⟨none, fun _ => rfl, (fun w hw => by cases hw), hr'⟩
      | some w =>
        obtain ⟨a, ha, rfl⟩ := power_some w Power.Puu _ _ hpu
        obtain ⟨b, hb, rfl⟩ := power_some w Power.Pvv _ _ hpv
        obtain ⟨d, hd, rfl⟩ := power_some w Power.Puv _ _ hpuv
        refine ⟨some (a, b, d), (fun hw => by cases hw), ?_, hr'⟩
        intro w' hw'
        cases hw'
        exact ⟨a, b, d, ha, hb, hd, rfl⟩
    · rw [hvs] at hrow hrow2 hellAt ⊢
      simp only [bind_eq_ok, Bool.false_eq_true, if_false, pure_eq_ok, Except.ok.injEq] at hrow hrow2 hellAt ⊢
      refine ⟨hrow, ?_⟩
      obtain ⟨r', hr', hrow2⟩ := hrow2
      have hang : ∀ e, ellipseAt full.ell k.val = some e → full.ell.gs[k.val]? = some g → e.g = g := by
        cases full.ell with
        | one A g =>
          intro e h1 h2
          simp only [ellipseAt, EllArr.gs] at h1 h2
          rw [h2] at h1
          simp only [Option.bind_eq_some_iff, Option.map_some, Option.some.injEq] at h1
          obtain ⟨_, _, rfl⟩ := h1
          rfl
        | two a b d f =>
          intro e h1 h2
          simp only [ellipseAt, EllArr.gs] at h1 h2
          rw [h2] at h1
          simp only [Option.bind_eq_some_iff, Option.map_some, Option.some.injEq] at h1
          obtain ⟨_, _, _, _, _, _, rfl⟩ := h1
          rfl
      rw [← eXu, ← eYu, ← hang _ hellAt hgs, power_row pw Power.Puu _ _ hpu] at hr'
      rw [← hrow2]
      exact hr'

end

theorem combine_self (a : List ℝ) : combine a a = sumSq a := by
  unfold combine sumSq
  rw [List.zipWith_self]
  congr 1
  exact List.map_congr_left fun x _ => (sq x).symm

/-- The matrices of C109 are covariance matrices: symmetric and positive semidefinite, because they come from
residuals of the same number of samples. -/
theorem C109_psd {m n : ℕ} (ru rv : Fin m → ℝ) (a b : Fin n → ℝ) (d : ℝ) (hd : 0 < d) :
    (estCov (combine (List.ofFn ru) (List.ofFn ru) / d) (combine (List.ofFn rv) (List.ofFn rv) / d)
      (combine (List.ofFn ru) (List.ofFn rv) / d) (List.ofFn a) (List.ofFn b)).PosSemidef := by
  have hsym : ∀ {l : ℕ} (f g : Fin l → ℝ), ∑ j, f j * g j = ∑ j, g j * f j := fun f g =>
    Finset.sum_congr rfl fun _ _ => mul_comm _ _
  refine Matrix.PosSemidef.of_dotProduct_mulVec_nonneg ?_ fun y => ?_
  · ext i j
    rw [Matrix.conjTranspose_apply, star_trivial]
    fin_cases i <;> fin_cases j <;> simp [estCov, combine_fin, hsym b a]
  · have : star y ⬝ᵥ (estCov (combine (List.ofFn ru) (List.ofFn ru) / d) (combine (List.ofFn rv) (List.ofFn rv) / d)
        (combine (List.ofFn ru) (List.ofFn rv) / d) (List.ofFn a) (List.ofFn b)).mulVec y =
        (∑ k, ∑ l, (ru k * (y 0 * a l + y 1 * b l) + rv k * (y 2 * a l + y 3 * b l)) ^ 2) / d := by
      have e : ∀ k l, (ru k * (y 0 * a l + y 1 * b l) + rv k * (y 2 * a l + y 3 * b l)) ^ 2 =
          (ru k * ru k) * (y 0 ^ 2 * (a l * a l) + 2 * y 0 * y 1 * (a l * b l) + y 1 ^ 2 * (b l * b l)) +
          (rv k * rv k) * (y 2 ^ 2 * (a l * a l) + 2 * y 2 * y 3 * (a l * b l) + y 3 ^ 2 * (b l * b l)) +
          2 * (ru k * rv k) * (y 0 * y 2 * (a l * a l) + (y 0 * y 3 + y 1 * y 2) * (a l * b l) + y 1 * y 3 * (b l * b l)) :=
        fun k l => by ring
      simp only [e, Finset.sum_add_distrib, ← Finset.mul_sum, ← Finset.sum_mul]
      simp only [dotProduct, Matrix.mulVec, Fin.sum_univ_four, estCov, Matrix.of_apply, star_trivial]
      simp [combine_fin, hsym b a]
      field_simp
      ring
    rw [this]
    exact div_nonneg (Finset.sum_nonneg fun _ _ => Finset.sum_nonneg fun _ _ => sq_nonneg _) hd.le

/-- What is common to all cases of C109. -/
theorem mc_facts {E : Env} {t : TimeArg} {u : Series} {v : Option Series} {lat : Option ℝ} {opts : Dict PyVal}
    {c : Coef} {tn : List Fl} (R : Ready E t u v) (hI : InvOk E.num.inv) (H : McRun E t u v lat opts c tn) :
    ∃ (ci : CiArr) (ed : Edited) (qu qv : CurvePar) (frq : List ℝ) (pw : Option Power) (call : ℕ → ℕ), c.ci = some ci ∧ editData tn u.data (v.map Series.data) = .ok ed ∧
      BestFit c (sampleTimes tn u v) (sampleU tn u v) qu ∧ BestFit c (sampleTimes tn u v) (sampleV tn u v) qv ∧
      frq.Perm c.frq ∧ (∀ i j : ℕ, i < c.name.length → j < c.name.length → call i = call j → i = j) ∧
      (c.opt.white = true → pw = none) ∧
      (c.opt.white = false → ∃ w, pw = some w ∧ residualPower E.num ed
        (List.zipWith (fun a b => (⟨a, b⟩ : ℂ)) (residuals c (sampleTimes tn u v) (sampleU tn u v) qu)
          (residuals c (sampleTimes tn u v) (sampleV tn u v) qv)) frq = .ok w) ∧
      (v.isSome = false → residuals c (sampleTimes tn u v) (sampleV tn u v) qv =
        (residuals c (sampleTimes tn u v) (sampleU tn u v) qu).map fun _ => 0) ∧
      ∀ (i : ℕ) (n : String), c.name[i]? = some n →
      ∃ (a b : List ℝ) (e : Ell) (r : Ci1) (G H : Matrix (Fin 2) (Fin 2) ℂ) (f : ℝ),
        Blue c (sampleTimes tn u v) (fun q => q.X n) a ∧ Blue c (sampleTimes tn u v) (fun q => q.Y n) b ∧
        c.frq[i]? = some f ∧ frq[call i]? = some f ∧
        mcCov G H = estCov (resCov c (sampleTimes tn u v) (sampleU tn u v) (sampleU tn u v) qu qu)
          (resCov c (sampleTimes tn u v) (sampleV tn u v) (sampleV tn u v) qv qv)
          (resCov c (sampleTimes tn u v) (sampleU tn u v) (sampleV tn u v) qu qv) a b ∧ (mcCov G H).PosSemidef ∧
        ellipseAt c.ell i = some e ∧
        e = (if v.isSome then ellRow ![qu.X n, qu.Y n, qv.X n, qv.Y n] else cs2cep1 (qu.X n) (qu.Y n)) ∧
        (v.isSome = true → intervalAt ci i = some r ∧ ∃ P, (pw = none → P = none) ∧
          (∀ w, pw = some w → ∃ a b d, w.Puu[call i]? = some a ∧ w.Pvv[call i]? = some b ∧ w.Puv[call i]? = some d ∧
            P = some (a, b, d)) ∧
          monteCarlo2 E.num (call i) P (qu.X n) (qu.Y n) (qv.X n) (qv.Y n) e.g e.theta G H = .ok r) ∧
        (v.isSome = false → intervalAt ci i = some ⟨r.maj, .fin 0, .fin 0, r.g⟩ ∧
          monteCarlo1 E.num (call i) (powerRow pw Power.Puu (call i)) (qu.X n) (qu.Y n) e.g H (varXuOf G) (varYuOf H) =
            .ok r) := by
  obtain ⟨p, constit, m, W, rf, full, o, ind, F, hols, hinf, -⟩ :=
    run_facts R H.keys H.ols H.returned none H.infer (fun s hs => by cases hs) tn H.time
  obtain ⟨x, hx⟩ := F.data R
  obtain ⟨hi, hlt⟩ := F.full_rank R hI hols H.ci
  obtain ⟨ci, pw, hci, hw, hw', hrow⟩ := F.mcRow R hI H.keys hols H.ci H.mc hinf x hx
  obtain ⟨-, hts, hxs⟩ := F.samples R
  have hU : sampleU tn u v = List.ofFn fun j => (x j).re := by
    have : sampleU tn u v = (xraw p.ed).map Complex.re := by rw [hxs, List.map_map]; rfl
    rw [this, hx, List.map_ofFn]; rfl
  have hV : sampleV tn u v = List.ofFn fun j => (x j).im := by
    have : sampleV tn u v = (xraw p.ed).map Complex.im := by rw [hxs, List.map_map]; rfl
    rw [this, hx, List.map_ofFn]; rfl
  have hT : sampleTimes tn u v = p.ed.t := hts.symm
  have hcc : c.ci = some (ci.permute ind) := by
    rw [F.solved.result]; show full.ci.map _ = _; rw [hci]; rfl
  obtain ⟨qu, hqu, hru, hqu'⟩ := F.bestFit R H.keys H.kept hinf hi fun j => (x j).re
  obtain ⟨qv, hqv, hrv, hqv'⟩ := F.bestFit R H.keys H.kept hinf hi fun j => (x j).im
  have hperm := F.kept H.keys R H.kept
  have hfrq : p.sel.frq.Perm c.frq := by
    have : c.frq = gather full.frq ind := by rw [F.solved.result]; rfl
    rw [this, ← F.solved.frq]
    exact (gather_perm _ (by rw [F.len.frq]; exact hperm)).symm
  have hnd : ind.Nodup := hperm.nodup_iff.2 List.nodup_range
  have hcl : c.name.length = ind.length := by
    rw [F.solved.result]; show (gather full.name ind).length = _
    exact gather_length _ _ (by rw [F.len.name]; exact F.lt)
  have hdof : ((p.ed.t.length : ℝ) - numPar c) = (p.B.length : ℝ) - p.nm := by
    rw [F.numPar_eq R H.keys H.kept hinf, F.t_length]
  rw [hT, hU, hV]
  refine ⟨ci.permute ind, p.ed, qu, qv, p.sel.frq, pw, fun i => ind.getD i 0, hcc, F.prep.init.edit, hqu, hqv, hfrq, ?_,
    hw, ?_, ?_, fun i n hn => ?_⟩
  · intro i j h1 h2 h3
    rw [hcl] at h1 h2
    dsimp only at h3
    rw [List.getD_eq_getElem _ _ h1, List.getD_eq_getElem _ _ h2] at h3
    exact (hnd.getElem_inj_iff).1 h3
  · intro hwh
    obtain ⟨w, h1, h2⟩ := hw' hwh
    refine ⟨w, h1, ?_⟩
    rw [hru, hrv, ← h2, F.residual R H.keys hols hinf hi x hx]
    congr 1
    apply List.ext_getElem
    · simp
    · intro j _ _; simp
  · intro hvs
    have h0 : (fun j => (x j).im) = fun _ => 0 := by
      funext j; exact F.scalar_im R (Option.not_isSome_iff_eq_none.1 (by rw [hvs]; decide)) x hx j
    rw [hru, hrv, List.map_ofFn, h0]
    congr 1
    funext j
    simp [gramRes, fitted]
  · obtain ⟨k, hk, hkn, hki, he, ci', hci', hint⟩ := F.position hinf ci hci i n hn
    cases Option.some.inj (hci'.symm.trans hcc)
    have hcall : ind.getD i 0 = k.val := by rw [List.getD_eq_getElem?_getD, hki]; rfl
    obtain ⟨e, r, G, H', hG, hell, hell', h2, h1⟩ := hrow k hk
    obtain ⟨e1, e2⟩ := hqu' k n hkn
    obtain ⟨e3, e4⟩ := hqv' k n hkn
    obtain ⟨hrefs, hnR, hname, hlen, hnm⟩ := F.noRefs hinf
    have hll : p.sel.lind.length = p.sel.nNR := by rw [F.prep.aligned.lind_eq, hrefs, F.prep.aligned.nNR]; simp
    have hfl : k.val < p.sel.frq.length := by rw [F.prep.aligned.frq, List.length_map, hll]; exact hk
    have hcv : mcCov G H' = estCov (resCov c p.ed.t (List.ofFn fun j => (x j).re) (List.ofFn fun j => (x j).re) qu qu)
        (resCov c p.ed.t (List.ofFn fun j => (x j).im) (List.ofFn fun j => (x j).im) qv qv)
        (resCov c p.ed.t (List.ofFn fun j => (x j).re) (List.ofFn fun j => (x j).im) qu qv)
        (List.ofFn (cosForm (designM p.nm p.B) k)) (List.ofFn (sinForm (designM p.nm p.B) k)) := by
      rw [hG]
      unfold resCov
      rw [hru, hrv, hdof]
      simp only [combine_fin]
      ext i j
      have sq' : ∀ f : Fin p.B.length → ℝ, ∑ j, f j ^ 2 = ∑ j, f j * f j := fun f =>
        Finset.sum_congr rfl fun _ _ => sq _
      have cm : ∑ j, sinForm (designM p.nm p.B) k j * cosForm (designM p.nm p.B) k j =
          ∑ j, cosForm (designM p.nm p.B) k j * sinForm (designM p.nm p.B) k j :=
        Finset.sum_congr rfl fun _ _ => mul_comm _ _
      fin_cases i <;> fin_cases j <;> simp [estCov, combine_fin, sq', cm]
    dsimp only
    rw [hcall, hint, he]
    refine ⟨_, _, e, r, G, H', p.sel.frq[k.val], F.blue_cos R H.keys H.kept hinf hi k n hkn,
      F.blue_sin R H.keys H.kept hinf hi k n hkn, ?_, List.getElem?_eq_getElem hfl, hcv, ?_, hell, ?_, ?_, ?_⟩
    · have : c.frq = gather full.frq ind := by rw [F.solved.result]; rfl
      rw [this, gather_getElem? _ _ (by rw [F.len.frq]; exact F.lt), hki, F.solved.frq]
      exact List.getElem?_eq_getElem hfl
    · rw [hcv]
      unfold resCov
      rw [hru, hrv, hdof]
      exact C109_psd _ _ _ _ _ (by rw [sub_pos]; exact_mod_cast hlt)
    · rw [hell', ← e1, ← e2, ← e3, ← e4]
      rfl
    · intro hvs
      rw [← e1, ← e2, ← e3, ← e4] at h2
      exact h2 hvs
    · intro hvs
      rw [← e1, ← e2, ← e3, ← e4] at h1
      exact h1 hvs

/-- `(P * k) / d` in floating point, if finite. -/
theorem scaled_finite (P : Fl) (k d : ℝ) (h : ((P * Fl.fin k).div (.fin d)).isFinite = true) :
    ∃ p, P = .fin p ∧ d ≠ 0 ∧ (P * Fl.fin k).div (.fin d) = .fin (p * k / d) := by
  cases P with
  | fin p =>
    have e : (Fl.fin p * Fl.fin k) = .fin (p * k) := rfl
    rw [e] at h ⊢
    unfold Fl.div at h ⊢
    dsimp only at h ⊢
    by_cases hd : d = 0
    · rw [if_pos hd] at h
      split_ifs at h <;> cases h
    · rw [if_neg hd]
      exact ⟨p, rfl, hd, rfl⟩
  | nan => cases h
  | pinf =>
    exfalso
    have e : (Fl.pinf * Fl.fin k) = Fl.scaleInf k true := rfl
    rw [e] at h
    unfold Fl.scaleInf at h
    unfold Fl.div at h
    split_ifs at h <;> dsimp only at h <;> (try split_ifs at h) <;> cases h
  | ninf =>
    exfalso
    have e : (Fl.ninf * Fl.fin k) = Fl.scaleInf k false := rfl
    rw [e] at h
    unfold Fl.scaleInf at h
    unfold Fl.div at h
    split_ifs at h <;> dsimp only at h <;> (try split_ifs at h) <;> cases h

theorem finMatrix_ok {n : ℕ} {M : Matrix (Fin n) (Fin n) Fl} {A : Matrix (Fin n) (Fin n) ℝ} (h : finMatrix M = .ok A) :
    ∀ i j, M i j = .fin (A i j) := by
  unfold finMatrix at h
  split at h
  · rename_i hf
    intro i j
    rw [← Except.ok.inj h, Matrix.of_apply]
    have := hf i j
    cases hM : M i j <;> rw [hM] at this <;> first | rfl | cases this
  · cases h

/-- The covariance of the estimates with the noise seen near their frequency: power `pu` is shared between the two
coefficients of `u`, `pv` between those of `v`, `puv` between the covariances of one with the other. -/
def bandCov (K : Matrix (Fin 4) (Fin 4) ℝ) (pu pv puv : ℝ) : Matrix (Fin 4) (Fin 4) ℝ :=
  let s := |K 0 2| + |K 0 3| + |K 1 2| + |K 1 3|
  Matrix.of fun i j =>
    if i.val < 2 ∧ j.val < 2 then pu * K i j / (K 0 0 + K 1 1)
    else if 2 ≤ i.val ∧ 2 ≤ j.val then pv * K i j / (K 2 2 + K 3 3) else puv * K i j / s

/-- The same for one series. -/
def bandCov1 (K : Matrix (Fin 2) (Fin 2) ℝ) (pu : ℝ) : Matrix (Fin 2) (Fin 2) ℝ :=
  Matrix.of fun i j => pu * K i j / (K 0 0 + K 1 1)

theorem scaled_band (K : Matrix (Fin 4) (Fin 4) ℝ) (a b d : Fl) (A : Matrix (Fin 4) (Fin 4) ℝ)
    (h : finMatrix (mcScaled K a b d) = .ok A) :
    ∃ pu pv puv : ℝ, a = .fin pu ∧ b = .fin pv ∧ (|K 0 2| + |K 0 3| + |K 1 2| + |K 1 3| ≠ 0 → d = .fin puv) ∧
      K 0 0 + K 1 1 ≠ 0 ∧ K 2 2 + K 3 3 ≠ 0 ∧ A = bandCov K pu pv puv := by
  have h := finMatrix_ok h
  obtain ⟨pu, rfl, h1, -⟩ := scaled_finite a (K 0 0) (K 0 0 + K 1 1) (by
    have := h 0 0
    have e : mcScaled K a b d 0 0 = (a * Fl.fin (K 0 0)).div (.fin (K 0 0 + K 1 1)) := rfl
    rw [← e, this]; rfl)
  obtain ⟨pv, rfl, h2, -⟩ := scaled_finite b (K 2 2) (K 2 2 + K 3 3) (by
    have := h 2 2
    have e : mcScaled K (.fin pu) b d 2 2 = (b * Fl.fin (K 2 2)).div (.fin (K 2 2 + K 3 3)) := rfl
    rw [← e, this]; rfl)
  have hs : 0 ≤ |K 0 2| + |K 0 3| + |K 1 2| + |K 1 3| := by positivity
  have hd : ∃ puv, (|K 0 2| + |K 0 3| + |K 1 2| + |K 1 3| ≠ 0 → d = .fin puv) := by
    by_cases h0 : |K 0 2| + |K 0 3| + |K 1 2| + |K 1 3| = 0
    · exact ⟨0, fun h => absurd h0 h⟩
    · have hpos := lt_of_le_of_ne hs (Ne.symm h0)
      obtain ⟨puv, rfl, -⟩ := scaled_finite d (K 0 2) (|K 0 2| + |K 0 3| + |K 1 2| + |K 1 3|) (by
        have := h 0 2
        have e : mcScaled K (.fin pu) (.fin pv) d 0 2 =
            if 0 < |K 0 2| + |K 0 3| + |K 1 2| + |K 1 3| then
              (d * Fl.fin (K 0 2)).div (.fin (|K 0 2| + |K 0 3| + |K 1 2| + |K 1 3|)) else Fl.fin 0 := rfl
        rw [e, if_pos hpos] at this
        rw [this]; rfl)
      exact ⟨puv, fun _ => rfl⟩
  obtain ⟨puv, hd⟩ := hd
  refine ⟨pu, pv, puv, rfl, rfl, hd, h1, h2, ?_⟩
  have fd : ∀ x k e : ℝ, e ≠ 0 → (Fl.fin x * Fl.fin k).div (.fin e) = .fin (x * k / e) := by
    intro x k e he
    show (if e = 0 then _ else _) = _
    rw [if_neg he]
  have key : ∀ i j, mcScaled K (.fin pu) (.fin pv) d i j = .fin (bandCov K pu pv puv i j) := by
    intro i j
    unfold mcScaled bandCov
    simp only [Matrix.of_apply]
    rw [fd _ _ _ h1, fd _ _ _ h2]
    by_cases c1 : i.val < 2 ∧ j.val < 2
    · rw [if_pos c1, if_pos c1]
    rw [if_neg c1, if_neg c1]
    by_cases c2 : 2 ≤ i.val ∧ 2 ≤ j.val
    · rw [if_pos c2, if_pos c2]
    rw [if_neg c2, if_neg c2]
    by_cases h0 : |K 0 2| + |K 0 3| + |K 1 2| + |K 1 3| = 0
    · rw [h0, if_neg (lt_irrefl _), div_zero]
    · rw [if_pos (lt_of_le_of_ne hs (Ne.symm h0)), hd h0, fd _ _ _ h0]
  ext i j
  have := (h i j).symm.trans (key i j)
  exact Fl.fin.inj this

theorem scaled_band1 (D : Matrix (Fin 2) (Fin 2) ℝ) (a : Fl) (A : Matrix (Fin 2) (Fin 2) ℝ)
    (h : finMatrix (Matrix.of fun i j => (a * Fl.fin (D i j)).div (.fin (D 0 0 + D 1 1))) = .ok A) :
    ∃ pu : ℝ, a = .fin pu ∧ D 0 0 + D 1 1 ≠ 0 ∧ A = bandCov1 D pu := by
  have h := finMatrix_ok h
  obtain ⟨pu, rfl, h1, -⟩ := scaled_finite a (D 0 0) (D 0 0 + D 1 1) (by
    have := h 0 0
    rw [Matrix.of_apply] at this
    rw [this]; rfl)
  refine ⟨pu, rfl, h1, ?_⟩
  ext i j
  have := h i j
  rw [Matrix.of_apply] at this
  have e : (Fl.fin pu * Fl.fin (D i j)).div (.fin (D 0 0 + D 1 1)) = .fin (pu * D i j / (D 0 0 + D 1 1)) := by
    show (if D 0 0 + D 1 1 = 0 then _ else _) = _
    rw [if_neg h1]
  exact Fl.fin.inj (this.symm.trans e)

section
variable {E : Env} {t : TimeArg} {u v : Series} {lat : Option ℝ} {opts : Dict PyVal} {c : Coef} {tn : List Fl}

/-- **C109**, two series and a white noise floor: the intervals are those of samples drawn around the fit with the
covariance of the least-squares estimates. -/
theorem C109_vector (R : Ready E t u (some v)) (hI : InvOk E.num.inv) (H : McRun E t u (some v) lat opts c tn)
    (hw : c.opt.white = true) :
    ∃ (ci : CiArr) (qu qv : CurvePar) (call : ℕ → ℕ), c.ci = some ci ∧
      BestFit c (sampleTimes tn u (some v)) (sampleU tn u (some v)) qu ∧
      BestFit c (sampleTimes tn u (some v)) (sampleV tn u (some v)) qv ∧
      (∀ i j : ℕ, i < c.name.length → j < c.name.length → call i = call j → i = j) ∧
      ∀ (i : ℕ) (n : String), c.name[i]? = some n → ∃ (a b : List ℝ) (r : Ci1) (K : Matrix (Fin 4) (Fin 4) ℝ),
        Blue c (sampleTimes tn u (some v)) (fun q => q.X n) a ∧ Blue c (sampleTimes tn u (some v)) (fun q => q.Y n) b ∧
        K = estCov (resCov c (sampleTimes tn u (some v)) (sampleU tn u (some v)) (sampleU tn u (some v)) qu qu)
            (resCov c (sampleTimes tn u (some v)) (sampleV tn u (some v)) (sampleV tn u (some v)) qv qv)
            (resCov c (sampleTimes tn u (some v)) (sampleU tn u (some v)) (sampleV tn u (some v)) qu qv) a b ∧
        K.PosSemidef ∧
        ellipseAt c.ell i = some (ellRow ![qu.X n, qu.Y n, qv.X n, qv.Y n]) ∧ intervalAt ci i = some r ∧
        FromDraws (E.num.mvn (call i) 4 ![qu.X n, qu.Y n, qv.X n, qv.Y n] K 200)
          (ellRow ![qu.X n, qu.Y n, qv.X n, qv.Y n]) r := by
  obtain ⟨ci, ed, qu, qv, frq, pw, call, hci, -, hqu, hqv, -, hinj, hwh, -, -, hall⟩ := mc_facts R hI H
  refine ⟨ci, qu, qv, call, hci, hqu, hqv, hinj, fun i n hn => ?_⟩
  obtain ⟨a, b, e, r, G, H', f, ha, hb, -, -, hG, hpsd, he, he', h2, -⟩ := hall i n hn
  obtain ⟨hr, P, hP, -, hmc⟩ := h2 rfl
  rw [if_pos (by rfl)] at he'
  subst he'
  have hmc' : monteCarlo2 E.num (call i) P (![qu.X n, qu.Y n, qv.X n, qv.Y n] 0) (![qu.X n, qu.Y n, qv.X n, qv.Y n] 1)
    (![qu.X n, qu.Y n, qv.X n, qv.Y n] 2) (![qu.X n, qu.Y n, qv.X n, qv.Y n] 3) _ _ G H' = .ok r := hmc
  obtain ⟨M, hM, -, hdr⟩ := monteCarlo2_draws hmc'
  refine ⟨a, b, r, _, ha, hb, hG, hpsd, he, hr, ?_⟩
  rw [← hM (hP (hwh hw))]
  exact hdr _ rfl rfl

/-- **C109**, one series and a white noise floor. -/
theorem C109_scalar (R : Ready E t u none) (hI : InvOk E.num.inv) (H : McRun E t u none lat opts c tn)
    (hw : c.opt.white = true) :
    ∃ (ci : CiArr) (q : CurvePar) (call : ℕ → ℕ), c.ci = some ci ∧
      BestFit c (sampleTimes tn u none) (sampleU tn u none) q ∧
      (∀ i j : ℕ, i < c.name.length → j < c.name.length → call i = call j → i = j) ∧
      ∀ (i : ℕ) (n : String), c.name[i]? = some n → ∃ (a b : List ℝ) (e : Ell) (r : Ci1),
        Blue c (sampleTimes tn u none) (fun q => q.X n) a ∧ Blue c (sampleTimes tn u none) (fun q => q.Y n) b ∧
        ellipseAt c.ell i = some e ∧ e.Lsmaj = ampOf ![q.X n, q.Y n] ∧ e.g = phaseOf ![q.X n, q.Y n] ∧
        intervalAt ci i = some ⟨r.maj, .fin 0, .fin 0, r.g⟩ ∧
        FromDraws1 (E.num.mvn (call i) 2 ![q.X n, q.Y n]
          (estCov1 (resCov c (sampleTimes tn u none) (sampleU tn u none) (sampleU tn u none) q q) a b) 200) e r := by
  obtain ⟨ci, ed, qu, qv, frq, pw, call, hci, -, hqu, hqv, -, hinj, hwh, -, -, hall⟩ := mc_facts R hI H
  refine ⟨ci, qu, call, hci, hqu, hinj, fun i n hn => ?_⟩
  obtain ⟨a, b, e, r, G, H', f, ha, hb, -, -, hG, hpsd, he, he', -, h1⟩ := hall i n hn
  obtain ⟨hr, hmc⟩ := h1 rfl
  rw [if_neg (by decide)] at he'
  have hmc' : monteCarlo1 E.num (call i) _ (![qu.X n, qu.Y n] 0) (![qu.X n, qu.Y n] 1) _ H' (varXuOf G) (varYuOf H') =
    .ok r := hmc
  obtain ⟨M, D, hD, hM, -, hdr⟩ := monteCarlo1_draws hmc'
  refine ⟨a, b, e, r, ha, hb, he, by rw [he']; rfl, by rw [he']; rfl, hr, ?_⟩
  have hDe : D = estCov1 (resCov c (sampleTimes tn u none) (sampleU tn u none) (sampleU tn u none) qu qu) a b := by
    rw [hD, hG]
    ext i j
    fin_cases i <;> fin_cases j <;> simp [estCov, estCov1]
  have hp : powerRow pw Power.Puu (call i) = none := by rw [hwh hw]; rfl
  rw [← hDe, ← hM hp]
  exact hdr _ rfl

/-- **C109**, two series and the noise of the residual spectrum: the same covariance, scaled to the power at the
frequency of the constituent, and made positive definite. -/
theorem C109_coloured_vector (R : Ready E t u (some v)) (hI : InvOk E.num.inv) (H : McRun E t u (some v) lat opts c tn)
    (hw : c.opt.white = false) :
    ∃ (ci : CiArr) (ed : Edited) (qu qv : CurvePar) (frq : List ℝ) (w : Power) (call : ℕ → ℕ), c.ci = some ci ∧
      editData tn u.data (some v.data) = .ok ed ∧
      BestFit c (sampleTimes tn u (some v)) (sampleU tn u (some v)) qu ∧
      BestFit c (sampleTimes tn u (some v)) (sampleV tn u (some v)) qv ∧ frq.Perm c.frq ∧
      residualPower E.num ed
        (List.zipWith (fun a b => (⟨a, b⟩ : ℂ)) (residuals c (sampleTimes tn u (some v)) (sampleU tn u (some v)) qu)
          (residuals c (sampleTimes tn u (some v)) (sampleV tn u (some v)) qv)) frq = .ok w ∧
      (∀ i j : ℕ, i < c.name.length → j < c.name.length → call i = call j → i = j) ∧
      ∀ (i : ℕ) (n : String), c.name[i]? = some n → ∃ (a b : List ℝ) (r : Ci1) (f pu pv puv : ℝ)
        (K : Matrix (Fin 4) (Fin 4) ℝ),
        Blue c (sampleTimes tn u (some v)) (fun q => q.X n) a ∧ Blue c (sampleTimes tn u (some v)) (fun q => q.Y n) b ∧
        c.frq[i]? = some f ∧ frq[call i]? = some f ∧
        K = estCov (resCov c (sampleTimes tn u (some v)) (sampleU tn u (some v)) (sampleU tn u (some v)) qu qu)
            (resCov c (sampleTimes tn u (some v)) (sampleV tn u (some v)) (sampleV tn u (some v)) qv qv)
            (resCov c (sampleTimes tn u (some v)) (sampleU tn u (some v)) (sampleV tn u (some v)) qu qv) a b ∧
        w.Puu[call i]? = some (.fin pu) ∧ w.Pvv[call i]? = some (.fin pv) ∧
        (|K 0 2| + |K 0 3| + |K 1 2| + |K 1 3| ≠ 0 → w.Puv[call i]? = some (.fin puv)) ∧
        K 0 0 + K 1 1 ≠ 0 ∧ K 2 2 + K 3 3 ≠ 0 ∧
        ellipseAt c.ell i = some (ellRow ![qu.X n, qu.Y n, qv.X n, qv.Y n]) ∧ intervalAt ci i = some r ∧
        FromDraws (E.num.mvn (call i) 4 ![qu.X n, qu.Y n, qv.X n, qv.Y n] (nearestSPD E.num (bandCov K pu pv puv)) 200)
          (ellRow ![qu.X n, qu.Y n, qv.X n, qv.Y n]) r := by
  obtain ⟨ci, ed, qu, qv, frq, pw, call, hci, hed, hqu, hqv, hperm, hinj, -, hwh, hz0, hall⟩ := mc_facts R hI H
  obtain ⟨w, rfl, hpw⟩ := hwh hw
  refine ⟨ci, ed, qu, qv, frq, w, call, hci, hed, hqu, hqv, hperm, hpw, hinj, fun i n hn => ?_⟩
  obtain ⟨a, b, e, r, G, H', f, ha, hb, hf, hf', hG, hpsd, he, he', h2, -⟩ := hall i n hn
  obtain ⟨hr, P, -, hP, hmc⟩ := h2 rfl
  obtain ⟨x, y, z, hx, hy, hz, rfl⟩ := hP w rfl
  rw [if_pos (by rfl)] at he'
  subst he'
  have hmc' : monteCarlo2 E.num (call i) _ (![qu.X n, qu.Y n, qv.X n, qv.Y n] 0) (![qu.X n, qu.Y n, qv.X n, qv.Y n] 1)
    (![qu.X n, qu.Y n, qv.X n, qv.Y n] 2) (![qu.X n, qu.Y n, qv.X n, qv.Y n] 3) _ _ G H' = .ok r := hmc
  obtain ⟨M, -, hM, hdr⟩ := monteCarlo2_draws hmc'
  obtain ⟨A, hA, rfl⟩ := hM _ rfl
  obtain ⟨pu, pv, puv, rfl, rfl, hd, h1, h2, rfl⟩ := scaled_band _ x y z A hA
  rw [hG] at hd h1 h2 hdr
  exact ⟨a, b, r, f, pu, pv, puv, _, ha, hb, hf, hf', rfl, hx, hy, fun h => by rw [hz, hd h], h1, h2, he, hr, hdr _ rfl rfl⟩

/-- **C109**, one series and the noise of the residual spectrum. -/
theorem C109_coloured_scalar (R : Ready E t u none) (hI : InvOk E.num.inv) (H : McRun E t u none lat opts c tn)
    (hw : c.opt.white = false) :
    ∃ (ci : CiArr) (ed : Edited) (q : CurvePar) (frq : List ℝ) (w : Power) (call : ℕ → ℕ), c.ci = some ci ∧
      editData tn u.data none = .ok ed ∧
      BestFit c (sampleTimes tn u none) (sampleU tn u none) q ∧ frq.Perm c.frq ∧
      residualPower E.num ed ((residuals c (sampleTimes tn u none) (sampleU tn u none) q).map Complex.ofReal) frq =
        .ok w ∧
      (∀ i j : ℕ, i < c.name.length → j < c.name.length → call i = call j → i = j) ∧
      ∀ (i : ℕ) (n : String), c.name[i]? = some n → ∃ (a b : List ℝ) (e : Ell) (r : Ci1) (f pu : ℝ)
        (K : Matrix (Fin 2) (Fin 2) ℝ),
        Blue c (sampleTimes tn u none) (fun q => q.X n) a ∧ Blue c (sampleTimes tn u none) (fun q => q.Y n) b ∧
        c.frq[i]? = some f ∧ frq[call i]? = some f ∧
        K = estCov1 (resCov c (sampleTimes tn u none) (sampleU tn u none) (sampleU tn u none) q q) a b ∧
        w.Puu[call i]? = some (.fin pu) ∧ K 0 0 + K 1 1 ≠ 0 ∧
        ellipseAt c.ell i = some e ∧ e.Lsmaj = ampOf ![q.X n, q.Y n] ∧ e.g = phaseOf ![q.X n, q.Y n] ∧
        intervalAt ci i = some ⟨r.maj, .fin 0, .fin 0, r.g⟩ ∧
        FromDraws1 (E.num.mvn (call i) 2 ![q.X n, q.Y n] (nearestSPD E.num (bandCov1 K pu)) 200) e r := by
  obtain ⟨ci, ed, qu, qv, frq, pw, call, hci, hed, hqu, hqv, hperm, hinj, -, hwh, hz0, hall⟩ := mc_facts R hI H
  obtain ⟨w, rfl, hpw⟩ := hwh hw
  refine ⟨ci, ed, qu, frq, w, call, hci, hed, hqu, hperm, ?_, hinj, fun i n hn => ?_⟩
  · rw [← hpw, hz0 rfl]
    congr 1
    apply List.ext_getElem
    · simp
    · intro j _ _
      simp only [List.getElem_map, List.getElem_zipWith]
      rfl
  obtain ⟨a, b, e, r, G, H', f, ha, hb, hf, hf', hG, hpsd, he, he', -, h1⟩ := hall i n hn
  obtain ⟨hr, hmc⟩ := h1 rfl
  rw [if_neg (by decide)] at he'
  have hmc' : monteCarlo1 E.num (call i) _ (![qu.X n, qu.Y n] 0) (![qu.X n, qu.Y n] 1) _ H' (varXuOf G) (varYuOf H') =
    .ok r := hmc
  obtain ⟨M, D, hD, -, hM, hdr⟩ := monteCarlo1_draws hmc'
  have hDe : D = estCov1 (resCov c (sampleTimes tn u none) (sampleU tn u none) (sampleU tn u none) qu qu) a b := by
    rw [hD, hG]
    ext i j
    fin_cases i <;> fin_cases j <;> simp [estCov, estCov1]
  have hfl : call i < w.Puu.length := by
    have h0 := (List.getElem?_eq_some_iff.1 hf').1
    unfold residualPower at hpw
    simp only [bind_eq_ok, pure_eq_ok, Except.ok.injEq] at hpw
    obtain ⟨ba, -, rfl⟩ := hpw
    simpa using h0
  have hp : powerRow (some w) Power.Puu (call i) = some w.Puu[call i] := List.getElem?_eq_getElem hfl
  obtain ⟨A, hA, rfl⟩ := hM _ hp
  obtain ⟨pu, hpu, hne, rfl⟩ := scaled_band1 D _ A hA
  exact ⟨a, b, e, r, f, pu, D, ha, hb, hf, hf', hDe, by rw [List.getElem?_eq_getElem hfl, hpu], hne, he, by rw [he']; rfl,
    by rw [he']; rfl, hr, hdr _ rfl⟩

end

/-- Non-vacuity of C109, both kinds of series. -/
example : ∃ c c', McRun idealEnv quadT (quadSeries 1 0 2 5) none (some 45) (ciOpts "MC" true) c quadTn ∧
    McRun idealEnv quadT (quadSeries 1 0 2 5) (some (quadSeries 3 1 4 1)) (some 45) (ciOpts "MC" true) c' quadTn ∧
    c.opt.white = true ∧ c'.opt.white = true ∧ c.name = ["M2"] ∧ c'.name = ["M2"] := by
  obtain ⟨c, Q, -⟩ := quad_ci 1 0 2 5 none (.inl rfl) false
  obtain ⟨c', Q', -⟩ := quad_ci 1 0 2 5 (some (quadSeries 3 1 4 1)) (.inr ⟨_, _, _, _, rfl⟩) false
  exact ⟨c, c', ⟨Q.returned, by decide, ⟨.str "ols", rfl, .inl rfl⟩, by rw [Q.opt]; rfl, by rw [Q.opt]; rfl,
    by rw [Q.opt]; rfl, Q.kept, by rw [Q.opt]; exact quad_times⟩,
    ⟨Q'.returned, by decide, ⟨.str "ols", rfl, .inl rfl⟩, by rw [Q'.opt]; rfl, by rw [Q'.opt]; rfl,
    by rw [Q'.opt]; rfl, Q'.kept, by rw [Q'.opt]; exact quad_times⟩, by rw [Q.opt]; rfl, by rw [Q'.opt]; rfl,
    Q.name, Q'.name⟩

end

end UTide.Props
