import Verif.Lemmas.Weighted
import Verif.Props.ColourProps
import Verif.Props.PredictAgain
import Verif.Props.RobustScale
import Verif.Props.SwapProps

/-!
# Confidence intervals of a robust analysis: C137

Whatever the method, the linearised intervals of a scalar series are those of weighted least squares with the returned
weights; the noise is measured by the residuals of the returned curve.
-/

namespace UTide.Props

noncomputable section

open Classical Matrix

local notation "conj" => starRingEnd ℂ

/-! ## Specification -/

/-- The run of C137: linearised intervals, no inference, any method. -/
structure IntervalRun (E : Env) (t : TimeArg) (u : Series) (v : Option Series) (lat : Option ℝ) (opts : Dict PyVal)
    (c : Coef) (tn : List Fl) : Prop where
  returned : solve E t u v lat opts = .ok c
  keys : opts.keys.Nodup
  infer : readInfer c.opt.infer = .ok none
  ci : c.opt.confInt = true
  linear : c.opt.linci = true
  kept : AllKept c
  time : normalizeTime E.dt64 t.arr c.opt.epoch = .ok tn

/-- The variance of the linear combination `a` of data whose noise has the variances `1 / w`. -/
def varSum (w a : List ℝ) : ℝ := (List.zipWith (fun x y => x ^ 2 / y) a w).sum

/-- Data of weight zero are not used. -/
def Unused (w a : List ℝ) : Prop := ∀ j : ℕ, w[j]? = some 0 → a[j]? = some 0

/-- `a` is the best linear unbiased estimator of a parameter from data at times `τ` with weights `w`: among those
combinations of the data of non-zero weight that are exact for every curve it has the smallest variance, for
uncorrelated noise of variances inversely proportional to the weights. -/
structure WeightedBlue (c : Coef) (τ w : List ℝ) (par : CurvePar → ℝ) (a : List ℝ) : Prop where
  length : a.length = τ.length
  unused : Unused w a
  unbiased : ∀ q, Admissible c q → combine a (τ.map (linCurve c q)) = par q
  best : ∀ a' : List ℝ, a'.length = τ.length → Unused w a' →
    (∀ q, Admissible c q → combine a' (τ.map (linCurve c q)) = par q) → varSum w a ≤ varSum w a'

/-- The curve `q` is what the result says: these are the ellipse parameters and this is what `reconstruct` predicts. -/
structure Reported (c : Coef) (q : CurvePar) : Prop where
  adm : Admissible c q
  ellipse : ∀ i n, c.name[i]? = some n → ellipseAt c.ell i = some (cs2cep1 (q.X n) (q.Y n))
  predicts : ∀ (a : RecArgs), RecArgs.Everything a → ∀ (E' : Env) (t' : TimeArr),
    reconstruct E' t' c a = (normalizeTime E'.dt64 t' a.epoch).map fun tn => tn.map fun x => x.toReal?.map fun τ =>
      ((linCurve c q τ : ℝ) : ℂ)

/-- Weights times residuals of the curve. -/
def weightedResiduals (c : Coef) (τ y w : List ℝ) (q : CurvePar) : List ℝ :=
  List.zipWith (fun a b => a * b) w (residuals c τ y q)

/-- The estimate of the noise variance: weighted data times residual, over the degrees of freedom. -/
def weightedMSM (c : Coef) (τ y w : List ℝ) (q : CurvePar) : ℝ :=
  combine y (weightedResiduals c τ y w q) / ((τ.length : ℝ) - numPar c)

/-! ## Lemmas -/

theorem varSum_fin {n : ℕ} (w a : Fin n → ℝ) : varSum (List.ofFn w) (List.ofFn a) = ∑ j, a j ^ 2 / w j := by
  unfold varSum
  rw [← List.sum_ofFn]
  congr 1
  apply List.ext_getElem
  · simp
  · intro i _ _; simp

theorem unused_fin {n : ℕ} (w a : Fin n → ℝ) : Unused (List.ofFn w) (List.ofFn a) ↔ ∀ j, w j = 0 → a j = 0 := by
  unfold Unused
  simp only [List.getElem?_ofFn]
  constructor
  · intro h j hj
    have := h j.val (by simp [hj])
    simpa using this
  · intro h j hj
    by_cases hjn : j < n
    · simp only [hjn, dite_true, Option.some.injEq] at hj ⊢
      exact h _ hj
    · simp [hjn] at hj

section
variable {E : Env} {t : TimeArg} {u : Series} {v : Option Series} {lat : Option ℝ} {opts : Dict PyVal}
  {c : Coef} {opt : Opt} {p : Prep} {tn : List Fl} {constit : Constit} {m : List ℂ} {W : List ℝ}
  {rf : Option RobOut} {full : Coef} {o : Order} {ind : List ℕ}

/-- The weights as a function, and their range. -/
theorem Facts.weightsFin (F : Facts E t u v lat opts c opt p tn constit m W rf full o ind) (R : Ready E t u v)
    (hnd : opts.keys.Nodup) (h : solve E t u v lat opts = .ok c) :
    ∃ w : Fin p.B.length → ℝ, W = List.ofFn w ∧ ∀ j, 0 ≤ w j := by
  have hc := F.copt
  subst hc
  obtain ⟨h1, h2, -⟩ := C82_weights E t u v lat opts R hnd c h tn F.prep.init.time
  obtain ⟨hl, s2, s3⟩ := F.samples R
  rw [F.cweights] at h1 h2
  rw [← usable_samples _ _ _ hl] at h1
  have hlen : W.length = p.B.length := by
    rw [h1, ← F.t_length, s2, List.length_map]
  obtain ⟨w, rfl⟩ := UTide.exists_ofFn p.B.length W hlen
  refine ⟨w, rfl, fun j => (h2 (w j) ?_).1⟩
  rw [List.mem_ofFn]
  exact ⟨j, rfl⟩

/-- The curve of a scalar analysis and its values at the samples, any method. -/
theorem Facts.reported (F : Facts E t u none lat opts c opt p tn constit m W rf full o ind) (R : Ready E t u none)
    (hnd : opts.keys.Nodup) (h : solve E t u none lat opts = .ok c) (hk : AllKept c) (hinf : p.infer = none)
    (hi : IndepColumns p.nm p.B) :
    ∃ q, Reported c q ∧ xmodOf p.opt.twodim p.B m = (p.ed.t.map (linCurve c q)).map Complex.ofReal ∧
      ∀ (k : Fin p.nm) (n : String), p.sel.nrName[k.val]? = some n → k.val < p.sel.nNR → ∀ f : Fin p.nm → ℂ,
        m = List.ofFn f → q.X n = (f k + f (swapPerm p.sel.nNR p.nm (F.two_le hinf) k)).re ∧
          q.Y n = -(f k - f (swapPerm p.sel.nNR p.nm (F.two_le hinf) k)).im := by
  obtain ⟨h0, hnR, hname, hlen, hnm⟩ := F.noRefs hinf
  obtain ⟨P, M, mean, slope, hP, hM, hs, hm⟩ := F.exists_coef (F.nodup hinf hi) m F.mlen
  obtain ⟨r1, r2⟩ := F.read hnd P M mean slope hP hM hm
  have hre : ∀ τ, (rotaryCurve c P M mean slope τ).re =
      linCurve c ⟨fun n => (P n + M n).re, fun n => -(P n - M n).im, mean.re, slope.re⟩ τ := by
    intro τ
    unfold rotaryCurve linCurve
    have e1 : ∀ l : List ℂ, l.sum.re = (l.map Complex.re).sum := by
      intro l
      induction l with
      | nil => rfl
      | cons a l ih => simp [ih]
    rw [Complex.add_re, Complex.add_re, Complex.re_mul_ofReal, e1, List.map_map]
    have e2 : (c.name.map (Complex.re ∘ fun n => harmonic c n τ * P n + conj (harmonic c n τ) * M n)) =
        c.name.map fun n => (P n + M n).re * (harmonic c n τ).re + -(P n - M n).im * (harmonic c n τ).im := by
      refine List.map_congr_left fun n _ => ?_
      simp only [Function.comp_apply, Complex.add_re, Complex.mul_re, Complex.conj_re, Complex.conj_im, Complex.sub_im]
      ring
    rw [e2]
    ring
  refine ⟨⟨fun n => (P n + M n).re, fun n => -(P n - M n).im, mean.re, slope.re⟩, ⟨fun hn => ?_, fun i n hn => ?_,
    fun a ha E' t' => ?_⟩, ?_, fun k n hn hkl f hf => ?_⟩
  · dsimp only
    rw [hs (by rw [F.copt] at hn; exact hn)]; rfl
  · rw [r1, ellipseAt_map, hn]
    rfl
  · have hell : ∀ i n, c.name[i]? = some n → ∃ e, ellipseAt c.ell i = some e ∧ ccw e = (P n + conj (M n)) / 2 ∧
        cw e = conj ((P n + conj (M n)) / 2) := by
      intro i n hn
      refine ⟨ell1 (P n) (M n), ?_, ccw_ell1 _ _, cw_ell1 _ _⟩
      rw [r1, ellipseAt_map, hn]
      rfl
    rw [predicted R hnd h hk _ _ hell a ha E' t']
    congr 1
    funext tn
    refine List.map_congr_left fun x _ => ?_
    congr 1
    funext τ
    rw [level_meanRec c _ _ _ _ hs r2 τ]
    simp only [Option.isSome_none, Bool.false_eq_true, if_false]
    unfold linCurve
    rw [Complex.add_re, Complex.re_mul_ofReal]
    push_cast
    congr 1
    have e1 : ∀ l : List ℝ, ((l.sum : ℝ) : ℂ) = (l.map Complex.ofReal).sum := by
      intro l
      induction l with
      | nil => rfl
      | cons a l ih => simp [ih]
    rw [e1, List.map_map]
    congr 1
    refine List.map_congr_left fun n _ => ?_
    rw [Function.comp_apply, ← map_mul]
    apply Complex.ext
    · simp only [Complex.add_re, Complex.conj_re, Complex.mul_re, Complex.ofReal_re, Complex.div_ofNat_re,
        Complex.div_ofNat_im, Complex.add_im, Complex.conj_im, Complex.sub_im]
      ring
    · simp only [Complex.add_im, Complex.conj_im, Complex.ofReal_im]
      ring
  · have htd : p.opt.twodim = false := F.td hnd
    unfold xmodOf
    rw [htd, F.B_eq, List.map_map, List.map_map]
    refine List.map_congr_left fun τ hτ => ?_
    simp only [Function.comp_apply, Bool.false_eq_true, if_false]
    rw [hm, F.row_curve R hnd hk (by rw [hinf]; rfl) P M mean slope hP hM hs τ hτ, hre]
  · obtain ⟨g1, g2⟩ := F.ap_get hinf f hf k hkl
    have hm2 := hm
    rw [nameCoef_noRefs h0] at hm2
    have hkn : k.val < p.sel.nrName.length := (List.getElem?_eq_some_iff.1 hn).1
    have hget : ∀ i : Fin p.nm, m[i.val]? = some (f i) := by
      intro i; rw [hf, List.getElem?_ofFn]; simp
    have fP : f k = P n := by
      have := hget k
      rw [hm2, List.append_assoc, List.getElem?_append_left (by rw [List.length_map]; exact hkn), List.getElem?_map, hn] at this
      exact (Option.some.inj this).symm
    have fM : f (swapPerm p.sel.nNR p.nm (F.two_le hinf) k) = M n := by
      have := hget (swapPerm p.sel.nNR p.nm (F.two_le hinf) k)
      have hv := swapPerm_val p.sel.nNR p.nm (F.two_le hinf) k
      generalize swapPerm p.sel.nNR p.nm (F.two_le hinf) k = l at this hv ⊢
      rw [hv, hm2] at this
      rw [show swapIdx p.sel.nNR k.val = k.val + p.sel.nNR from if_pos hkl, List.append_assoc,
        List.getElem?_append_right (by rw [List.length_map]; omega),
        List.getElem?_append_left (by rw [List.length_map, List.length_map]; omega), List.getElem?_map, List.length_map,
        show k.val + p.sel.nNR - p.sel.nrName.length = k.val by omega, hn] at this
      exact (Option.some.inj this).symm
    rw [fP, fM]
    exact ⟨rfl, rfl⟩

/-- The weighted estimators. -/
theorem Facts.weighted_cos (F : Facts E t u v lat opts c opt p tn constit m W rf full o ind) (R : Ready E t u v)
    (hnd : opts.keys.Nodup) (hk : AllKept c) (hinf : p.infer = none) (w : Fin p.B.length → ℝ) (hw : ∀ j, 0 ≤ w j)
    (hd : ((weighted w (designM p.nm p.B))ᴴ * weighted w (designM p.nm p.B)).det ≠ 0)
    (k : Fin p.nm) (n : String) (hn : p.sel.nrName[k.val]? = some n) :
    (WeightedBlue c p.ed.t (List.ofFn w) (fun q => q.X n)
        (List.ofFn fun j => Real.sqrt (w j) * cosForm (weighted w (designM p.nm p.B)) k j) ∧
      varSum (List.ofFn w) (List.ofFn fun j => Real.sqrt (w j) * cosForm (weighted w (designM p.nm p.B)) k j) =
        ∑ j, cosForm (weighted w (designM p.nm p.B)) k j ^ 2) ∧
    WeightedBlue c p.ed.t (List.ofFn w) (fun q => q.Y n)
        (List.ofFn fun j => Real.sqrt (w j) * sinForm (weighted w (designM p.nm p.B)) k j) ∧
      varSum (List.ofFn w) (List.ofFn fun j => Real.sqrt (w j) * sinForm (weighted w (designM p.nm p.B)) k j) =
        ∑ j, sinForm (weighted w (designM p.nm p.B)) k j ^ 2 := by
  have hi := indep_of_weighted p.nm p.B F.prep.rows w hd
  have hP := (F.paired hinf).weighted w
  have key : ∀ (form : Fin p.B.length → ℝ) (par : CurvePar → ℝ) (val : (Fin p.nm → ℂ) → ℝ),
      (∀ f q, Matches c p f q → par q = val f) → (∀ j, w j = 0 → form j = 0) →
      (∀ f, RealCoef (swapPerm p.sel.nNR p.nm (F.two_le hinf)) f →
        ∑ j, form j * realCurve (weighted w (designM p.nm p.B)) f j = val f) →
      (∀ a' : Fin p.B.length → ℝ, (∀ f, RealCoef (swapPerm p.sel.nNR p.nm (F.two_le hinf)) f →
        ∑ j, a' j * realCurve (weighted w (designM p.nm p.B)) f j = val f) → ∑ j, form j ^ 2 ≤ ∑ j, a' j ^ 2) →
      WeightedBlue c p.ed.t (List.ofFn w) par (List.ofFn fun j => Real.sqrt (w j) * form j) ∧
        varSum (List.ofFn w) (List.ofFn fun j => Real.sqrt (w j) * form j) = ∑ j, form j ^ 2 := by
    intro form par val hpar hz hub hbest
    have hv : varSum (List.ofFn w) (List.ofFn fun j => Real.sqrt (w j) * form j) = ∑ j, form j ^ 2 := by
      rw [varSum_fin]
      refine Finset.sum_congr rfl fun j _ => ?_
      rcases (hw j).eq_or_lt with h0 | h0
      · rw [hz j h0.symm]; simp
      · rw [mul_pow, Real.sq_sqrt (hw j), mul_div_assoc, mul_div_cancel₀ _ h0.ne']
    refine ⟨⟨by simp [F.t_length], ?_, fun q hq => ?_, fun a' hl hu ha => ?_⟩, hv⟩
    · rw [unused_fin]
      intro j hj
      rw [hz j hj, mul_zero]
    · obtain ⟨f, hf, hm⟩ := F.real_of_curve R hnd hk hinf q hq
      rw [F.times_curve hm, combine_fin, hpar f q hm, ← hub f hf]
      refine Finset.sum_congr rfl fun j _ => ?_
      rw [realCurve_weighted]
      ring
    · obtain ⟨a, rfl⟩ := UTide.exists_ofFn p.B.length a' (by rw [hl, F.t_length])
      rw [unused_fin] at hu
      rw [hv, varSum_fin]
      have e1 : ∀ j, a j ^ 2 / w j = (a j / Real.sqrt (w j)) ^ 2 := by
        intro j; rw [div_pow, Real.sq_sqrt (hw j)]
      simp only [e1]
      refine hbest (fun j => a j / Real.sqrt (w j)) fun f hf => ?_
      obtain ⟨q, hm⟩ := F.curve_of_real R hnd hk hinf hi f hf
      have := ha q hm.adm
      rw [F.times_curve hm, combine_fin, hpar f q hm] at this
      rw [← this]
      refine Finset.sum_congr rfl fun j _ => ?_
      rw [realCurve_weighted]
      rcases (hw j).eq_or_lt with h0 | h0
      · rw [hu j h0.symm]; simp
      · have : Real.sqrt (w j) ≠ 0 := (Real.sqrt_pos.2 h0).ne'
        field_simp
  refine ⟨key _ _ (fun f => 2 * (f k).re) (fun f q hm => (hm.par k n hn).1) (fun j hj => ?_)
    (fun f hf => hP.cos_unbiased hd hf k) (fun a' ha => hP.cos_best hd k a' ha),
    key _ _ (fun f => -2 * (f k).im) (fun f q hm => (hm.par k n hn).2) (fun j hj => ?_)
    (fun f hf => hP.sin_unbiased hd hf k) (fun a' ha => hP.sin_best hd k a' ha)⟩
  · unfold cosForm; rw [solver_weightless w _ k j hj]; simp
  · unfold sinForm; rw [solver_weightless w _ k j hj]; simp

/-- Interval of the constituent at position `k` of the selection, any method, scalar series. -/
theorem Facts.ciRowWeighted (F : Facts E t u none lat opts c opt p tn constit m W rf full o ind) (R : Ready E t u none)
    (hI : InvOk E.num.inv) (hnd : opts.keys.Nodup) (hci : opt.confInt = true) (hlin : opt.linci = true)
    (hinf : p.infer = none) (w : Fin p.B.length → ℝ) (hW : W = List.ofFn w) (hw : ∀ j, 0 ≤ w j)
    (f : Fin p.nm → ℂ) (hm : m = List.ofFn f) :
    ∃ ci pw, full.ci = some ci ∧ (opt.white = true → pw = none) ∧
      (opt.white = false → ∃ w, pw = some w ∧ residualPower E.num p.ed (confIn p m W).e p.sel.frq = .ok w) ∧
      p.B.length ≠ p.nm ∧ ((weighted w (designM p.nm p.B))ᴴ * weighted w (designM p.nm p.B)).det ≠ 0 ∧
      ∀ (y z : Fin p.B.length → ℝ), xraw p.ed = (List.ofFn fun j => (y j : ℂ)) →
        xmodOf p.opt.twodim p.B m = (List.ofFn fun j => (z j : ℂ)) → ∀ (k : Fin p.nm), k.val < p.sel.nNR →
        let s2 := (∑ j, w j * y j * (y j - z j)) / ((p.B.length : ℝ) - p.nm)
        intervalAt ci k = some (linear1 (powerRow pw Power.Puu k)
          (f k + f (swapPerm p.sel.nNR p.nm (F.two_le hinf) k)).re
          (-(f k - f (swapPerm p.sel.nNR p.nm (F.two_le hinf) k)).im)
          (s2 * ∑ j, cosForm (weighted w (designM p.nm p.B)) k j ^ 2)
          (s2 * ∑ j, sinForm (weighted w (designM p.nm p.B)) k j ^ 2)).1 := by
  have hP := F.paired hinf
  obtain ⟨hrefs, hnR, hname, hlen, hnm⟩ := F.noRefs hinf
  rcases F.solved.ci with ⟨h4, -⟩ | ⟨-, ci, hc, hfull⟩
  · rw [F.prep.hopt, hci] at h4; cases h4
  have hxl : (xraw p.ed).length = p.B.length := (F.prep.height R.ht R.hu R.hv).symm
  unfold confidence at hc
  simp only [bind_eq_ok, pure_eq_ok, Except.ok.injEq] at hc
  obtain ⟨pw, hpw, GH, hGH, rows, hrows, inf, hinf', hpack⟩ := hc
  obtain ⟨hne, hd, hGHe⟩ := covariances_weighted hI (confIn p m W) w hw hW _ hP hGH
  have hml : m.length = numCols (!opt.notrend) p.sel := by rw [F.mlen, F.prep.nm]
  obtain ⟨a1, a2⟩ := apOf_length _ m hml
  have hXl : (confIn p m W).Xu.length = p.sel.nNR := by simp [confIn, a1, a2, hnR]
  refine ⟨ci, pw, hfull, ?_, ?_, fun h0 => hne (hxl.trans h0), hd, ?_⟩
  · intro hw
    have : (confIn p m W).white = true := by show p.opt.white = true; rw [F.prep.hopt, hw]
    rw [this, if_pos rfl] at hpw
    exact (Except.ok.inj hpw).symm
  · intro hw
    have : (confIn p m W).white = false := by show p.opt.white = false; rw [F.prep.hopt, hw]
    rw [this, if_neg (by simp)] at hpw
    cases hr : residualPower E.num (confIn p m W).ed (confIn p m W).e (confIn p m W).frq with
    | error e => rw [hr] at hpw; cases hpw
    | ok w => rw [hr] at hpw; exact ⟨w, (Except.ok.inj hpw).symm, hr⟩
  · intro y z hy hz k hk
    dsimp only
    obtain ⟨m1, m2⟩ := msm_real (confIn p m W) w y z hW hy hz
    have hxl' : (confIn p m W).xraw.length = p.B.length := hxl
    obtain ⟨s2, hs2⟩ : ∃ s2, s2 = (∑ j, w j * y j * (y j - z j)) / ((p.B.length : ℝ) - p.nm) := ⟨_, rfl⟩
    obtain ⟨G, H⟩ := GH
    obtain ⟨hG, hH⟩ := Prod.mk.inj hGHe
    have c1 : msmNum (confIn p m W) / (((confIn p m W).xraw.length : ℝ) - (confIn p m W).nm) = s2 := by
      rw [m1, hxl', hs2]; rfl
    have c2 : pseudoNum (confIn p m W) / ((((confIn p m W).xraw.length : ℝ) - (confIn p m W).nm : ℝ) : ℂ) = (s2 : ℂ) := by
      rw [m2, hxl', hs2, ← Complex.ofReal_div]; rfl
    rw [c1, c2] at hG hH
    obtain ⟨v1, v2⟩ := vars_real (hP.weighted w) hd s2 k G H hG hH
    rw [← hs2]
    obtain ⟨g1, g2⟩ := F.ap_get hinf _ hm k hk
    have hbd : (swapPerm p.sel.nNR p.nm (F.two_le hinf) k).val = k.val + p.sel.nNR := by
      rw [swapPerm_val]; exact if_pos hk
    have hbG := block_ok (nm := p.nm) G p.sel.nNR k _ hbd
    have hbH := block_ok (nm := p.nm) H p.sel.nNR k _ hbd
    have hXu : (confIn p m W).Xu[k.val]? = some (f k + f (swapPerm p.sel.nNR p.nm (F.two_le hinf) k)).re := by
      show (List.zipWith _ _ _)[k.val]? = _
      rw [List.getElem?_zipWith, g1, g2]
    have hYu : (confIn p m W).Yu[k.val]? = some (-(f k - f (swapPerm p.sel.nNR p.nm (F.two_le hinf) k)).im) := by
      show (List.zipWith _ _ _)[k.val]? = _
      rw [List.getElem?_zipWith, g1, g2]
    have htd : p.opt.twodim = false := F.td hnd
    obtain ⟨row, hrow1, hrow2⟩ := mapM_getElem? _ _ _ hrows k.val k.val (by
      rw [List.getElem?_range (by rw [hXl]; exact hk)])
    have htd' : (confIn p m W).twodim = false := htd
    have hrow : intervalAt ci k.val = some ⟨row.1.maj, .fin 0, .fin 0, row.1.g⟩ := by
      have hl : (rows.map Prod.fst ++ inf)[k.val]? = some row.1 := by
        rw [List.getElem?_append_left (by rw [List.length_map]; exact (List.getElem?_eq_some_iff.1 hrow1).1),
          List.getElem?_map, hrow1]; rfl
      rw [← hpack, htd']
      unfold packCi
      simp only [Bool.false_eq_true, if_false, intervalAt, List.getElem?_map, hl, Option.map_some, Option.bind_some]
    rw [hrow]
    congr 1
    unfold ciOne at hrow2
    simp only [bind_eq_ok, getIdx_ok] at hrow2
    obtain ⟨G', hG', H', hH', Xu, hXu', Yu, hYu', g, hg, pu, hpu, hrow2⟩ := hrow2
    rw [hXl] at hG' hH'
    have eG := Except.ok.inj (hbG.symm.trans hG')
    have eH := Except.ok.inj (hbH.symm.trans hH')
    have eXu := Option.some.inj (hXu.symm.trans hXu')
    have eYu := Option.some.inj (hYu.symm.trans hYu')
    have hlin' : (confIn p m W).linci = true := by show p.opt.linci = true; rw [F.prep.hopt, hlin]
    rw [htd', hlin'] at hrow2
    simp only [Bool.false_eq_true, if_false, if_true, pure_eq_ok, Except.ok.injEq] at hrow2
    rw [← hrow2, ← eG, ← eH, ← eXu, ← eYu, power_row pw Power.Puu _ _ hpu]
    erw [v1, v2]
    rfl

end

/-- The root of a negative variance is not a number. -/
theorem linear1_negative (X Y a b : ℝ) (h : a < 0) : (linear1 none X Y a b).1 = ⟨.nan, .fin 0, .fin 0, .nan⟩ := by
  have h1 : Fl.sqrt (.fin a) = .nan := if_pos h
  have h3 : ∀ d1 d2 d3 d4 s2 s3 s4 : Fl, linSum d1 d2 d3 d4 .nan s2 s3 s4 = .nan := fun d1 d2 d3 d4 s2 s3 s4 => by
    have hs : Fl.sq .nan = .nan := rfl
    unfold linSum
    rw [hs, mul_nan, nan_add, nan_add, nan_add]
    rfl
  unfold linear1 utLinci
  dsimp only
  rw [h1, if_pos rfl]
  dsimp only
  rw [h3, h3, mul_nan, mul_nan, mul_nan]

/-! ## C137 -/

/-- What C137 says about one constituent, for either kind of noise. -/
theorem robust_row {E : Env} {t : TimeArg} {u : Series} {lat : Option ℝ} {opts : Dict PyVal} {c : Coef} {tn : List Fl}
    (R : Ready E t u none) (hI : InvOk E.num.inv) (H : IntervalRun E t u none lat opts c tn) :
    ∃ ci q pw ed frq, c.ci = some ci ∧ Reported c q ∧ editData tn u.data none = .ok ed ∧ frq.Perm c.frq ∧
      (c.opt.white = true → pw = none) ∧
      (c.opt.white = false → ∃ w, pw = some w ∧ w.Puu.length = frq.length ∧ residualPower E.num ed
        ((weightedResiduals c (sampleTimes tn u none) (sampleU tn u none) c.weights q).map Complex.ofReal) frq = .ok w) ∧
      (sampleTimes tn u none).length ≠ numPar c ∧
      ∀ (i : ℕ) (n : String), c.name[i]? = some n → ∃ (a b : List ℝ) (k : ℕ) (g : ℝ),
        WeightedBlue c (sampleTimes tn u none) c.weights (fun q => q.X n) a ∧
        WeightedBlue c (sampleTimes tn u none) c.weights (fun q => q.Y n) b ∧
        c.frq[i]? = some g ∧ frq[k]? = some g ∧ 0 < varSum c.weights a ∧ 0 ≤ varSum c.weights b ∧
        intervalAt ci i = some (linear1 (powerRow pw Power.Puu k) (q.X n) (q.Y n)
          (weightedMSM c (sampleTimes tn u none) (sampleU tn u none) c.weights q * varSum c.weights a)
          (weightedMSM c (sampleTimes tn u none) (sampleU tn u none) c.weights q * varSum c.weights b)).1 := by
  obtain ⟨opt, p, tn0, constit, m, W, rf, full, o, ind, F⟩ := solve_facts R H.returned
  have hc := F.copt
  subst hc
  cases Except.ok.inj (F.prep.init.time.symm.trans H.time)
  have hinf : p.infer = none := Except.ok.inj (F.prep.hinfer.symm.trans H.infer)
  obtain ⟨w, hW, hw⟩ := F.weightsFin R H.keys H.returned
  obtain ⟨f, hm⟩ := UTide.exists_ofFn p.nm m F.mlen
  obtain ⟨ci, pw, hci, hwh, hco, hne, hd, hrow⟩ := F.ciRowWeighted R hI H.keys H.ci H.linear hinf w hW hw f hm
  have hi := indep_of_weighted p.nm p.B F.prep.rows w hd
  obtain ⟨q, hq, hxm, hqp⟩ := F.reported R H.keys H.returned H.kept hinf hi
  obtain ⟨x, hx⟩ := F.data R
  obtain ⟨-, hts, hxs⟩ := F.samples R
  have hU : sampleU tn u none = List.ofFn fun j => (x j).re := by
    have : sampleU tn u none = (xraw p.ed).map Complex.re := by rw [hxs, List.map_map]; rfl
    rw [this, hx, List.map_ofFn]; rfl
  have hT : sampleTimes tn u none = p.ed.t := hts.symm
  have hcw : c.weights = List.ofFn w := F.cweights.trans hW
  obtain ⟨z, hz⟩ := UTide.exists_ofFn p.B.length (p.ed.t.map (linCurve c q)) (by rw [List.length_map, F.t_length])
  have hy : xraw p.ed = List.ofFn fun j => (((x j).re : ℝ) : ℂ) := by
    rw [hx]
    congr 1
    funext j
    apply Complex.ext
    · simp
    · rw [F.scalar_im R rfl x hx j]; simp
  have hz' : xmodOf p.opt.twodim p.B m = List.ofFn fun j => (z j : ℂ) := by
    rw [hxm, hz, List.map_ofFn]; rfl
  have hcc : c.ci = some (ci.permute ind) := by
    rw [F.solved.result]; show full.ci.map _ = _; rw [hci]; rfl
  have hfrq : p.sel.frq.Perm c.frq := by
    have : c.frq = gather full.frq ind := by rw [F.solved.result]; rfl
    rw [this, ← F.solved.frq]
    exact (gather_perm _ (by rw [F.len.frq]; exact F.kept H.keys R H.kept)).symm
  have hwr : weightedResiduals c (sampleTimes tn u none) (sampleU tn u none) c.weights q =
      List.ofFn fun j => w j * ((x j).re - z j) := by
    unfold weightedResiduals residuals
    rw [hT, hU, hcw, hz, sub_fin]
    apply List.ext_getElem
    · simp
    · intro i _ _; simp
  have hs2 : weightedMSM c (sampleTimes tn u none) (sampleU tn u none) c.weights q =
      (∑ j, w j * (x j).re * ((x j).re - z j)) / ((p.B.length : ℝ) - p.nm) := by
    unfold weightedMSM
    rw [hwr, hU, combine_fin, hT, F.t_length, F.numPar_eq R H.keys H.kept hinf]
    congr 1
    exact Finset.sum_congr rfl fun j _ => by ring
  refine ⟨ci.permute ind, q, pw, p.ed, p.sel.frq, hcc, hq, F.prep.init.edit, hfrq, hwh, fun hw0 => ?_, ?_, fun i n hn => ?_⟩
  · obtain ⟨P, hP, hres⟩ := hco hw0
    refine ⟨P, hP, ?_, ?_⟩
    · unfold residualPower at hres
      simp only [bind_eq_ok, pure_eq_ok, Except.ok.injEq] at hres
      obtain ⟨ba, -, rfl⟩ := hres
      simp
    · rw [← hres]
      congr 1
      show _ = weightedResidual W (xraw p.ed) (xmodOf p.opt.twodim p.B m)
      rw [hwr, hz', hy, hW]
      unfold weightedResidual
      apply List.ext_getElem
      · simp
      · intro i _ _
        simp
  · rw [hT, F.t_length, F.numPar_eq R H.keys H.kept hinf]; exact hne
  · obtain ⟨k, hk, hkn, hki, he, ci', hci', hint⟩ := F.position hinf ci hci i n hn
    cases Option.some.inj (hci'.symm.trans hcc)
    obtain ⟨⟨bX, vX⟩, bY, vY⟩ := F.weighted_cos R H.keys H.kept hinf w hw hd k n hkn
    obtain ⟨eX, eY⟩ := hqp k n hkn hk f hm
    obtain ⟨hrefs, hnR, hname, hlen, hnm⟩ := F.noRefs hinf
    have hll : p.sel.lind.length = p.sel.nNR := by rw [F.prep.aligned.lind_eq, hrefs, F.prep.aligned.nNR]; simp
    have hfl : k.val < p.sel.frq.length := by rw [F.prep.aligned.frq, List.length_map, hll]; exact hk
    refine ⟨_, _, k.val, p.sel.frq[k.val], by rw [hT, hcw]; exact bX, by rw [hT, hcw]; exact bY, ?_,
      List.getElem?_eq_getElem hfl, ?_, ?_, ?_⟩
    · have : c.frq = gather full.frq ind := by rw [F.solved.result]; rfl
      rw [this, gather_getElem? _ _ (by rw [F.len.frq]; exact F.lt), hki, F.solved.frq]
      exact List.getElem?_eq_getElem hfl
    · rw [hcw, vX]
      rcases (Finset.sum_nonneg fun j (_ : j ∈ Finset.univ) =>
        sq_nonneg (cosForm (weighted w (designM p.nm p.B)) k j)).lt_or_eq with h0 | h0
      · exact h0
      · exfalso
        have h1 : ∀ j, cosForm (weighted w (designM p.nm p.B)) k j = 0 := by
          intro j
          have := (Finset.sum_eq_zero_iff_of_nonneg fun j (_ : j ∈ Finset.univ) =>
            sq_nonneg (cosForm (weighted w (designM p.nm p.B)) k j)).1 h0.symm j (Finset.mem_univ j)
          exact pow_eq_zero_iff two_ne_zero |>.1 this
        have h2 := bX.unbiased ⟨fun _ => 1, fun _ => 0, 0, 0⟩ fun _ => rfl
        simp only [h1, mul_zero] at h2
        obtain ⟨z', hz2⟩ := UTide.exists_ofFn p.B.length (p.ed.t.map (linCurve c ⟨fun _ => 1, fun _ => 0, 0, 0⟩))
          (by rw [List.length_map, F.t_length])
        rw [hz2, combine_fin] at h2
        simp at h2
    · rw [hcw, vY]; exact Finset.sum_nonneg fun j _ => sq_nonneg _
    · rw [hint, hrow _ _ hy hz' k hk, hs2, hcw, vX, vY, eX, eY]

/-- **C137**, white noise floor. -/
theorem C137_white {E : Env} {t : TimeArg} {u : Series} {lat : Option ℝ} {opts : Dict PyVal} {c : Coef} {tn : List Fl}
    (R : Ready E t u none) (hI : InvOk E.num.inv) (H : IntervalRun E t u none lat opts c tn)
    (hwhite : c.opt.white = true) :
    ∃ ci q, c.ci = some ci ∧ Reported c q ∧ (sampleTimes tn u none).length ≠ numPar c ∧
      ∀ s2, s2 = weightedMSM c (sampleTimes tn u none) (sampleU tn u none) c.weights q →
      ∀ (i : ℕ) (n : String), c.name[i]? = some n → ∃ a b : List ℝ,
        WeightedBlue c (sampleTimes tn u none) c.weights (fun q => q.X n) a ∧
        WeightedBlue c (sampleTimes tn u none) c.weights (fun q => q.Y n) b ∧
        (0 ≤ s2 → ![q.X n, q.Y n] ≠ (0 : Fin 2 → ℝ) → ∃ da dg,
          Propagated 0 ampOf ![q.X n, q.Y n] ![Real.sqrt (s2 * varSum c.weights a), Real.sqrt (s2 * varSum c.weights b)] da ∧
          Propagated 360 phaseOf ![q.X n, q.Y n] ![Real.sqrt (s2 * varSum c.weights a), Real.sqrt (s2 * varSum c.weights b)] dg ∧
          intervalAt ci i = some ⟨.fin (1.96 * da), .fin 0, .fin 0, .fin (1.96 * dg)⟩) ∧
        (s2 < 0 → intervalAt ci i = some ⟨.nan, .fin 0, .fin 0, .nan⟩) := by
  obtain ⟨ci, q, pw, ed, frq, hci, hq, -, -, hpw, -, hne, hrow⟩ := robust_row R hI H
  have := hpw hwhite
  subst this
  refine ⟨ci, q, hci, hq, hne, fun s2 hs2 i n hn => ?_⟩
  obtain ⟨a, b, k, g, h1, h2, -, -, ha, hb, h5⟩ := hrow i n hn
  rw [← hs2] at h5
  refine ⟨a, b, h1, h2, fun h0 hxy => ?_, fun h0 => ?_⟩
  · have na : 0 ≤ s2 * varSum c.weights a := mul_nonneg h0 ha.le
    have nb : 0 ≤ s2 * varSum c.weights b := mul_nonneg h0 hb
    obtain ⟨da, dg, k1, k2, k3⟩ := C50_scalar none _ ![Real.sqrt (s2 * varSum c.weights a), Real.sqrt (s2 * varSum c.weights b)]
      ![s2 * varSum c.weights a, s2 * varSum c.weights b] hxy (fun i => by fin_cases i <;> exact Real.sqrt_nonneg _) (by
        simp [linear1, Real.sq_sqrt na, Real.sq_sqrt nb])
    refine ⟨da, dg, k1, k2, ?_⟩
    rw [h5]
    exact congrArg some k3
  · have hn : s2 * varSum c.weights a < 0 := mul_neg_of_neg_of_pos h0 ha
    rw [h5]
    exact congrArg some (linear1_negative _ _ _ _ hn)

/-- **C137**, coloured noise. -/
theorem C137_coloured {E : Env} {t : TimeArg} {u : Series} {lat : Option ℝ} {opts : Dict PyVal} {c : Coef} {tn : List Fl}
    (R : Ready E t u none) (hI : InvOk E.num.inv) (H : IntervalRun E t u none lat opts c tn)
    (hcol : c.opt.white = false) :
    ∃ ci q ed frq w, c.ci = some ci ∧ Reported c q ∧ editData tn u.data none = .ok ed ∧ frq.Perm c.frq ∧
      residualPower E.num ed
        ((weightedResiduals c (sampleTimes tn u none) (sampleU tn u none) c.weights q).map Complex.ofReal) frq = .ok w ∧
      ∀ (i : ℕ) (n : String), c.name[i]? = some n → ∃ (a b : List ℝ) (P : Fl) (k : ℕ) (f : ℝ),
        WeightedBlue c (sampleTimes tn u none) c.weights (fun q => q.X n) a ∧
        WeightedBlue c (sampleTimes tn u none) c.weights (fun q => q.Y n) b ∧
        c.frq[i]? = some f ∧ frq[k]? = some f ∧ w.Puu[k]? = some P ∧
        ∀ r : ℝ, P = .fin r → 0 ≤ r →
          weightedMSM c (sampleTimes tn u none) (sampleU tn u none) c.weights q ≠ 0 →
          ![q.X n, q.Y n] ≠ (0 : Fin 2 → ℝ) →
          ∃ vX vY da dg : ℝ, 0 ≤ vX ∧ 0 ≤ vY ∧ vX + vY = r ∧ vX * varSum c.weights b = vY * varSum c.weights a ∧
            Propagated 0 ampOf ![q.X n, q.Y n] ![Real.sqrt vX, Real.sqrt vY] da ∧
            Propagated 360 phaseOf ![q.X n, q.Y n] ![Real.sqrt vX, Real.sqrt vY] dg ∧
            intervalAt ci i = some ⟨.fin (1.96 * da), .fin 0, .fin 0, .fin (1.96 * dg)⟩ := by
  obtain ⟨ci, q, pw, ed, frq, hci, hq, hed, hperm, -, hpw, hne, hrow⟩ := robust_row R hI H
  obtain ⟨w, rfl, hwl, hw⟩ := hpw hcol
  refine ⟨ci, q, ed, frq, w, hci, hq, hed, hperm, hw, fun i n hn => ?_⟩
  obtain ⟨a, b, k, g, h1, h2, hg, hkg, ha, hb, h5⟩ := hrow i n hn
  have hPl : k < w.Puu.length := by rw [hwl]; exact (List.getElem?_eq_some_iff.1 hkg).1
  refine ⟨a, b, w.Puu[k], k, g, h1, h2, hg, hkg, List.getElem?_eq_getElem hPl, fun r hr hr0 hs2 hxy => ?_⟩
  generalize weightedMSM c (sampleTimes tn u none) (sampleU tn u none) c.weights q = s2 at hs2 h5
  generalize varSum c.weights a = A at ha h5 ⊢
  generalize varSum c.weights b = B at hb h5 ⊢
  have hpr : powerRow (some w) Power.Puu k = some (.fin r) := by
    show w.Puu[k]? = _
    rw [List.getElem?_eq_getElem hPl, hr]
  rw [hpr] at h5
  have habp : 0 < A + B := by linarith
  have hden : s2 * A + s2 * B ≠ 0 := by rw [← mul_add]; exact mul_ne_zero hs2 habp.ne'
  have hvar : ∀ z, r * (s2 * z) / (s2 * A + s2 * B) = r * z / (A + B) := by
    intro z
    rw [← mul_add]
    field_simp
  have nX : 0 ≤ r * A / (A + B) := div_nonneg (mul_nonneg hr0 ha.le) habp.le
  have nY : 0 ≤ r * B / (A + B) := div_nonneg (mul_nonneg hr0 hb) habp.le
  obtain ⟨da, dg, k1, k2, k3⟩ := C50_scalar (some (.fin r)) _ ![Real.sqrt (r * A / (A + B)), Real.sqrt (r * B / (A + B))]
    ![s2 * A, s2 * B] hxy (fun i => by fin_cases i <;> exact Real.sqrt_nonneg _) (by
      show (⟨rescale (.fin r) (s2 * A) (s2 * A + s2 * B), rescale (.fin r) (s2 * B) (s2 * A + s2 * B), .fin 0, .fin 0⟩ : Vars) =
        ⟨.fin (Real.sqrt (r * A / (A + B)) ^ 2), .fin (Real.sqrt (r * B / (A + B)) ^ 2), .fin 0, .fin 0⟩
      rw [Real.sq_sqrt nX, Real.sq_sqrt nY, ← hvar A, ← hvar B]
      have hre : ∀ z, rescale (.fin r) (s2 * z) (s2 * A + s2 * B) = .fin (r * (s2 * z) / (s2 * A + s2 * B)) := by
        intro z
        show (if s2 * A + s2 * B = 0 then _ else Fl.fin (r * (s2 * z) / (s2 * A + s2 * B))) = _
        rw [if_neg hden]
      rw [hre, hre])
  refine ⟨r * A / (A + B), r * B / (A + B), da, dg, nX, nY, by rw [← add_div, ← mul_add, mul_div_assoc, div_self habp.ne', mul_one],
    by ring, k1, k2, ?_⟩
  rw [h5]
  exact congrArg some k3

end

end UTide.Props
