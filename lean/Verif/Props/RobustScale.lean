import Verif.Props.RobustOls
import Verif.Props.SuperProps
import Verif.Lemmas.RobustEquiv

/-!
# Robust fits of scaled and shifted records: C81
-/

namespace UTide.Props

noncomputable section

open Classical

local notation "conj" => starRingEnd ℂ

/-! ## Specification -/

/-- `robust_kw` leaves `rcond` alone or sets it to a harmless value. -/
structure Harmless (kw : List (String × PyVal)) : Prop where
  nodup : (kw.map Prod.fst).Nodup
  rcond : ∀ v, ("rcond", v) ∈ kw → ∃ q : ℚ, v = .num q ∧ (q ≤ 0 ∨ 1 ≤ q)

/-- The call asks for a robust fit. -/
def AsksRobust (opts : Dict PyVal) (kw : List (String × PyVal)) : Prop :=
  (∃ me : String, me ≠ "ols" ∧ requested opts "method" = some (.str me)) ∧
  ∃ b, requested opts "robust_kw" = some (.dict b kw)

/-! ## Lemmas -/

theorem Harmless.args {kw : List (String × PyVal)} (hc : Harmless kw) {a : RobArgs}
    (h : readRobArgs kw robDefaults = .ok a) : exactRcond (some a.rcond) := by
  obtain ⟨-, -, h3, h4⟩ := readRobArgs_facts kw hc.nodup _ _ h
  by_cases hr : ∃ v, ("rcond", v) ∈ kw
  · obtain ⟨v, hv⟩ := hr
    obtain ⟨q, rfl, hq⟩ := hc.rcond v hv
    rw [h3 q hv]; exact hq
  · push Not at hr
    rw [h4 hr]; exact .inr le_rfl

section
variable {E : Env} {t : TimeArg} {u : Series} {v : Option Series} {lat : Option ℝ} {opts : Dict PyVal}
  {c : Coef} {opt : Opt} {p : Prep} {tn : List Fl} {constit : Constit} {m : List ℂ} {W : List ℝ}
  {rf : Option RobOut} {full : Coef} {o : Order} {ind : List ℕ}
  {u' : Series} {v' : Option Series} {c' : Coef} {p' : Prep} {constit' : Constit} {m' : List ℂ} {W' : List ℝ}
  {rf' : Option RobOut} {full' : Coef} {ind' : List ℕ}

theorem Facts.method_robust (F : Facts E t u v lat opts c opt p tn constit m W rf full o ind) (hnd : opts.keys.Nodup)
    {kw : List (String × PyVal)} (hr : AsksRobust opts kw) : opt.method = .robust kw := by
  obtain ⟨⟨me, hme, hm⟩, b, hkw⟩ := hr
  obtain ⟨b2, kw2, hk2, hrob⟩ := (getOpt_requests _ hnd _ _ F.hopt).robust _ hm (by simp [PyVal.eqStr, hme])
  rw [hkw] at hk2
  simp only [Option.some.injEq, PyVal.dict.injEq] at hk2
  obtain ⟨rfl, rfl⟩ := hk2
  exact hrob

theorem Facts.cweights (F : Facts E t u v lat opts c opt p tn constit m W rf full o ind) : c.weights = W := by
  rw [F.solved.result]; exact F.solved.head.weights

theorem Facts.crf (F : Facts E t u v lat opts c opt p tn constit m W rf full o ind) : c.rf = rf := by
  rw [F.solved.result]; exact F.solved.head.rf

theorem Facts.robust_fit (F : Facts E t u v lat opts c opt p tn constit m W rf full o ind)
    {kw : List (String × PyVal)} (hr : opt.method = .robust kw) :
    ∃ a r, readRobArgs kw robDefaults = .ok a ∧ robustfit E.num a p.nm p.B (xraw p.ed) = .ok r ∧ m = r.b ∧ W = r.w ∧
      rf = some r := by
  have hfit := F.solved.fit
  unfold stageFit at hfit
  rw [F.prep.hopt, hr] at hfit
  simp only [bind_eq_ok, pure_eq_ok, Except.ok.injEq, Prod.mk.injEq] at hfit
  obtain ⟨a, ha, r, hr, rfl, rfl, rfl⟩ := hfit
  exact ⟨a, r, ha, hr, rfl, rfl, rfl⟩

/-- Two robust runs on related data. -/
theorem robust_coef (F : Facts E t u v lat opts c opt p tn constit m W rf full o ind)
    (F' : Facts E t u' v' lat opts c' opt p' tn constit' m' W' rf' full' o ind') (R : Ready E t u v)
    {kw : List (String × PyVal)} (hr : opt.method = .robust kw) (hh : Harmless kw) (f : ℝ → ℂ → ℂ) (T : Twin f p p')
    (k : ℂ) (hk : k ≠ 0) (d : List ℂ) (hd : d.length = p.nm)
    (hx : xraw p'.ed = shiftBy p.B d (vscale k (xraw p.ed)))
    (hsp : ∀ a wf, readRobArgs kw robDefaults = .ok a → WFun.ofName a.wfName = .ok wf →
      Spreads E.num (robProblem E.num a wf p.nm p.B (xraw p.ed)) k) :
    m' = vadd (vscale k m) d ∧ W' = W ∧ ∃ r r', rf = some r ∧ rf' = some r' ∧ OutMoved k d r r' := by
  obtain ⟨a, r, ha, h1, rfl, rfl, rfl⟩ := F.robust_fit hr
  obtain ⟨a', r', ha', h1', rfl, rfl, rfl⟩ := F'.robust_fit hr
  cases Except.ok.inj (ha.symm.trans ha')
  rw [T.nm, T.B, hx] at h1'
  have := robustfit_moved (N := E.num) (k := k) (d := d) R.lstsq a (hh.args ha) p.nm p.B (xraw p.ed) F.prep.rows
    (F.prep.height R.ht R.hu R.hv) hk hd (fun wf => hsp a wf ha)
  rw [h1, h1'] at this
  exact ⟨this.b, this.w, r, r', rfl, rfl, this⟩

end

/-- `robustfit` on `k y + X d`: the same error, or the coefficients `k b + d` with the same weights after the same
number of iterations. -/
theorem C81_robustfit (N : Num) (hN : NumOk N) (a : RobArgs) (ha : exactRcond (some a.rcond)) (ncol : ℕ)
    (X : List (List ℂ)) (y y' d : List ℂ) (hX : ∀ r ∈ X, r.length = ncol) (hy : X.length = y.length) (k : ℝ)
    (hk : k ≠ 0) (hd : d.length = ncol) (hy' : y'.length = y.length)
    (h : ∀ (i : ℕ) (r : List ℂ) (x : ℂ), X[i]? = some r → y[i]? = some x →
      y'[i]? = some (k * x + (List.zipWith (· * ·) r d).sum)) :
    (∀ out, robustfit N a ncol X y = .ok out → ∃ out', robustfit N a ncol X y' = .ok out' ∧
      out'.b = List.zipWith (fun b d => (k : ℂ) * b + d) out.b d ∧ out'.w = out.w ∧ out'.iterations = out.iterations ∧
      out'.rmsResid = |k| * out.rmsResid ∧ out'.leverage = out.leverage) ∧
    (∀ e, robustfit N a ncol X y = .error e → robustfit N a ncol X y' = .error e) := by
  have hyy : y' = shiftBy X d (vscale k y) := by
    apply List.ext_getElem?
    intro i
    by_cases hi : i < y.length
    · rw [h i X[i] y[i] (List.getElem?_eq_getElem (by omega)) (List.getElem?_eq_getElem hi)]
      unfold shiftBy vscale dot
      rw [List.getElem?_eq_getElem (by simp; omega)]
      simp
    · rw [List.getElem?_eq_none (by omega), List.getElem?_eq_none (by simp [shiftBy]; omega)]
  rw [hyy]
  have key := robustfit_moved (N := N) (k := k) (d := d) hN.lstsq a ha ncol X y hX hy
    (Complex.ofReal_ne_zero.2 hk) hd (fun _ _ _ _ => spread_real _ _ _)
  constructor
  · intro out ho
    rw [ho] at key
    cases h' : robustfit N a ncol X (shiftBy X d (vscale k y)) with
    | error e => rw [h'] at key; exact key.elim
    | ok out' =>
      rw [h'] at key
      refine ⟨out', rfl, ?_, key.w, key.iterations, by rw [key.rms, Complex.norm_real, Real.norm_eq_abs], key.leverage⟩
      rw [key.b]
      unfold vadd vscale
      rw [List.zipWith_map_left]
  · intro e he
    rw [he] at key
    cases h' : robustfit N a ncol X (shiftBy X d (vscale k y)) with
    | error e' => rw [h'] at key; exact congrArg _ (show e = e' from key).symm
    | ok out' => rw [h'] at key; exact key.elim

/-- C81: if every sample `x` of a record is replaced by `k x` plus the value of a curve of the model at its time, the
robust solution is multiplied by `k` and the coefficients of the curve are added to it; weights and number of
iterations stay the same, the rms residual is multiplied by `|k|`. (In a scalar record only the real part of the
model counts.) -/
theorem C81_equivariant (E : Env) (t : TimeArg) (u u' : Series) (v v' : Option Series) (lat : Option ℝ)
    (opts : Dict PyVal) (R : Ready E t u v) (R' : Ready E t u' v') (hv : v'.isSome = v.isSome) (hnd : opts.keys.Nodup)
    (kw : List (String × PyVal)) (hr : AsksRobust opts kw) (hh : Harmless kw)
    (c c' : Coef) (h : solve E t u v lat opts = .ok c) (h' : solve E t u' v' lat opts = .ok c') (hkept : AllKept c)
    (hn : c.name.Nodup)
    (sp : Option InferSpec) (hi : readInfer c.opt.infer = .ok sp) (hex : ∀ s, sp = some s → s.approximate = false)
    (tn : List Fl) (htn : normalizeTime E.dt64 t.arr c.opt.epoch = .ok tn) (k : ℝ) (hk : k ≠ 0)
    (P₀ M₀ : String → ℂ) (mean₀ slope₀ : ℂ) (hT : TiedRotary sp v.isSome P₀ M₀)
    (hs₀ : c.opt.notrend = true → slope₀ = 0)
    (hu : Transformed (fun τ x => k * x + rotaryCurve c P₀ M₀ mean₀ slope₀ τ) tn u v u' v') :
    c'.weights = c.weights ∧
    (∃ r r', c.rf = some r ∧ c'.rf = some r' ∧ r'.iterations = r.iterations ∧ r'.rmsResid = |k| * r.rmsResid) ∧
    c'.name.Perm c.name ∧
    (∃ mean slope, c.mean = meanRec v.isSome c.opt.notrend mean slope ∧
      c'.mean = meanRec v.isSome c.opt.notrend (k * mean + mean₀) (k * slope + slope₀)) ∧
    ∀ i j n, c.name[i]? = some n → c'.name[j]? = some n → ∃ e e', ellipseAt c.ell i = some e ∧
      ellipseAt c'.ell j = some e' ∧
      ccw e' = k * ccw e + (if v.isSome then P₀ n else (P₀ n + conj (M₀ n)) / 2) ∧
      cw e' = k * cw e + (if v.isSome then M₀ n else (conj (P₀ n) + M₀ n) / 2) := by
  obtain ⟨opt, p, tn0, constit, m, W, rf, full, o, ind, F⟩ := solve_facts R h
  obtain ⟨opt', p', tn', constit', m', W', rf', full', o', ind', F'⟩ := solve_facts R' h'
  have hc := F.copt
  subst hc
  cases Except.ok.inj (F.prep.init.time.symm.trans htn)
  obtain ⟨rfl, rfl, rfl, hinf, T⟩ := twin' F F' R R' hv _ hu
  have hrob := F.method_robust hnd hr
  have hsp : p.infer = sp := Except.ok.inj (F.prep.hinfer.symm.trans hi)
  subst hsp
  have hex' : approxOf p.infer = false := by
    cases hsp : p.infer with
    | none => rfl
    | some s => exact hex s hsp
  have hn' : p.sel.name.Nodup := (F.perm_names R hnd hkept).nodup_iff.1 hn
  obtain ⟨P, M, mean, slope, hP, hM, -, hmc⟩ := F.exists_coef hn' m F.mlen
  obtain ⟨hP₀, hM₀⟩ := F.tiedBy hnd P₀ M₀ hT
  set d := nameCoef p.sel (!c.opt.notrend) P₀ M₀ mean₀ (slope₀ * (p.ed.lor : ℂ)) with hd
  have hdl : d.length = p.nm := by
    rw [F.prep.nm, hd]; exact (nameCoef_blocks F.prep.aligned _ _ _ _ _).length
  have hx : xraw p'.ed = shiftBy p.B d (vscale k (xraw p.ed)) := by
    obtain ⟨us, h1, h2, h3⟩ := T.x
    have hB : p.B = us.map fun s => rowAt p s.1 := by
      rw [F.prep.B, h1, List.map_map]
      unfold rowAt
      rw [F.prep.hopt]
      rfl
    rw [h3, h2, hB]
    unfold shiftBy vscale
    rw [List.map_map, zipWith_map_same]
    refine List.map_congr_left fun s hs' => ?_
    have hτ : s.1 ∈ p.ed.t := by rw [h1]; exact List.mem_map_of_mem hs'
    simp only [Function.comp]
    rw [hd, F.row_curve R hnd hkept hex' _ _ mean₀ slope₀ hP₀ hM₀ hs₀ _ hτ]
  obtain ⟨hmm, hW, r, r', e1, e2, hO⟩ := robust_coef F F' R hrob hh _ T k (Complex.ofReal_ne_zero.2 hk) d hdl hx
    (fun _ _ _ _ _ _ => spread_real _ _ _)
  have hP' : TiedBy p'.sel InfCon.Rp fun n => k * P n + P₀ n := by
    rw [T.sel]; intro r hr q hq; dsimp only; rw [hP r hr q hq, hP₀ r hr q hq]; ring
  have hM' : TiedBy p'.sel InfCon.Rm fun n => k * M n + M₀ n := by
    rw [T.sel]; intro r hr q hq; dsimp only; rw [hM r hr q hq, hM₀ r hr q hq]; ring
  obtain ⟨r1, r2⟩ := F.read hnd P M mean slope hP hM hmc
  obtain ⟨r3, r4⟩ := F'.read hnd _ _ (k * mean + mean₀) (k * slope + slope₀) hP' hM' (by
    rw [hmm, hmc, vscale_nameCoef, hd, vadd_nameCoef2, T.sel, T.lor, add_mul, mul_assoc])
  rw [hv] at r3 r4
  refine ⟨by rw [F'.cweights, F.cweights, hW], ⟨r, r', by rw [F.crf, e1], by rw [F'.crf, e2], hO.iterations, by
      rw [hO.rms, Complex.norm_real, Real.norm_eq_abs]⟩,
    same_names F F' R R' hnd T.sel hkept rfl, ⟨mean, slope, r2, r4⟩, ?_⟩
  intro i j n hi hj
  refine ⟨_, _, by rw [r1, ellipseAt_map, hi]; rfl, by rw [r3, ellipseAt_map, hj]; rfl, ?_⟩
  cases v.isSome with
  | true =>
    simp only [if_true]
    rw [ccw_ell2, ccw_ell2, cw_ell2, cw_ell2]
    exact ⟨rfl, rfl⟩
  | false =>
    simp only [Bool.false_eq_true, if_false]
    rw [ccw_ell1, ccw_ell1, cw_ell1, cw_ell1]
    simp only [map_add, map_mul, map_div₀, Complex.conj_conj, Complex.conj_ofReal, map_ofNat]
    constructor <;> ring

/-- The record in other units, robust fit: the same as `C05_scale`, and the same weights. -/
theorem C81_scale (E : Env) (t : TimeArg) (u u' : Series) (v v' : Option Series) (lat : Option ℝ) (opts : Dict PyVal)
    (R : Ready E t u v) (R' : Ready E t u' v') (hv : v'.isSome = v.isSome) (hnd : opts.keys.Nodup)
    (kw : List (String × PyVal)) (hr : AsksRobust opts kw) (hh : Harmless kw)
    (c c' : Coef) (h : solve E t u v lat opts = .ok c) (h' : solve E t u' v' lat opts = .ok c')
    (tn : List Fl) (htn : normalizeTime E.dt64 t.arr c.opt.epoch = .ok tn)
    (k : ℝ) (hk : 0 < k) (hu : Transformed (fun _ x => k * x) tn u v u' v')
    (ho : ¬ IsStr c.opt.ordercnstit "SNR") :
    c'.name = c.name ∧ c'.frq = c.frq ∧ c'.lind = c.lind ∧ c'.PE = c.PE ∧ c'.ell = scaleEll k c.ell ∧
      c'.mean = scaleMean k c.mean ∧ c'.weights = c.weights := by
  obtain ⟨opt, p, tn0, constit, m, W, rf, full, o, ind, F⟩ := solve_facts R h
  obtain ⟨opt', p', tn', constit', m', W', rf', full', o', ind', F'⟩ := solve_facts R' h'
  have hc := F.copt
  subst hc
  cases Except.ok.inj (F.prep.init.time.symm.trans htn)
  obtain ⟨rfl, rfl, rfl, hinf, T⟩ := twin' F F' R R' hv _ hu
  have hrob := F.method_robust hnd hr
  have hdot0 : ∀ (r : List ℂ) (n : ℕ), dot r (List.replicate n 0) = 0 := by
    intro r n
    induction r generalizing n with
    | nil => simp
    | cons x r ih => cases n with
      | zero => simp
      | succ n => rw [List.replicate_succ, dot_cons, ih]; simp
  have hx : xraw p'.ed = shiftBy p.B (List.replicate p.nm 0) (vscale k (xraw p.ed)) := by
    obtain ⟨us, h1, h2, h3⟩ := T.x
    have hB : p.B = us.map fun s => rowAt p s.1 := by
      rw [F.prep.B, h1, List.map_map]
      unfold rowAt
      rw [F.prep.hopt]
      rfl
    rw [h3, h2, hB]
    unfold shiftBy vscale
    rw [List.map_map, zipWith_map_same]
    refine List.map_congr_left fun s hs' => ?_
    simp only [Function.comp, hdot0, add_zero]
  obtain ⟨hmm, hW, -⟩ := robust_coef F F' R hrob hh _ T k (Complex.ofReal_ne_zero.2 hk.ne') _ (by simp) hx
    (fun _ _ _ _ _ _ => spread_real _ _ _)
  have hmm : m' = vscale k m := by
    rw [hmm]
    have hl : (vscale k m).length = p.nm := by simp [F.mlen]
    rw [← hl]
    unfold vadd
    apply List.ext_getElem
    · simp
    · intro i h1 h2; simp
  have hfe : full'.ell = scaleEll k full.ell := by
    rw [F.solved.ell, F'.solved.ell, F.prep.hopt, F'.prep.hopt, T.sel, hmm, allAp_vscale, allAm_vscale,
      ellOf_scale _ k hk]
  obtain ⟨r1, r2, r3, r4, r5⟩ := T.results F F' rfl ho (by rw [hfe]; exact pe_scale k hk.ne' (energies_scale k _)) rfl
  subst r1
  refine ⟨r2, r3, r4, r5, ?_, ?_, by rw [F'.cweights, F.cweights, hW]⟩
  · have e1 : c.ell = full.ell.permute ind' := by rw [F.solved.result]; rfl
    have e2 : c'.ell = full'.ell.permute ind' := by rw [F'.solved.result]; rfl
    rw [e1, e2, hfe, scaleEll_permute]
  · have e1 : c.mean = full.mean := by rw [F.solved.result]; rfl
    have e2 : c'.mean = full'.mean := by rw [F'.solved.result]; rfl
    rw [e1, e2, F.solved.head.mean, F'.solved.head.mean]
    show meanOf p'.opt.twodim p'.opt.notrend p'.ed.lor p'.nm m' = scaleMean k (meanOf p.opt.twodim p.opt.notrend p.ed.lor p.nm m)
    rw [F.prep.hopt, F'.prep.hopt, T.lor, T.nm, hmm, meanOf_scale]

theorem passW_range (N : Num) (p : RobProblem) (k : ℕ) : ∀ w ∈ passW N p k, 0 ≤ w ∧ w ≤ 1 := by
  intro w hw
  cases k with
  | zero =>
    simp only [passW, List.mem_map] at hw
    obtain ⟨_, -, rfl⟩ := hw
    norm_num
  | succ k =>
    simp only [passW, List.mem_map] at hw
    obtain ⟨x, -, rfl⟩ := hw
    exact WFun.weight_range _ _

/-- C82: the weights are one number between 0 and 1 per usable sample, all 1 for ordinary least squares. -/
theorem C82_weights (E : Env) (t : TimeArg) (u : Series) (v : Option Series) (lat : Option ℝ) (opts : Dict PyVal)
    (R : Ready E t u v) (hnd : opts.keys.Nodup) (c : Coef) (h : solve E t u v lat opts = .ok c)
    (tn : List Fl) (htn : normalizeTime E.dt64 t.arr c.opt.epoch = .ok tn) :
    c.weights.length = (samples tn (sampleValues u.data (v.map Series.data))).length ∧
    (∀ w ∈ c.weights, 0 ≤ w ∧ w ≤ 1) ∧
    ((∃ x, requested opts "method" = some x ∧ IsStr x "ols") → ∀ w ∈ c.weights, w = 1) := by
  obtain ⟨opt, p, tn0, constit, m, W, rf, full, o, ind, F⟩ := solve_facts R h
  have hc := F.copt
  subst hc
  cases Except.ok.inj (F.prep.init.time.symm.trans htn)
  obtain ⟨hl, s2, s3⟩ := F.samples R
  rw [F.cweights, ← usable_samples _ _ _ hl]
  cases hme : c.opt.method with
  | ols =>
    have hfit := F.solved.fit
    unfold stageFit at hfit
    rw [F.prep.hopt, hme] at hfit
    simp only [Except.ok.injEq, Prod.mk.injEq] at hfit
    obtain ⟨-, rfl, -⟩ := hfit
    have h1 : ∀ w ∈ p.ed.t.map fun _ => (1 : ℝ), w = 1 := by
      intro w hw
      obtain ⟨_, -, rfl⟩ := List.mem_map.1 hw
      rfl
    refine ⟨by rw [s2]; simp, fun w hw => ?_, fun _ => h1⟩
    rw [h1 w hw]; norm_num
  | robust kw =>
    obtain ⟨a, r, ha, hr, rfl, rfl, rfl⟩ := F.robust_fit hme
    obtain ⟨wf, e, n, -, -, rfl, -, -, -, -, -, hend⟩ := robustfit_spec _ _ _ _ _ _ hr
    have hh := F.prep.height R.ht R.hu R.hv
    have hw : ∃ k, e.w = passW E.num (robProblem E.num a wf p.nm p.B (xraw p.ed)) k := by
      cases hend with
      | worse h hq hw hr hs' hi => exact ⟨_, hw⟩
      | small h hw hr hi0 hi => exact ⟨_, hw⟩
      | exhausted h hw hr hq => exact ⟨_, hw⟩
    obtain ⟨k, hk⟩ := hw
    show e.w.length = _ ∧ (∀ w ∈ e.w, _) ∧ _
    rw [hk]
    refine ⟨by rw [passW_length _ _ _ _ _ _ hh, s3]; simp, passW_range _ _ _, ?_⟩
    rintro ⟨x, hx, hs⟩
    have := (getOpt_requests _ hnd _ _ F.hopt).ols x hx ((eqStr_iff _ _).2 hs)
    rw [hme] at this
    cases this

end

end UTide.Props
