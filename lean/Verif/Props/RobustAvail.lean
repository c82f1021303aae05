import Verif.Props.RobustCi
import Verif.Props.SixExample

/-!
# C138: when a robust analysis can have confidence intervals

Observations that the robust fit has given weight zero are no use for the intervals: these can be computed exactly when
the observations of non-zero weight determine the model.
-/

namespace UTide.Props

open UTide Classical

noncomputable section

/-- The time `τ` carries a usable sample that `coef` gives a non-zero weight. -/
def WeighedTime (c : Coef) (tn : List Fl) (u : Series) (v : Option Series) (τ : ℝ) : Prop :=
  ∃ (j : ℕ) (w : ℝ), (sampleTimes tn u v)[j]? = some τ ∧ c.weights[j]? = some w ∧ w ≠ 0

/-- The observations of non-zero weight determine the model, and the number of observations is not that of the
parameters. -/
structure Determined (c : Coef) (tn : List Fl) (u : Series) (v : Option Series) : Prop where
  separated : Separated c none v.isSome (WeighedTime c tn u v)
  number : (sampleTimes tn u v).length ≠ numPar c

section
variable {E : Env} {t : TimeArg} {u : Series} {v : Option Series} {lat : Option ℝ} {opts : Dict PyVal}
  {c : Coef} {opt : Opt} {p : Prep} {tn : List Fl} {constit : Constit} {m : List ℂ} {W : List ℝ}
  {rf : Option RobOut} {full : Coef} {o : Order} {ind : List ℕ}

theorem Facts.weighedTime (F : Facts E t u v lat opts c opt p tn constit m W rf full o ind) (R : Ready E t u v)
    (w : Fin p.B.length → ℝ) (hW : W = List.ofFn w) (τ : ℝ) :
    WeighedTime c tn u v τ ↔ ∃ j : Fin p.B.length, w j ≠ 0 ∧ p.ed.t[j.val]? = some τ := by
  have hT : sampleTimes tn u v = p.ed.t := (F.samples R).2.1.symm
  unfold WeighedTime
  rw [hT, F.cweights, hW]
  constructor
  · rintro ⟨j, x, h1, h2, h3⟩
    have hj : j < p.B.length := by
      by_contra h
      rw [List.getElem?_eq_none (by simpa using not_lt.1 h)] at h2
      cases h2
    rw [List.getElem?_ofFn, dif_pos hj] at h2
    cases h2
    exact ⟨⟨j, hj⟩, h3, h1⟩
  · rintro ⟨j, h1, h2⟩
    exact ⟨j, w j, h2, by rw [List.getElem?_ofFn, dif_pos j.isLt], h1⟩

theorem Facts.row_time (F : Facts E t u v lat opts c opt p tn constit m W rf full o ind) (j : Fin p.B.length) :
    ∃ τ, p.ed.t[j.val]? = some τ ∧ p.B[j] = rowAt p τ := by
  have hj : j.val < p.ed.t.length := by rw [F.t_length]; exact j.isLt
  refine ⟨p.ed.t[j.val], List.getElem?_eq_getElem hj, ?_⟩
  have h : p.B[j.val]? = (p.ed.t.map (rowAt p))[j.val]? := by rw [← F.B_eq]
  rw [List.getElem?_map, List.getElem?_eq_getElem hj, List.getElem?_eq_getElem j.isLt] at h
  exact Option.some.inj h

/-- What the samples of non-zero weight must do. -/
theorem Facts.weighted_separated (F : Facts E t u v lat opts c opt p tn constit m W rf full o ind) (R : Ready E t u v)
    (hnd : opts.keys.Nodup) (hk : AllKept c) (hinf : p.infer = none) (w : Fin p.B.length → ℝ) (hW : W = List.ofFn w)
    (hw : ∀ j, 0 ≤ w j) :
    ((weighted w (designM p.nm p.B)).conjTranspose * weighted w (designM p.nm p.B)).det ≠ 0 ↔
      Separated c none v.isSome (WeighedTime c tn u v) := by
  constructor
  · intro hd
    have hi := (weighted_det p.nm p.B F.prep.rows w hw).1 hd
    refine ⟨(F.perm_names R hnd hk).nodup_iff.2 (F.nodup hinf (indep_of_weighted p.nm p.B F.prep.rows w hd)), ?_⟩
    intro P M mean slope hT hs hz
    have hs' : opt.notrend = true → slope = 0 := by rw [← F.copt]; exact hs
    obtain ⟨hP, hM⟩ := F.tiedBy hnd P M (by rw [hinf]; exact hT)
    have h0 := hi (nameCoef p.sel (!opt.notrend) P M mean (slope * (p.ed.lor : ℂ)))
      (by rw [F.prep.nm]; exact (nameCoef_blocks F.prep.aligned _ _ _ _ _).length) (by
        intro j hj
        obtain ⟨τ, hτ, hr⟩ := F.row_time j
        rw [hr, F.row_curve R hnd hk (by rw [hinf]; rfl) P M mean slope hP hM hs' τ (List.mem_of_getElem? hτ)]
        exact hz τ ((F.weighedTime R w hW τ).2 ⟨j, hj, hτ⟩))
    have hn := (F.noRefs hinf).2.2.1
    refine ⟨h0 _ (by simp [nameCoef]), ?_, ?_⟩
    · cases hnt : opt.notrend with
      | true => exact hs' hnt
      | false =>
        have := h0 (slope * (p.ed.lor : ℂ)) (by simp [nameCoef, hnt])
        rcases mul_eq_zero.1 this with h | h
        · exact h
        · exact absurd (by exact_mod_cast h) (F.lorNonzero hnt)
    · intro n hn'
      rw [(F.perm_names R hnd hk).mem_iff, hn] at hn'
      exact ⟨h0 _ (by simp only [nameCoef, List.mem_append, List.mem_map]; exact .inl (.inl (.inl (.inl (.inl ⟨n, hn', rfl⟩))))),
        h0 _ (by simp only [nameCoef, List.mem_append, List.mem_map]; exact .inl (.inl (.inl (.inl (.inr ⟨n, hn', rfl⟩)))))⟩
  · intro hsep
    rw [weighted_det p.nm p.B F.prep.rows w hw]
    have hn : p.sel.name.Nodup := (F.perm_names R hnd hk).nodup_iff.1 hsep.names
    intro x hx hz
    obtain ⟨P, M, mean, slope, h1, h2, h3, rfl⟩ := F.exists_coef hn x hx
    obtain ⟨z1, z2, z3⟩ := hsep.indep P M mean slope (by
        have := F.tiedRotary hnd P M h1 h2
        rwa [hinf] at this) (by rw [F.copt]; exact h3) (by
      intro τ hτ
      obtain ⟨j, hj, hjt⟩ := (F.weighedTime R w hW τ).1 hτ
      obtain ⟨τ', hτ', hr⟩ := F.row_time j
      cases Option.some.inj (hτ'.symm.trans hjt)
      rw [← F.row_curve R hnd hk (by rw [hinf]; rfl) P M mean slope h1 h2 h3 τ (List.mem_of_getElem? hjt), ← hr]
      exact hz j hj)
    have z4 : ∀ n ∈ p.sel.name, P n = 0 ∧ M n = 0 := fun n hn => z3 n ((F.perm_names R hnd hk).mem_iff.2 hn)
    have hnames := F.prep.aligned.names
    intro y hy
    unfold nameCoef at hy
    simp only [List.mem_append, List.mem_map, List.mem_singleton] at hy
    rcases hy with ((((⟨n, hn, rfl⟩ | ⟨n, hn, rfl⟩) | ⟨r, hr, rfl⟩) | ⟨r, hr, rfl⟩) | rfl) | hy
    · exact (z4 n (by rw [hnames]; simp [hn])).1
    · exact (z4 n (by rw [hnames]; simp [hn])).2
    · exact (z4 r.name (by rw [hnames]; simp only [List.mem_append, List.mem_map]; exact .inl (.inr ⟨r, hr, rfl⟩))).1
    · exact (z4 r.name (by rw [hnames]; simp only [List.mem_append, List.mem_map]; exact .inl (.inr ⟨r, hr, rfl⟩))).2
    · exact z1
    · split at hy
      · rw [List.mem_singleton] at hy
        rw [hy, z2, zero_mul]
      · simp at hy

/-- **C138**: intervals with a white noise floor can be had, whatever the method, if the observations of non-zero weight
determine the model. -/
theorem C138_available {opts' : Dict PyVal} (R : Ready E t u v) (hI : InvOk E.num.inv) (hM : MvnOk E.num.mvn)
    (hnd : opts.keys.Nodup) (hnd' : opts'.keys.Nodup)
    (heq : ∀ k, k ∉ intervalKeys → requested opts k = requested opts' k)
    (h : solve E t u v lat opts = .ok c) (hinf : readInfer c.opt.infer = .ok none) (hk : AllKept c)
    (htn : normalizeTime E.dt64 t.arr c.opt.epoch = .ok tn) (hdet : Determined c tn u v)
    (q' : Opt) (hq' : getOpt opts' v.isSome = .ok q') (hci : q'.confInt = true) (hwh : q'.white = true) :
    ∃ c', solve E t u v lat opts' = .ok c' := by
  obtain ⟨opt, p, tn', constit, m, W, rf, full, o, ind, F⟩ := solve_facts R h
  have hco := F.copt
  subst hco
  cases Except.ok.inj (F.prep.init.time.symm.trans htn)
  have hpi : p.infer = none := Except.ok.inj (F.prep.hinfer.symm.trans hinf)
  have hqq := getOpt_conf opts opts' hnd hnd' _ heq _ _ F.hopt hq'
  have hp' : PrepOk E q' t u v lat tn constit { p with opt := q' } := by
    rw [hqq]; exact prepOk_conf F.prep
  obtain ⟨w, hW, hw⟩ := F.weightsFin R hnd h
  have hd := (F.weighted_separated R hnd hk hpi w hW hw).2 hdet.separated
  have hne : (xraw p.ed).length ≠ p.nm := by
    have h1 := hdet.number
    rw [F.numPar_eq R hnd hk hpi] at h1
    rw [show (xraw p.ed).length = (sampleTimes tn u v).length by
      rw [(F.samples R).2.2]; simp [sampleTimes]]
    exact h1
  have hpo := F.prep.hopt
  obtain ⟨GH, hcov⟩ := covariances_weighted_total hI (confIn { p with opt := q' } m W) w hw hW _ (prep_paired hp' hpi) hd hne
  obtain ⟨ci, hconf⟩ := prep_confidence_of (m := m) (W := W) hM hp' hpi F.mlen hcov (.inl hwh)
  have hnd2 : q'.nodiagn = false := by
    rw [(getOpt_requests _ hnd' _ _ hq').diagn, hci]; rfl
  obtain ⟨c', hc'⟩ := finish_total F.solved q' hci hnd2 (by rw [hpo, hqq]) (by rw [hpo, hqq]) ci hconf
  refine ⟨c', ?_⟩
  obtain ⟨m', W', rf', c1, c2, o', hs'⟩ := (stageSolution_ok E _ c').1 hc'
  exact (solve_ok _ _ _ _ _ _ _).2 ⟨q', _, tn, constit, m', W', rf', c1, c2, o', hq', hp', hs'⟩

/-- **C138**, conversely: an analysis without inference that has intervals had observations of non-zero weight that
determine the model. -/
theorem C138_needed (R : Ready E t u v) (hI : InvOk E.num.inv) (hnd : opts.keys.Nodup)
    (h : solve E t u v lat opts = .ok c) (hinf : readInfer c.opt.infer = .ok none) (hk : AllKept c)
    (htn : normalizeTime E.dt64 t.arr c.opt.epoch = .ok tn) (hci : c.ci ≠ none) : Determined c tn u v := by
  obtain ⟨opt, p, tn', constit, m, W, rf, full, o, ind, F⟩ := solve_facts R h
  have hco := F.copt
  subst hco
  cases Except.ok.inj (F.prep.init.time.symm.trans htn)
  have hpi : p.infer = none := Except.ok.inj (F.prep.hinfer.symm.trans hinf)
  obtain ⟨w, hW, hw⟩ := F.weightsFin R hnd h
  rcases F.solved.ci with ⟨-, h2⟩ | ⟨-, ci, hc, -⟩
  · exfalso; apply hci
    rw [F.solved.result]; show full.ci.map _ = _; rw [h2]; rfl
  unfold confidence at hc
  simp only [bind_eq_ok, pure_eq_ok, Except.ok.injEq] at hc
  obtain ⟨pw, hpw, GH, hGH, -⟩ := hc
  obtain ⟨hne, hd, -⟩ := covariances_weighted hI (confIn p m W) w hw hW _ (F.paired hpi) hGH
  refine ⟨(F.weighted_separated R hnd hk hpi w hW hw).1 hd, ?_⟩
  rw [F.numPar_eq R hnd hk hpi, show (sampleTimes tn u v).length = (xraw p.ed).length by
      rw [(F.samples R).2.2]; simp [sampleTimes]]
  exact hne

end

/-! ## Non-vacuity -/

local notation "conj" => starRingEnd ℂ

/-- The normalising factor of the six residuals. -/
def sixK : ℝ := 0.6745 / (2 * 4.685 * Real.sqrt (1 / 2))

theorem sixK_pos : 0 < sixK := by
  have : 0 < Real.sqrt (1 / 2) := Real.sqrt_pos.2 (by norm_num)
  unfold sixK; positivity

theorem sixK_small : 3 * sixK < 1 := by
  have h : (1 / 2 : ℝ) ≤ Real.sqrt (1 / 2) := Real.le_sqrt_of_sq_le (by norm_num)
  unfold sixK
  rw [mul_div_assoc', div_lt_one (by linarith)]
  linarith

/-- The weight of a residual of size `r`. -/
def sixOmega (r : ℝ) : ℝ := (1 - (sixK * r) ^ 2) ^ 2

theorem sixOmega_pos (r : ℝ) (h0 : 0 ≤ r) (h3 : r ≤ 3) : 0 < sixOmega r := by
  have h1 := sixK_pos
  have h2 : sixK * r < 1 := by nlinarith [sixK_small]
  have h4 : 0 ≤ sixK * r := by positivity
  unfold sixOmega
  have : 0 < 1 - (sixK * r) ^ 2 := by nlinarith
  positivity

/-- The weights of the example. -/
def sixW : List ℝ := [sixOmega 1, sixOmega 1, sixOmega 2, sixOmega 2, sixOmega 3, sixOmega 3]

theorem six_weights (N : Num) (hN : NumOk N) (z : ℂ) (h1 : z ≠ conj z) (h2 : z + conj z ≠ 2) :
    ∃ out, robustfit N { robDefaults with maxit := 1 } 3 (sixX z) [1, -1, 3, -1, 0, 6] = .ok out ∧ out.w = sixW ∧
      dot [z, conj z, 1] out.b = 0 ∧ dot [1, 1, 1] out.b = 1 ∧ dot [conj z, z, 1] out.b = 3 := by
  obtain ⟨args, hargs⟩ : ∃ args : RobArgs, args = { robDefaults with maxit := 1 } := ⟨_, rfl⟩
  obtain ⟨p, hp⟩ : ∃ p, p = robProblem N args .bisquare 3 (sixX z) [1, -1, 3, -1, 0, 6] := ⟨_, rfl⟩
  have hfit : passFit N p 0 = N.lstsq (some args.rcond) 3 (sixX z) [1, -1, 3, -1, 0, 6] := by
    rw [hp]
    show N.lstsq _ _ _ _ = _
    congr 1
    · simp [robProblem, passW, sixX]
    · simp [robProblem, passW]
  obtain ⟨-, hl⟩ := hN.lstsq (some args.rcond) 3 (sixX z) [1, -1, 3, -1, 0, 6] (six_rows z) rfl
  obtain ⟨l1, -, l3⟩ := hl (by rw [hargs]; exact .inr le_rfl)
  rw [← hfit] at l1 l3
  obtain ⟨o1, o2, o3⟩ := six_opt z h1 h2 1 (-1) 3 (-1) 0 6 _ l1.optimal
  have hres : residual p (passFit N p 0).b = [1, -1, 2, -2, -3, 3] := by
    have : residual p (passFit N p 0).b = List.zipWith (fun r yi => yi - dot r (passFit N p 0).b) (sixX z) [1, -1, 3, -1, 0, 6] := by
      unfold residual; rw [hp]; rfl
    rw [this]
    simp only [sixX, List.zipWith_cons_cons, List.zipWith_nil_left, o1, o2, o3]
    norm_num
  have hpass : Passed N p 0 := by
    refine ⟨l3.2 ⟨six_indep z h1 h2, by simp [sixX]⟩, ⟨?_, by simp [hp, robProblem, WFun.usesMax]⟩, by omega⟩
    rintro ⟨-, h0⟩
    rw [hres, six_sigma] at h0
    norm_num at h0
  have hstep := (robStep_none N p _).2 ⟨hpass, rfl⟩
  have hw0 : passW N p 0 = ([1, -1, 3, -1, 0, 6] : List ℂ).map fun _ => (1 : ℝ) := by rw [hp]; rfl
  have hloop : robLoop N p args.maxit args.maxit 0 (([1, -1, 3, -1, 0, 6] : List ℂ).map fun _ => (1 : ℝ)) none =
      .ok ⟨(passOld N p 0).fit, passW N p 1, (passOld N p 0).resid, args.maxit⟩ := by
    rw [← hw0]
    have hm : args.maxit = 1 := by rw [hargs]
    rw [hm]
    unfold robLoop
    rw [hstep]
    rfl
  have hret := robustfit_returns N args 3 (sixX z) _ .bisquare _ (by rw [hargs]; rfl)
    (.inr ⟨by rw [hargs]; norm_num [WFun.tune, robDefaults], by
      rw [six_leverage N hN z h1 h2]
      intro l hl
      simp at hl
      rw [hl]; norm_num⟩) (by rw [← hp]; exact hloop)
  rw [← hargs]
  refine ⟨_, hret, ?_, ?_, ?_, ?_⟩
  · show passW N p 1 = _
    have hpw : passW N p 1 = (rNormed (residual p (passFit N p 0).b) p.rfac).map p.wf.weight := rfl
    rw [hpw, hres]
    have hr : p.rfac = List.replicate 6 (1 / (4.685 * Real.sqrt (1 / 2))) := by
      rw [hp]
      unfold robProblem
      dsimp only
      rw [six_leverage N hN z h1 h2, hargs]
      simp only [List.map_cons, List.map_nil, robDefaults, Option.getD_none, WFun.tune, List.replicate]
      norm_num
    have hpos : 0 < Real.sqrt (1 / 2) := Real.sqrt_pos.2 (by norm_num)
    have hn : ∀ (x : ℂ) (r : ℝ), ‖x‖ = r → r ≤ 3 →
        WFun.bisquare.weight (((1 / (4.685 * Real.sqrt (1 / 2)) : ℝ) : ℂ) * x / ((2 / 0.6745 : ℝ) : ℂ)) = sixOmega r := by
      intro x r hx h3
      have h0 : 0 ≤ r := by rw [← hx]; exact norm_nonneg _
      have e : ‖((1 / (4.685 * Real.sqrt (1 / 2)) : ℝ) : ℂ) * x / ((2 / 0.6745 : ℝ) : ℂ)‖ = sixK * r := by
        rw [norm_div, norm_mul, Complex.norm_real, Complex.norm_real, Real.norm_eq_abs, Real.norm_eq_abs,
          abs_of_pos (by positivity), abs_of_pos (by positivity), hx]
        unfold sixK
        field_simp
      show (if ‖_‖ < 1 then (1 : ℝ) else 0) * (1 - ‖_‖ ^ 2) ^ 2 = _
      rw [e, if_pos (by nlinarith [sixK_small, sixK_pos]), one_mul]
      rfl
    rw [hr]
    unfold rNormed
    rw [six_sigma]
    have hwf : p.wf = .bisquare := by rw [hp]; rfl
    rw [hwf]
    simp only [List.replicate, List.zipWith_cons_cons, List.zipWith_nil_left, List.map_cons, List.map_nil, sixW]
    rw [hn 1 1 (by simp) (by norm_num), hn (-1) 1 (by simp) (by norm_num), hn 2 2 (by simp) (by norm_num),
      hn (-2) 2 (by simp) (by norm_num), hn (-3) 3 (by simp) (by norm_num), hn 3 3 (by simp) (by norm_num)]
  · show dot [z, conj z, 1] (passFit N p 0).b = 0
    rw [o1]; norm_num
  · show dot [1, 1, 1] (passFit N p 0).b = 1
    rw [o2]; norm_num
  · show dot [conj z, z, 1] (passFit N p 0).b = 3
    rw [o3]; norm_num

/-- Options of a robust analysis with intervals. -/
def robCiOpts (kw : List (String × PyVal)) : Dict PyVal :=
  [("constit", .seq .list [.str "M2"]), ("conf_int", .str "linear"), ("trend", .bool false), ("nodal", .bool false),
   ("phase", .str "raw"), ("order_constit", .str "frequency"), ("epoch", .str "python"), ("method", .str "robust"),
   ("robust_kw", .dict false kw), ("white", .bool true)]

def robCiOpt (kw : List (String × PyVal)) : Opt := { ciOpt false true true with method := .robust kw }

theorem robCiOpts_read (kw : List (String × PyVal)) : getOpt (robCiOpts kw) false = .ok (robCiOpt kw) := by
  unfold robCiOpts
  kernel_rfl

theorem robCiOpts_requested (kw : List (String × PyVal)) (k : String) (hk : k ∉ intervalKeys) :
    requested (methodOpts "robust" kw) k = requested (robCiOpts kw) k := by
  simp only [intervalKeys, List.mem_cons, List.not_mem_nil, or_false, not_or] at hk
  obtain ⟨h1, h2, -⟩ := hk
  have e1 : ("conf_int" == k) = false := by simpa using Ne.symm h1
  have e2 : ("white" == k) = false := by simpa using Ne.symm h2
  unfold requested
  congr 1
  simp only [methodOpts, robCiOpts, List.find?, e1, e2]

/-- What is known about any robust run over the six samples with a single pass. -/
theorem six_facts {opts : Dict PyVal} {q : Opt} {c : Coef} (hopt : getOpt opts false = .ok q) (hq : LikeEx q)
    (hm : q.method = .robust sixKw)
    (h : solve idealEnv sixT (sixSeries (sixY 1 0)) none (some 45) opts = .ok c) :
    ∃ p constit m rf full o ind z,
      Facts idealEnv sixT (sixSeries (sixY 1 0)) none (some 45) opts c q p sixTn constit m sixW rf full o ind ∧
      z ≠ conj z ∧ z + conj z ≠ 2 ∧ p.nm = 3 ∧ p.infer = none ∧ p.B = sixX z ∧ dot [z, conj z, 1] m = 0 ∧
      dot [1, 1, 1] m = 1 ∧ dot [conj z, z, 1] m = 3 := by
  have R := six_ready (sixY 1 0) none (.inl rfl)
  obtain ⟨opt, p, tn, constit, m, W, rf, full, o, ind, F⟩ := solve_facts R h
  have hqq := Except.ok.inj (hopt.symm.trans F.hopt)
  subst hqq
  obtain ⟨z, p', hz, hz', hp'⟩ := six_prep (sixY 1 0) none (.inl rfl) q hq
  have htn : tn = sixTn := by
    have h1 := F.prep.init.time
    rw [hq.epoch, six_times] at h1
    exact (Except.ok.inj h1).symm
  subst htn
  have hpp : p = p' := Except.ok.inj (((stagePrep_ok _ _ _ _ _ _ _).2 ⟨_, _, F.prep⟩).symm.trans
    ((stagePrep_ok _ _ _ _ _ _ _).2 ⟨_, _, hp'.prep⟩))
  subst hpp
  obtain ⟨out, ho, hw, d1, d2, d3⟩ := six_weights idealNum idealNum_ok z hz hz'
  have hfit : stageFit idealEnv p = .ok (out.b, out.w, some out) := by
    unfold stageFit
    rw [hp'.prep.hopt, hm, hp'.B, hp'.nm, hp'.x]
    show ((readRobArgs sixKw robDefaults) >>= fun a => _) = _
    have h1 : readRobArgs sixKw robDefaults = .ok { robDefaults with maxit := 1 } := by
      unfold sixKw readRobArgs; rfl
    have h2 : sixValues (sixY 1 0) none = [1, -1, 3, -1, 0, 6] := by
      unfold sixValues
      rw [Option.map_none, (six_samples (sixY 1 0) (sixY 1 0)).1]
      simp [sixY, Matrix.cons_val]
    rw [h1, ok_bind, h2]
    show (robustfit idealNum _ 3 (sixX z) _ >>= _) = _
    rw [ho]
    rfl
  have hsame := Except.ok.inj (F.solved.fit.symm.trans hfit)
  simp only [Prod.mk.injEq] at hsame
  obtain ⟨rfl, rfl, rfl⟩ := hsame
  rw [hw] at F
  exact ⟨p, constit, out.b, _, full, o, ind, z, F, hz, hz', hp'.nm, by
    have := F.prep.hinfer; rw [hq.infer] at this; exact (Except.ok.inj this).symm, hp'.B, d1, d2, d3⟩

theorem six_T : sampleTimes sixTn (sixSeries (sixY 1 0)) none = [0, 0, 0.5, 0.5, 1, 1] :=
  six_usable (sixY 1 0) none (.inl rfl)

theorem six_U : sampleU sixTn (sixSeries (sixY 1 0)) none = [1, -1, 3, -1, 0, 6] := by
  unfold sampleU
  rw [usable_samples _ _ _ (six_length (sixY 1 0) none (.inl rfl)), Option.map_none, (six_samples (sixY 1 0) (sixY 1 0)).1]
  simp [sixY, Matrix.cons_val]

theorem sixW_ne (w : ℝ) (h : w ∈ sixW) : w ≠ 0 := by
  simp only [sixW, List.mem_cons, List.not_mem_nil, or_false] at h
  rcases h with rfl | rfl | rfl | rfl | rfl | rfl <;> exact (sixOmega_pos _ (by norm_num) (by norm_num)).ne'

/-- The robust run over the six samples, with intervals. -/
theorem six_robust_ci : ∃ c, IntervalRun idealEnv sixT (sixSeries (sixY 1 0)) none (some 45) (robCiOpts sixKw) c sixTn ∧
    c.opt = robCiOpt sixKw ∧ c.name = ["M2"] := by
  have R := six_ready (sixY 1 0) none (.inl rfl)
  obtain ⟨c0, H⟩ := six_run' 1 0 one_ne_zero
  obtain ⟨p, constit, m, rf, full, o, ind, z, F, hz, hz', hnm, hinf, hB, -⟩ := six_facts (methodOpts_robust sixKw)
    ⟨rfl, rfl, rfl, rfl, rfl⟩ rfl H.returned
  have hnd : (methodOpts "robust" sixKw).keys.Nodup := by decide
  have hd : Determined c0 sixTn (sixSeries (sixY 1 0)) none := by
    obtain ⟨w, hW, hw⟩ := F.weightsFin R hnd H.returned
    refine ⟨(F.weighted_separated R hnd H.kept hinf w hW hw).1 ?_, ?_⟩
    · rw [weighted_det p.nm p.B F.prep.rows w hw]
      intro x hx hzero
      rw [hnm] at hx
      refine six_indep z hz hz' x hx fun r hr => ?_
      rw [← hB] at hr
      obtain ⟨j, hj, rfl⟩ := List.mem_iff_getElem.1 hr
      refine hzero ⟨j, hj⟩ (sixW_ne _ ?_)
      rw [hW, List.mem_ofFn]
      exact ⟨_, rfl⟩
    · rw [F.numPar_eq R hnd H.kept hinf, hnm, six_T]
      simp
  have hnd' : (robCiOpts sixKw).keys.Nodup := by decide
  obtain ⟨c, hc⟩ := C138_available R idealNum_ok.inv idealNum_ok.mvn hnd hnd' (robCiOpts_requested sixKw) H.returned
    (by rw [H.opt]; rfl) H.kept (by rw [H.opt]; exact six_times) hd _ (robCiOpts_read sixKw) rfl rfl
  obtain ⟨p', constit', m', rf', full', o', ind', z', F', -⟩ := six_facts (robCiOpts_read sixKw)
    ⟨rfl, rfl, rfl, rfl, rfl⟩ rfl hc
  have hco : c.opt = robCiOpt sixKw := F'.copt
  have hk : AllKept c := .inl (.inr (.inl (.inl (by rw [hco]; rfl))))
  refine ⟨c, ⟨hc, hnd', by rw [hco]; rfl, by rw [hco]; rfl, by rw [hco]; rfl, hk, by rw [hco]; exact six_times⟩, hco, ?_⟩
  exact List.perm_singleton.1 ((C17_honoured idealEnv sixT _ none (some 45) (robCiOpts sixKw) R
      (by decide) .list (by simp) ["M2"] rfl rfl (.str "frequency") rfl c hc).1 (.inr ⟨_, rfl⟩))

/-- The curve is determined by the predictions. -/
theorem Reported.unique {c : Coef} {q q' : CurvePar} (h : Reported c q) (h' : Reported c q') (τ : ℝ) :
    linCurve c q τ = linCurve c q' τ := by
  have ht : normalizeTime idealEnv.dt64 (.float [.fin τ]) recAll.epoch = .ok [.fin τ] := by
    show (Except.ok (List.map _ _) : Except PyErr (List Fl)) = _
    congr 1
  have e := (h.predicts recAll ⟨rfl, rfl, rfl⟩ idealEnv (.float [.fin τ])).symm.trans
    (h'.predicts recAll ⟨rfl, rfl, rfl⟩ idealEnv (.float [.fin τ]))
  rw [ht] at e
  have e1 := Except.ok.inj e
  simp only [List.map_cons, List.map_nil, List.cons.injEq, and_true, Fl.toReal?, Option.map_some, Option.some.injEq,
    Complex.ofReal_inj] at e1
  exact e1

/-- Non-vacuity of C137 and C138: a robust analysis with weights other than one, and its intervals. -/
example : ∃ c ci q a b da dg, solve idealEnv sixT (sixSeries (sixY 1 0)) none (some 45) (robCiOpts sixKw) = .ok c ∧
    c.ci = some ci ∧ c.weights = sixW ∧ Reported c q ∧ Determined c sixTn (sixSeries (sixY 1 0)) none ∧
    (weightedMSM c [0, 0, 0.5, 0.5, 1, 1] [1, -1, 3, -1, 0, 6] sixW q =
      (2 * sixOmega 1 + 8 * sixOmega 2 + 18 * sixOmega 3) / 3) ∧
    WeightedBlue c [0, 0, 0.5, 0.5, 1, 1] sixW (fun q => q.X "M2") a ∧
    WeightedBlue c [0, 0, 0.5, 0.5, 1, 1] sixW (fun q => q.Y "M2") b ∧
    Propagated 0 ampOf ![q.X "M2", q.Y "M2"]
      ![Real.sqrt ((2 * sixOmega 1 + 8 * sixOmega 2 + 18 * sixOmega 3) / 3 * varSum sixW a),
        Real.sqrt ((2 * sixOmega 1 + 8 * sixOmega 2 + 18 * sixOmega 3) / 3 * varSum sixW b)] da ∧
    intervalAt ci 0 = some ⟨.fin (1.96 * da), .fin 0, .fin 0, .fin (1.96 * dg)⟩ := by
  have R := six_ready (sixY 1 0) none (.inl rfl)
  obtain ⟨c, H, hco, hname⟩ := six_robust_ci
  obtain ⟨p, constit, m, rf, full, o, ind, z, F, hz, hz', hnm, hinf, hB, d1, d2, d3⟩ := six_facts (robCiOpts_read sixKw)
    ⟨rfl, rfl, rfl, rfl, rfl⟩ rfl H.returned
  have hi : IndepColumns p.nm p.B := by rw [hnm, hB]; exact six_indep z hz hz'
  obtain ⟨q0, hq0, hx, -⟩ := F.reported R H.keys H.returned H.kept hinf hi
  obtain ⟨ci, q, hci, hq, -, hrow⟩ := C137_white R idealNum_ok.inv H (by rw [hco]; rfl)
  have hT : p.ed.t = [0, 0, 0.5, 0.5, 1, 1] := by rw [(F.samples R).2.1]; exact six_T
  have hval : [0, 0, 1, 1, 3, 3] = ([0, 0, 0.5, 0.5, 1, 1] : List ℝ).map (linCurve c q) := by
    have e : ([0, 0, 0.5, 0.5, 1, 1] : List ℝ).map (linCurve c q) = p.ed.t.map (linCurve c q0) := by
      rw [hT]
      exact List.map_congr_left fun τ _ => hq.unique hq0 τ
    rw [e]
    apply (List.map_injective_iff.2 Complex.ofReal_injective)
    rw [← hx]
    have h2 : p.opt.twodim = false := by rw [F.prep.hopt]; rfl
    unfold xmodOf
    rw [h2, hB]
    simp only [sixX, List.map_cons, List.map_nil, d1, d2, d3]
    simp
  have hw : c.weights = sixW := F.cweights
  rw [six_T, six_U, hw] at hrow
  have hms : weightedMSM c [0, 0, 0.5, 0.5, 1, 1] [1, -1, 3, -1, 0, 6] sixW q =
      (2 * sixOmega 1 + 8 * sixOmega 2 + 18 * sixOmega 3) / 3 := by
    unfold weightedMSM weightedResiduals residuals
    rw [← hval, F.numPar_eq R H.keys H.kept hinf, hnm]
    simp only [combine, sixW, List.zipWith_cons_cons, List.zipWith_nil_left, List.sum_cons, List.sum_nil, List.length_cons,
      List.length_nil]
    push_cast
    ring
  have hne : ![q.X "M2", q.Y "M2"] ≠ (0 : Fin 2 → ℝ) := by
    intro h0
    have hX : q.X "M2" = 0 := congrFun h0 0
    have hY : q.Y "M2" = 0 := congrFun h0 1
    simp only [List.map_cons, List.map_nil, List.cons.injEq, and_true] at hval
    have hs : q.slope = 0 := hq.adm (by rw [hco]; rfl)
    have e1 := hval.1
    have e2 := hval.2.2.1
    unfold linCurve at e1 e2
    rw [hname] at e1 e2
    simp only [List.map_cons, List.map_nil, hX, hY, hs, List.sum_cons, List.sum_nil] at e1 e2
    linarith
  have p1 := sixOmega_pos 1 (by norm_num) (by norm_num)
  have p2 := sixOmega_pos 2 (by norm_num) (by norm_num)
  have p3 := sixOmega_pos 3 (by norm_num) (by norm_num)
  obtain ⟨a, b, ha, hb, hpos, -⟩ := hrow _ hms.symm 0 "M2" (by rw [hname]; rfl)
  obtain ⟨da, dg, k1, -, k3⟩ := hpos (by positivity) hne
  exact ⟨c, ci, q, a, b, da, dg, H.returned, hci, hw, hq, C138_needed R idealNum_ok.inv H.keys H.returned H.infer H.kept H.time
    (by rw [hci]; simp), hms, ha, hb, k1, k3⟩

end

end UTide.Props
