import Verif.Lemmas.RobustTotal
import Verif.Props.SixExample
import Verif.Props.ReturnProps
import Verif.Props.WhiteProps

/-!
# Is the robust method available wherever ordinary least squares is? (C114)
-/

namespace UTide.Props

noncomputable section

open Classical

local notation "conj" => starRingEnd ℂ

/-! ## Specification -/

/-- Every entry of `robust_kw` is a documented keyword with a sensible value, the weight function one of `names`. -/
def SensibleKw (names : List String) (kw : List (String × PyVal)) : Prop :=
  ∀ k v, (k, v) ∈ kw →
    (k = "weight_function" ∧ ∃ s ∈ names, v = .str s) ∨
    (k = "tune" ∧ (v = .none ∨ ∃ q : ℚ, q ≠ 0 ∧ v = .num q)) ∨
    (k = "rcond" ∧ ∃ q : ℚ, v = .num q ∧ (q ≤ 0 ∨ 1 ≤ q)) ∨
    (k = "tol" ∧ ∃ q : ℚ, v = .num q) ∨
    (k = "maxit" ∧ ∃ n : ℕ, 2 ≤ n ∧ v = .num n)

/-- Two calls on the same record, without intervals and inference: the first by ordinary least squares, the second by the
robust method with keywords `kw`, otherwise with the same options. The first returns `c`. -/
structure MethodPair (E : Env) (t : TimeArg) (u : Series) (v : Option Series) (lat : Option ℝ)
    (opts opts' : Dict PyVal) (kw : List (String × PyVal)) (c : Coef) (tn : List Fl) : Prop where
  nodup : opts.keys.Nodup
  documented : Documented opts'
  same : ∀ k, k ≠ "method" → k ≠ "robust_kw" → requested opts k = requested opts' k
  ols : requested opts "method" = some (.str "ols")
  robust : requested opts' "method" = some (.str "robust")
  kw : ∃ b, requested opts' "robust_kw" = some (.dict b kw)
  noConf : requested opts' "conf_int" = some (.str "none")
  returned : solve E t u v lat opts = .ok c
  kept : AllKept c
  times : normalizeTime E.dt64 t.arr c.opt.epoch = .ok tn

/-- There are samples, and whichever of them is left out, the others determine the constituents. -/
def Redundant (c : Coef) (tn : List Fl) (u : Series) (v : Option Series) : Prop :=
  sampleTimes tn u v ≠ [] ∧ ∀ k, k < (sampleTimes tn u v).length → Separated c none v.isSome fun τ => τ ∈ (sampleTimes tn u v).eraseIdx k

/-- No curve of the constituents passes through more than half of the samples. -/
def Scattered (c : Coef) (tn : List Fl) (u : Series) (v : Option Series) : Prop :=
  ∀ (P M : String → ℂ) (mean slope : ℂ), (c.opt.notrend = true → slope = 0) →
    2 * ((usable tn u.data (v.map Series.data)).countP fun s => decide (s.2 = rotaryCurve c P M mean slope s.1)) ≤
      (usable tn u.data (v.map Series.data)).length

/-- C114 as one would expect it: where ordinary least squares returns and no sample is indispensable, the robust method
returns too, with any of the weight functions that work (C46). -/
def C114_full : Prop :=
  ∀ (E : Env) (_ : NumOk E.num) (t : TimeArg) (u : Series) (v : Option Series) (lat : Option ℝ)
    (opts opts' : Dict PyVal) (kw : List (String × PyVal)) (c : Coef) (tn : List Fl), Ready E t u v →
    MethodPair E t u v lat opts opts' kw c tn → SensibleKw ["bisquare", "cauchy", "fair", "talwar", "welsch"] kw →
    Redundant c tn u v → ∃ c', solve E t u v lat opts' = .ok c'

/-! ## The keywords -/

theorem readRobArgs_total (names : List String) (kw : List (String × PyVal)) (h : SensibleKw names kw) (a0 : RobArgs)
    (h1 : exactRcond (some a0.rcond)) (h2 : 2 ≤ a0.maxit) (h3 : ∀ q, a0.tune = some q → q ≠ 0) :
    ∃ a, readRobArgs kw a0 = .ok a ∧ exactRcond (some a.rcond) ∧ 2 ≤ a.maxit ∧ (∀ q, a.tune = some q → q ≠ 0) ∧
      ((∃ s, ("weight_function", PyVal.str s) ∈ kw) ∨ a0.wfName ∈ names → a.wfName ∈ names) := by
  induction kw generalizing a0 with
  | nil => exact ⟨a0, rfl, h1, h2, h3, by rintro (⟨s, hs⟩ | h); · simp at hs
                                          · exact h⟩
  | cons kv kw ih =>
    obtain ⟨k, v⟩ := kv
    have ht : SensibleKw names kw := fun k' v' hm => h k' v' (List.mem_cons_of_mem _ hm)
    have other : ∀ a1 : RobArgs, k ≠ "weight_function" → a1.wfName = a0.wfName → readRobArgs ((k, v) :: kw) a0 =
        readRobArgs kw a1 → exactRcond (some a1.rcond) → 2 ≤ a1.maxit → (∀ q, a1.tune = some q → q ≠ 0) →
        ∃ a, readRobArgs ((k, v) :: kw) a0 = .ok a ∧ exactRcond (some a.rcond) ∧ 2 ≤ a.maxit ∧
        (∀ q, a.tune = some q → q ≠ 0) ∧
        ((∃ s, ("weight_function", PyVal.str s) ∈ (k, v) :: kw) ∨ a0.wfName ∈ names → a.wfName ∈ names) := by
      intro a1 hk hw he g1 g2 g3
      obtain ⟨a, i1, i2, i3, i4, i5⟩ := ih ht a1 g1 g2 g3
      refine ⟨a, he.trans i1, i2, i3, i4, ?_⟩
      rintro (⟨s, hs⟩ | hn)
      · rcases List.mem_cons.1 hs with hs | hs
        · exact absurd (congrArg Prod.fst hs).symm hk
        · exact i5 (.inl ⟨s, hs⟩)
      · exact i5 (.inr (by rw [hw]; exact hn))
    rcases h k v List.mem_cons_self with ⟨rfl, s, hs, rfl⟩ | ⟨rfl, hv⟩ | ⟨rfl, q, rfl, hq⟩ | ⟨rfl, q, rfl⟩ | ⟨rfl, n, hn, rfl⟩
    · obtain ⟨a, i1, i2, i3, i4, i5⟩ := ih ht { a0 with wfName := s } h1 h2 h3
      exact ⟨a, i1, i2, i3, i4, fun _ => i5 (.inr hs)⟩
    · rcases hv with rfl | ⟨q, hq, rfl⟩
      · exact other { a0 with tune := none } (by decide) rfl rfl h1 h2 (by simp)
      · exact other { a0 with tune := some q } (by decide) rfl rfl h1 h2 (by
          intro q' hq'; cases hq'; exact hq)
    · exact other { a0 with rcond := q } (by decide) rfl rfl hq h2 h3
    · exact other { a0 with tol := q } (by decide) rfl rfl h1 h2 h3
    · refine other { a0 with maxit := n } (by decide) rfl ?_ h1 hn h3
      show (if (n : ℚ).den = 1 then readRobArgs kw { a0 with maxit := (n : ℚ).num.toNat } else .error .typeError) = _
      simp

/-! ## C114 -/

section
variable {E : Env} {t : TimeArg} {u : Series} {v : Option Series} {lat : Option ℝ} {opts : Dict PyVal}
  {c : Coef} {opt : Opt} {p : Prep} {tn : List Fl} {constit : Constit} {m : List ℂ} {W : List ℝ}
  {rf : Option RobOut} {full : Coef} {o : Order} {ind : List ℕ}

theorem rows_times (F : Facts E t u v lat opts c opt p tn constit m W rf full o ind) : p.B = p.ed.t.map (rowAt p) := by
  rw [F.prep.B]
  unfold rowAt
  rw [F.prep.hopt]

theorem PrepOk.with_method {opt : Opt} (hp : PrepOk E opt t u v lat tn constit p) (x : Method) :
    PrepOk E { opt with method := x } t u v lat tn constit { p with opt := { opt with method := x } } where
  init := ⟨hp.init.hlat, hp.init.shapes, hp.init.time, hp.init.edit⟩
  cons := hp.cons
  hinfer := hp.hinfer
  hsel := hp.hsel
  check := hp.check
  hopt := rfl
  nm := hp.nm
  B := hp.B

theorem free_tied (P M : String → ℂ) (td : Bool) : TiedRotary none td P M :=
  by
  constructor <;> intro s hs <;> cases hs

/-- Independent columns for some of the times. -/
theorem indep_times (F : Facts E t u v lat opts c opt p tn constit m W rf full o ind) (R : Ready E t u v)
    (hnd : opts.keys.Nodup) (hk : AllKept c) (hi : p.infer = none) (l : List ℝ) (hl : ∀ τ ∈ l, τ ∈ p.ed.t)
    (hsep : Separated c none v.isSome fun τ => τ ∈ l) : IndepColumns p.nm (l.map (rowAt p)) := by
  have hex : approxOf p.infer = false := by rw [hi]; rfl
  have hn : p.sel.name.Nodup := (F.perm_names R hnd hk).nodup_iff.1 hsep.names
  intro x hx hz
  obtain ⟨P, M, mean, slope, h1, h2, h3, rfl⟩ := F.exists_coef hn x hx
  obtain ⟨z1, z2, z3⟩ := hsep.indep P M mean slope (free_tied _ _ _) (by rw [F.copt]; exact h3) (by
    intro τ hτ
    rw [← F.row_curve R hnd hk hex P M mean slope h1 h2 h3 τ (hl τ hτ)]
    exact hz _ (List.mem_map_of_mem hτ))
  have z4 : ∀ n ∈ p.sel.name, P n = 0 ∧ M n = 0 := fun n hn => z3 n ((F.perm_names R hnd hk).mem_iff.2 hn)
  have hnames := F.prep.aligned.names
  intro y hy
  unfold nameCoef at hy
  simp only [List.mem_append, List.mem_map, List.mem_singleton] at hy
  rcases hy with ((((⟨n, hn, rfl⟩ | ⟨n, hn, rfl⟩) | ⟨r, hr, rfl⟩) | ⟨r, hr, rfl⟩) | rfl) | hy
  · exact (z4 n (by rw [hnames]; simp [hn])).1
  · exact (z4 n (by rw [hnames]; simp [hn])).2
  · exact (z4 r.name (by rw [hnames]; simp only [List.mem_append, List.mem_map]; exact .inl (.inr ⟨r, hr, rfl⟩))).1
  · exact (z4 r.name (by rw [hnames]; simp only [List.mem_append, List.mem_map]; exact .inl (.inr ⟨r, hr, rfl⟩))).2
  · exact z1
  · split at hy
    · rw [List.mem_singleton] at hy
      rw [hy, z2, zero_mul]
    · simp at hy

theorem noMajority_scattered (F : Facts E t u v lat opts c opt p tn constit m W rf full o ind) (R : Ready E t u v)
    (hnd : opts.keys.Nodup) (hk : AllKept c) (hi : p.infer = none) (hn : c.name.Nodup) (hs : Scattered c tn u v) :
    NoMajority p.nm p.B (xraw p.ed) := by
  have hex : approxOf p.infer = false := by rw [hi]; rfl
  have hn : p.sel.name.Nodup := (F.perm_names R hnd hk).nodup_iff.1 hn
  intro x hx
  obtain ⟨P, M, mean, slope, h1, h2, h3, rfl⟩ := F.exists_coef hn x hx
  obtain ⟨-, ht, hv⟩ := F.samples R
  have h := hs P M mean slope (by rw [F.copt]; exact h3)
  rw [rows_times F]
  have hrow := fun τ hτ => F.row_curve R hnd hk hex P M mean slope h1 h2 h3 τ hτ
  generalize nameCoef p.sel (!opt.notrend) P M mean (slope * (p.ed.lor : ℂ)) = b at hrow ⊢
  have hz : (p.ed.t.map (rowAt p)).zip (xraw p.ed) =
      (usable tn u.data (v.map Series.data)).map fun s => (rowAt p s.1, s.2) := by
    rw [hv, ht, List.map_map, List.zip, zipWith_map_same]
    rfl
  rw [hz, List.countP_map, hv, List.length_map]
  refine le_trans (le_of_eq ?_) h
  congr 1
  apply List.countP_congr
  intro s hs
  simp only [Function.comp, decide_eq_true_eq]
  rw [hrow s.1 (by rw [ht]; exact List.mem_map_of_mem hs)]

end

/-- C114, what holds: with the weight functions `cauchy`, `fair` and `welsch`, which never vanish, the robust method
returns if no curve passes through more than half of the samples. -/
theorem C114_partial (E : Env) (hN : NumOk E.num) (t : TimeArg) (u : Series) (v : Option Series) (lat : Option ℝ)
    (opts opts' : Dict PyVal) (kw : List (String × PyVal)) (c : Coef) (tn : List Fl) (R : Ready E t u v)
    (H : MethodPair E t u v lat opts opts' kw c tn) (hkw : SensibleKw ["cauchy", "fair", "welsch"] kw)
    (hwf : ∃ s, ("weight_function", PyVal.str s) ∈ kw) (hred : Redundant c tn u v) (hs : Scattered c tn u v) :
    ∃ c', solve E t u v lat opts' = .ok c' := by
  obtain ⟨opt, p, tn0, constit, m, W, rf, full, o, ind, F⟩ := solve_facts R H.returned
  have hc := F.copt
  subst hc
  cases Except.ok.inj (F.prep.init.time.symm.trans H.times)
  have hinf : p.infer = none := by
    have hr := getOpt_requests _ H.nodup _ _ F.hopt
    have := hr.infer _ ((H.same "infer" (by decide) (by decide)).trans H.documented.infer)
    have h1 := F.prep.hinfer
    rw [← Except.ok.inj this] at h1
    exact (Except.ok.inj h1).symm
  have hst : sampleTimes tn u v = p.ed.t := ((F.samples R).2.1).symm
  have hex : approxOf p.infer = false := by rw [hinf]; rfl
  have hlen := F.prep.height R.ht R.hu R.hv
  have hBt := rows_times F
  have hpos : 0 < p.ed.t.length := by rw [← hst]; exact List.length_pos_iff.2 hred.1
  obtain ⟨a, ha, hrc, hmax, htune, hname⟩ := readRobArgs_total _ kw hkw robDefaults (.inr le_rfl) (by decide)
    (by simp [robDefaults])
  have hname := hname (.inl hwf)
  obtain ⟨wf, hwf, hwf3⟩ : ∃ wf, WFun.ofName a.wfName = .ok wf ∧ (wf = .cauchy ∨ wf = .fair ∨ wf = .welsch) := by
    simp only [List.mem_cons, List.not_mem_nil, or_false] at hname
    rcases hname with h | h | h <;> rw [h]
    · exact ⟨.cauchy, rfl, .inl rfl⟩
    · exact ⟨.fair, rfl, .inr (.inl rfl)⟩
    · exact ⟨.welsch, rfl, .inr (.inr rfl)⟩
  have ht : a.tune.getD wf.tune ≠ 0 := by
    cases hq : a.tune with
    | none => rcases hwf3 with rfl | rfl | rfl <;> norm_num [WFun.tune]
    | some q => exact htune q hq
  have h0 : (0 : ℕ) < (sampleTimes tn u v).length := by rw [hst]; exact hpos
  obtain ⟨out, hout⟩ := robustfit_total E.num R.lstsq hN.pinv a wf hwf hwf3 hrc ht (by omega) p.nm p.B (xraw p.ed)
    F.prep.rows hlen (nameCoef p.sel (!c.opt.notrend) (fun _ => 0) (fun _ => 0) 1 (0 * (p.ed.lor : ℂ)))
    (by rw [F.prep.nm]; exact (nameCoef_blocks F.prep.aligned _ _ _ _ _).length) (by
      intro r hr
      rw [hBt, List.mem_map] at hr
      obtain ⟨τ, hτ, rfl⟩ := hr
      obtain ⟨q1, q2⟩ := F.tiedBy H.nodup (fun _ => 0) (fun _ => 0) (by rw [hinf]; exact free_tied _ _ _)
      rw [F.row_curve R H.nodup H.kept hex _ _ 1 0 q1 q2 (fun _ => rfl) τ hτ]
      unfold rotaryCurve
      simp) (by
      rw [← List.length_pos_iff, ← hlen, hBt, List.length_map]; exact hpos) (by
      intro j hj
      rw [hBt, List.length_map] at hj
      rw [hBt, List.eraseIdx_map]
      refine indep_times F R H.nodup H.kept hinf _ (fun τ hτ => List.mem_of_mem_eraseIdx hτ) ?_
      have := hred.2 j (by rw [hst]; exact hj)
      rwa [hst] at this)
    (noMajority_scattered F R H.nodup H.kept hinf (hred.2 0 h0).names hs)
  obtain ⟨opt', hopt'⟩ := C74_accepted opts' H.documented v.isSome
  have ho := getOpt_method opts opts' H.nodup H.documented.nodup _ H.same _ _ F.hopt hopt'
  have hr' := getOpt_requests _ H.documented.nodup _ _ hopt'
  obtain ⟨b, hb⟩ := H.kw
  obtain ⟨b2, kw2, hk2, hrob⟩ := hr'.robust _ H.robust (by simp [PyVal.eqStr])
  rw [hb] at hk2
  simp only [Option.some.injEq, PyVal.dict.injEq] at hk2
  obtain ⟨rfl, rfl⟩ := hk2
  have hci : opt'.confInt = false := by
    have := hr'.conf _ H.noConf
    generalize opt'.confInt = x, opt'.linci = y at this
    cases this with
    | linear h => simp [PyVal.eqStr] at h
    | mc _ h => simp [PyVal.eqStr] at h
    | none => rfl
  have hdg : opt'.nodiagn = true := by rw [hr'.diagn, hci]; rfl
  rw [hrob] at ho
  have hp' := PrepOk.with_method F.prep (.robust kw)
  rw [← ho] at hp'
  have hord := F.solved.order
  rw [F.prep.hopt] at hord
  have hord' : readOrder opt'.ordercnstit = .ok o := by rw [ho]; exact hord
  have hfit : stageFit E { p with opt := opt' } = .ok (out.b, out.w, some out) := by
    unfold stageFit
    dsimp only
    rw [hrob]
    simp only [ha, hout, ok_bind]
    rfl
  obtain ⟨c3, ind3, h3⟩ : ∃ c3 ind3, orderIndex E (rawCoef { p with opt := opt' } out.b out.w (some out)) o = .ok (c3, ind3) := by
    cases o with
    | PE => exact ⟨_, _, rfl⟩
    | frequency => exact ⟨_, _, rfl⟩
    | SNR =>
      exfalso
      obtain ⟨s, hs, -⟩ := F.solved.indSNR rfl
      rcases F.solved.SNR with ⟨-, h, -⟩ | ⟨h, -⟩
      · rw [h] at hs; cases hs
      · rw [F.prep.hopt] at h
        rw [ho] at hdg
        have hdg : c.opt.nodiagn = true := hdg
        rw [h] at hdg; cases hdg
    | names l =>
      have := F.solved.indNames l rfl
      rw [F.solved.name] at this
      refine ⟨rawCoef { p with opt := opt' } out.b out.w (some out), ind, ?_⟩
      unfold orderIndex
      simp only [show (rawCoef { p with opt := opt' } out.b out.w (some out)).name = p.sel.name from rfl, this, ok_bind]
      rfl
  exact ⟨_, (solve_ok _ _ _ _ _ _ _).2 ⟨opt', _, tn, constit, _, _, _, _, _, o, hopt', hp', hfit, by
    unfold stageConf; dsimp only; rw [hci]; rfl, by unfold stageDiagn; dsimp only; rw [hdg]; rfl, hord', (reorder_ok _ _ _ _).2 ⟨c3, ind3, h3, rfl⟩⟩⟩

/-! ## A record of zeros -/

theorem sigmaHat_zeros (x : List ℂ) (h : ∀ z ∈ x, z = 0) : sigmaHat x = 0 := by
  have hx : x = x.map (((0 : ℝ) : ℂ) * ·) := by
    refine (List.map_id x).symm.trans (List.map_congr_left fun z hz => ?_)
    rw [h z hz]; simp
  rw [hx, sigmaHat_map_mul]
  simp

/-- `robustfit` does not return for a record of zeros: all residuals of the first fit vanish, so does `sigma_hat`, and
the weights are 0/0. -/
theorem robustfit_zeros (N : Num) (hl : LstsqOk N.lstsq) (a : RobArgs) (ha : exactRcond (some a.rcond)) (ncol : ℕ)
    (X : List (List ℂ)) (y : List ℂ) (hX : ∀ r ∈ X, r.length = ncol) (hy : X.length = y.length)
    (hf : a.wfName ≠ "ols") (hz : ∀ x ∈ y, x = 0) (out : RobOut) : robustfit N a ncol X y ≠ .ok out := by
  intro h
  obtain ⟨wf, e, n, hwf, -, -, hn', -, -, hsome, hpass, hend⟩ := robustfit_spec N a ncol X y out h
  have hols : wf ≠ .ols := by
    rintro rfl
    unfold WFun.ofName at hwf
    split_ifs at hwf <;> simp_all
  have hp0 : Passed N (robProblem N a wf ncol X y) 0 := by
    by_cases h0 : n = 0
    · subst h0
      cases hend with
      | worse h hp => exact hp
      | small h => omega
      | exhausted h hw hr hp => exact hp
    · exact hpass 0 (by omega)
  refine hp0.2.1.1 ⟨hols, sigmaHat_zeros _ ?_⟩
  have hb := passFit_min N hl a ha wf ncol X y hX hy 0 (List.replicate ncol 0) (by simp)
  generalize (passFit N (robProblem N a wf ncol X y) 0).b = b at hb
  have h1 : passW N (robProblem N a wf ncol X y) 0 = y.map fun _ => (1 : ℝ) := rfl
  have hrep : ∀ r : List ℂ, dot r (List.replicate ncol 0) = 0 := by
    intro r
    unfold dot
    refine List.sum_eq_zero fun x hx => ?_
    obtain ⟨i, hi, rfl⟩ := List.mem_iff_getElem.1 hx
    simp
  rw [h1] at hb
  have key : ∀ b, wcost (y.map fun _ => (1 : ℝ)) X y b = cost X y b := by
    intro b
    have := cost_weighted (y.map fun _ => (1 : ℝ)) X y b
    obtain ⟨o1, o2⟩ := ones_mul X y hy
    rw [← this, o1, o2]
  rw [key, key] at hb
  have hc0 : cost X y (List.replicate ncol 0) = 0 := by
    unfold cost
    refine List.sum_eq_zero fun x hx => ?_
    obtain ⟨i, hi, rfl⟩ := List.mem_iff_getElem.1 hx
    rw [List.getElem_zipWith, hrep, hz _ (List.getElem_mem _)]
    simp
  rw [hc0] at hb
  intro z hz'
  obtain ⟨i, hi, rfl⟩ := List.mem_iff_getElem.1 hz'
  have hi' : i < X.length := by
    simp only [residual, robProblem, List.length_zipWith] at hi; omega
  have := cost_unit_zero X y b hy hb i hi'
  simp only [residual, robProblem, List.getElem_zipWith]
  rw [this, sub_self]

/-- C114: a robust analysis of a record of zeros does not return, whatever the weight function (other than `ols`). (In
floating-point arithmetic, too: the fit and its residuals are exactly zero, the weights NaN, and the next call of `lstsq`
raises LinAlgError.) -/
theorem C114_zeros (E : Env) (t : TimeArg) (u : Series) (v : Option Series) (lat : Option ℝ) (opts : Dict PyVal)
    (R : Ready E t u v) (hnd : opts.keys.Nodup) (kw : List (String × PyVal)) (hr : AsksRobust opts kw)
    (hkw : SensibleKw ["bisquare", "cauchy", "fair", "talwar", "welsch"] kw)
    (hz : ∀ x, some x ∈ sampleValues u.data (v.map Series.data) → x = 0) (c : Coef) :
    solve E t u v lat opts ≠ .ok c := by
  intro h
  obtain ⟨opt, p, tn, constit, m, W, rf, full, o, ind, F⟩ := solve_facts R h
  obtain ⟨a, r, ha, hfit, -, -, -⟩ := F.robust_fit (F.method_robust hnd hr)
  obtain ⟨a', ha', hrc, -, -, hname⟩ := readRobArgs_total _ kw hkw robDefaults (.inr le_rfl) (by decide)
    (by simp [robDefaults])
  cases Except.ok.inj (ha.symm.trans ha')
  have hname := hname (.inr (by simp [robDefaults]))
  refine robustfit_zeros E.num R.lstsq a hrc p.nm p.B (xraw p.ed) F.prep.rows (F.prep.height R.ht R.hu R.hv) ?_ ?_ r hfit
  · rintro h
    rw [h] at hname
    simp at hname
  · intro x hx
    obtain ⟨h1, -, h3⟩ := F.samples R
    rw [h3, usable_samples _ _ _ h1, List.mem_map] at hx
    obtain ⟨s, hs, rfl⟩ := hx
    obtain ⟨i, -, hi⟩ := (mem_samples _ _ _).1 hs
    exact hz _ (List.mem_of_getElem? hi)

/-! ## Non-vacuity -/

theorem methodOpts_documented (me : String) (kw : List (String × PyVal)) : Documented (methodOpts me kw) where
  nodup := by simp [methodOpts, Dict.keys]
  names := by
    intro k hk
    simp only [methodOpts, Dict.keys, List.map_cons, List.map_nil, List.mem_cons, List.not_mem_nil, or_false] at hk
    rcases hk with rfl | rfl | rfl | rfl | rfl | rfl | rfl | rfl | rfl <;> decide
  conf := ⟨"none", rfl, by decide⟩
  nodal := ⟨_, .off, rfl, rfl⟩
  phase := ⟨_, .off, rfl, rfl⟩
  method := ⟨_, rfl⟩
  robust := ⟨_, _, rfl⟩
  trend := ⟨_, rfl⟩
  white := ⟨_, rfl⟩
  verbose := ⟨_, rfl⟩
  rayleigh := ⟨_, rfl⟩
  infer := rfl
  order := .inr (.inr (.inl rfl))

/-- The run by ordinary least squares on the record with two samples at each time. -/
theorem six_ols (y : Fin 6 → ℝ) : ∃ c, solve idealEnv sixT (sixSeries y) none (some 45) (methodOpts "ols" []) = .ok c ∧
    DayRun none c := by
  have R := six_ready y none (.inl rfl)
  have hus := six_usable y none (.inl rfl)
  obtain ⟨c, hc⟩ : ∃ c, solve idealEnv sixT (sixSeries y) none (some 45) (methodOpts "ols" []) = .ok c := by
    refine solve_total idealEnv _ _ none 45 _ _ sixTn (.names ["M2"]) .frequency methodOpts_ols rfl rfl rfl rfl rfl
      ⟨by simpa using M2_known, .inl (by simp)⟩ rfl (.inr rfl) (six_shapes y none (.inl rfl)) R.ht R.hu R.hv six_times ?_
      (fun k => by simp [nodalSingular, exOpt]) (fun h => by simp [exOpt] at h)
    intro h0
    rw [h0] at hus
    simp at hus
  refine ⟨c, hc, ?_⟩
  obtain ⟨opt, p, tn, constit, m, W, rf, full, o, ind, F⟩ := solve_facts R hc
  have hopt : opt = exOpt false := Except.ok.inj (F.hopt.symm.trans methodOpts_ols)
  subst hopt
  refine ⟨F.copt, ?_, ?_, ?_, ?_⟩
  · left; right; left; left; rw [F.copt]; rfl
  · have htn : tn = sixTn := Except.ok.inj (F.prep.init.time.symm.trans six_times)
    subst htn
    rw [F.creftime]
    obtain ⟨-, -, -, -, h5⟩ := editData_usable _ _ _ (F.samples R).1 _ F.prep.init.edit
    rw [six_finite, hus] at h5
    unfold timeStats at h5
    by_cases he : isEqui [0, 0, 0.5, 0.5, 1, 1]
    · simp only [he, if_true] at h5
      have h6 := congrArg Prod.fst (Except.ok.inj h5)
      exact h6.symm.trans (by show (0.5 : ℝ) * (0 + 1) = 0.5; norm_num)
    · simp only [he] at h5
      have h6 := congrArg Prod.fst (Except.ok.inj h5)
      exact h6.symm.trans (by show (0.5 : ℝ) * (0 + 1) = 0.5; norm_num)
  · rw [F.clat]
    exact (Option.some.inj F.prep.init.hlat).symm
  · exact List.perm_singleton.1 ((C17_honoured idealEnv sixT _ none (some 45) (methodOpts "ols" []) R
      (by decide) .list (by simp) ["M2"] rfl rfl (.str "frequency") rfl c hc).1 (.inr ⟨_, rfl⟩))

theorem six_pair (y : Fin 6 → ℝ) (kw : List (String × PyVal)) {c : Coef}
    (hc : solve idealEnv sixT (sixSeries y) none (some 45) (methodOpts "ols" []) = .ok c) (D : DayRun none c) :
    MethodPair idealEnv sixT (sixSeries y) none (some 45) (methodOpts "ols" []) (methodOpts "robust" kw) kw c sixTn where
  nodup := by decide
  documented := methodOpts_documented _ _
  same := fun k h1 h2 => methodOpts_requested _ _ _ _ k h1 h2
  ols := rfl
  robust := rfl
  kw := ⟨_, rfl⟩
  noConf := rfl
  returned := hc
  kept := D.kept
  times := by rw [D.opt]; exact six_times

theorem six_redundant (y : Fin 6 → ℝ) {c : Coef} (D : DayRun none c) : Redundant c sixTn (sixSeries y) none := by
  have hs : sampleTimes sixTn (sixSeries y) none = [0, 0, 0.5, 0.5, 1, 1] := six_usable y none (.inl rfl)
  unfold Redundant
  rw [hs]
  refine ⟨by simp, fun k hk => day_separated D _ _ ?_ ?_ ?_⟩ <;>
  · simp only [List.length_cons, List.length_nil] at hk
    interval_cases k <;> simp

theorem six_zero_values (x : ℂ) (hx : some x ∈ sampleValues (sixSeries fun _ => 0).data none) : x = 0 := by
  simp only [sampleValues, sixSeries, List.map_map, List.mem_map, List.mem_ofFn, Function.comp_apply] at hx
  obtain ⟨_, ⟨_, rfl⟩, h⟩ := hx
  have : some (((0 : ℝ) : ℂ)) = some x := h
  rw [← Option.some.inj this]
  simp

/-- C114 as one would expect it does not hold: six zeros. -/
theorem C114_false : ¬ C114_full := by
  intro h
  obtain ⟨c, hc, D⟩ := six_ols fun _ => 0
  have R := six_ready (fun _ => 0) none (.inl rfl)
  obtain ⟨c', hc'⟩ := h idealEnv idealNum_ok sixT (sixSeries fun _ => 0) none (some 45) _ _ [] c sixTn R (six_pair _ [] hc D)
    (by intro k v hm; simp at hm) (six_redundant _ D)
  refine C114_zeros idealEnv sixT (sixSeries fun _ => 0) none (some 45) _ R (by decide) []
    ⟨⟨"robust", by decide, rfl⟩, _, rfl⟩ (by intro k v hm; simp at hm) ?_ c' hc'
  intro x hx
  exact six_zero_values x hx

/-- C114: with two different values at each time the robust method returns. -/
example : ∃ c', solve idealEnv sixT (sixSeries (sixY 1 0)) none (some 45)
    (methodOpts "robust" [("weight_function", .str "cauchy")]) = .ok c' := by
  obtain ⟨c, hc, D⟩ := six_ols (sixY 1 0)
  refine C114_partial idealEnv idealNum_ok sixT (sixSeries (sixY 1 0)) none (some 45) _ _ _ c sixTn
    (six_ready _ none (.inl rfl)) (six_pair _ [("weight_function", .str "cauchy")] hc D) ?_ ⟨_, List.mem_singleton.2 rfl⟩
    (six_redundant _ D) ?_
  · intro k v hm
    simp only [List.mem_singleton, Prod.mk.injEq] at hm
    exact .inl ⟨hm.1, "cauchy", by simp, hm.2⟩
  · intro P M mean slope hs
    have hl := six_length (sixY 1 0) none (.inl rfl)
    rw [usable_samples _ _ _ hl, Option.map_none, (six_samples (sixY 1 0) (sixY 1 0)).1]
    have two : ∀ (f : ℝ → ℂ) (τ : ℝ) (a b : ℂ) (l : List (ℝ × ℂ)), a ≠ b →
        ((τ, a) :: (τ, b) :: l).countP (fun s => decide (s.2 = f s.1)) ≤ 1 + l.countP fun s => decide (s.2 = f s.1) := by
      intro f τ a b l hab
      rw [List.countP_cons, List.countP_cons]
      by_cases ha : a = f τ
      · have hb : b ≠ f τ := fun h => hab (ha.trans h.symm)
        simp [ha, hb, add_comm]
      · by_cases hb : b = f τ <;> simp [ha, hb, add_comm]
    have key : ∀ f : ℝ → ℂ, ([(0, (sixY 1 0 0 : ℂ)), (0, (sixY 1 0 1 : ℂ)), (0.5, (sixY 1 0 2 : ℂ)),
        (0.5, (sixY 1 0 3 : ℂ)), (1, (sixY 1 0 4 : ℂ)), (1, (sixY 1 0 5 : ℂ))] : List (ℝ × ℂ)).countP
        (fun s => decide (s.2 = f s.1)) ≤ 3 := by
      intro f
      have e1 : (sixY 1 0 0 : ℂ) ≠ sixY 1 0 1 := by
        intro h
        have h : 1 * (1 : ℝ) + 0 = 1 * (-1) + 0 := Complex.ofReal_injective h
        norm_num at h
      have e2 : (sixY 1 0 2 : ℂ) ≠ sixY 1 0 3 := by
        intro h
        have h : 1 * (3 : ℝ) + 0 = 1 * (-1) + 0 := Complex.ofReal_injective h
        norm_num at h
      have e3 : (sixY 1 0 4 : ℂ) ≠ sixY 1 0 5 := by
        intro h
        have h : 1 * (0 : ℝ) + 0 = 1 * (6) + 0 := Complex.ofReal_injective h
        norm_num at h
      have k3 := two f 1 _ _ [] e3
      have k2 := two f 0.5 _ _ [(1, (sixY 1 0 4 : ℂ)), (1, (sixY 1 0 5 : ℂ))] e2
      have k1 := two f 0 _ _ [(0.5, (sixY 1 0 2 : ℂ)), (0.5, (sixY 1 0 3 : ℂ)), (1, (sixY 1 0 4 : ℂ)), (1, (sixY 1 0 5 : ℂ))] e1
      rw [List.countP_nil] at k3
      omega
    have := key (rotaryCurve c P M mean slope)
    simp only [List.length_cons, List.length_nil]
    omega

/-- C114: a record of zeros is not accepted. -/
example : ∀ c, solve idealEnv sixT (sixSeries fun _ => 0) none (some 45)
    (methodOpts "robust" [("weight_function", .str "cauchy")]) ≠ .ok c :=
  C114_zeros idealEnv sixT (sixSeries fun _ => 0) none (some 45) _ (six_ready (fun _ => 0) none (.inl rfl)) (by decide) _
    ⟨⟨"robust", by decide, rfl⟩, _, rfl⟩ (by
      intro k v hm
      simp only [List.mem_singleton, Prod.mk.injEq] at hm
      exact .inl ⟨hm.1, "cauchy", by simp, hm.2⟩) (by
      intro x hx
      exact six_zero_values x hx)

end

end UTide.Props
