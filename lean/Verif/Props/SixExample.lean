import Verif.Props.RobustScale
import Verif.Props.RobustFalse

/-!
# A robust run

Two observations at each of the times 0, 0.5 and 1, M2 only, raw phases, no nodal corrections, no trend, default weight
function (bisquare), one iteration.
-/

namespace UTide.Props

noncomputable section

open Classical

local notation "conj" => starRingEnd ℂ

def sixTn : List Fl := [.fin 0, .fin 0, .fin 0.5, .fin 0.5, .fin 1, .fin 1]
def sixT : TimeArg := ⟨[6], .float sixTn, []⟩

def sixSeries (y : Fin 6 → ℝ) : Series := ⟨[6], (List.ofFn y).map fun x => ⟨.fin x, false⟩⟩

def SixV (v : Option Series) : Prop := v = none ∨ ∃ y, v = some (sixSeries y)

section
variable (y : Fin 6 → ℝ) (v : Option Series)

theorem six_ready (hv : SixV v) : Ready idealEnv sixT (sixSeries y) v :=
  idealReady _ _ _ (by simp [TimeArg.WF, TimeArr.length, sixT, sixTn]) (by simp [Series.WF, sixSeries]) (by
    rintro w rfl
    rcases hv with h | ⟨z, h⟩
    · cases h
    · cases h; simp [Series.WF, sixSeries])

theorem six_times : normalizeTime idealEnv.dt64 sixT.arr (.str "python") = .ok sixTn := by
  show (Except.ok (sixTn.map _) : Except PyErr (List Fl)) = _
  congr 1

theorem six_finite : finiteTimes sixTn = [0, 0, 0.5, 0.5, 1, 1] := by
  simp [finiteTimes, sixTn, Fl.toReal?]

theorem six_samples (y' : Fin 6 → ℝ) :
    samples sixTn (sampleValues (sixSeries y).data none) =
      [(0, (y 0 : ℂ)), (0, (y 1 : ℂ)), (0.5, (y 2 : ℂ)), (0.5, (y 3 : ℂ)), (1, (y 4 : ℂ)), (1, (y 5 : ℂ))] ∧
    samples sixTn (sampleValues (sixSeries y).data (some (sixSeries y').data)) =
      [(0, ⟨y 0, y' 0⟩), (0, ⟨y 1, y' 1⟩), (0.5, ⟨y 2, y' 2⟩), (0.5, ⟨y 3, y' 3⟩), (1, ⟨y 4, y' 4⟩), (1, ⟨y 5, y' 5⟩)] := by
  constructor
  · simp [samples, sampleValues, sixSeries, sixTn, Fl.toReal?, Cell.value?]
  · simp [samples, sampleValues, sixSeries, sixTn, Fl.toReal?, Cell.value?]

theorem six_length (hv : SixV v) : SameLength sixTn (sixSeries y).data (v.map Series.data) := by
  refine ⟨by simp [sixTn, sixSeries], fun w hw => ?_⟩
  rcases hv with rfl | ⟨z, rfl⟩
  · simp at hw
  · simp only [Option.map_some, Option.some.injEq] at hw; subst hw; simp [sixTn, sixSeries]

theorem six_shapes (hv : SixV v) : GoodShapes sixT (sixSeries y) v := by
  refine ⟨rfl, rfl, ?_⟩
  rintro w rfl
  rcases hv with h | ⟨z, h⟩
  · cases h
  · cases h; rfl

theorem six_usable (hv : SixV v) :
    (usable sixTn (sixSeries y).data (v.map Series.data)).map Prod.fst = [0, 0, 0.5, 0.5, 1, 1] := by
  rw [usable_samples _ _ _ (six_length y v hv)]
  rcases hv with rfl | ⟨z, rfl⟩
  · rw [Option.map_none, (six_samples y y).1]; rfl
  · rw [Option.map_some, (six_samples y z).2]; rfl

/-- The six values. -/
def sixValues : List ℂ := (samples sixTn (sampleValues (sixSeries y).data (v.map Series.data))).map Prod.snd

def sixX (z : ℂ) : List (List ℂ) :=
  [[z, conj z, 1], [z, conj z, 1], [1, 1, 1], [1, 1, 1], [conj z, z, 1], [conj z, z, 1]]

/-- The prepared problem of the example. -/
structure SixPrep (q : Opt) (z : ℂ) (p : Prep) : Prop where
  prep : PrepOk idealEnv q sixT (sixSeries y) v (some 45) sixTn (.names ["M2"]) p
  B : p.B = sixX z
  nm : p.nm = 3
  x : xraw p.ed = sixValues y v

theorem six_prep (hv : SixV v) (q : Opt) (hq : LikeEx q) :
    ∃ z p, z ≠ conj z ∧ z + conj z ≠ 2 ∧ SixPrep y v q z p := by
  have R := six_ready y v hv
  have hus := six_usable y v hv
  have hne : usable sixTn (sixSeries y).data (v.map Series.data) ≠ [] := by
    intro h0; rw [h0] at hus; simp at hus
  have hlen := six_length y v hv
  obtain ⟨ed, hed⟩ := editData_total sixTn (sixSeries y).data (v.map Series.data) hlen hne
  obtain ⟨-, h2, h3, -, h5⟩ := editData_usable _ _ _ hlen _ hed
  rw [hus] at h2 h5
  have href : ed.tref = 0.5 := by
    rw [six_finite] at h5
    unfold timeStats at h5
    by_cases he : isEqui [0, 0, 0.5, 0.5, 1, 1]
    · simp only [he, if_true] at h5
      have h6 := congrArg Prod.fst (Except.ok.inj h5)
      exact h6.symm.trans (by show (0.5 : ℝ) * (0 + 1) = 0.5; norm_num)
    · simp only [he] at h5
      have h6 := congrArg Prod.fst (Except.ok.inj h5)
      exact h6.symm.trans (by show (0.5 : ℝ) * (0 + 1) = 0.5; norm_num)
  obtain ⟨z, m0, m5, m1, hne1, hne2⟩ := m2_values
  have hrow : ∀ τ, modelRow q.flags ed.tref 45 ed.lor (!q.notrend) (approxOf none)
      (m2Sel ed.tref) τ = [m2 τ, conj (m2 τ), 1] := by
    intro τ
    have hm : utE q.flags ed.tref 45 τ (linFreqs ed.tref 47) 47 = m2 τ := by
      unfold m2 nameBasis
      have h47 : constitNames.idxOf "M2" = 47 := by decide +kernel
      rw [h47, hq.flags, href]
    unfold modelRow rowNR m2Sel
    simp only [List.zipWith_cons_cons, List.zipWith_nil_left, hm, hq.notrend]
    simp
  have hB : ed.t.map (modelRow q.flags ed.tref 45 ed.lor (!q.notrend) (approxOf none)
      (m2Sel ed.tref)) = sixX z := by
    rw [h2]
    simp only [List.map_cons, List.map_nil, hrow, m0, m5, m1, map_one, Complex.conj_conj, sixX]
  have hnm : numCols (!q.notrend) (m2Sel ed.tref) = 3 := by
    rw [hq.notrend]; rfl
  refine ⟨z, ⟨q, none, ed, 45, m2Sel ed.tref, _, _⟩, hne1, hne2, ?_, hB, hnm, ?_⟩
  · refine ⟨⟨rfl, six_shapes y v hv, by rw [hq.epoch]; exact six_times, hed⟩, by rw [hq.cnstit]; rfl,
      by rw [hq.infer]; rfl, m2_sel _ _, ?_, rfl, rfl, rfl⟩
    unfold checkMatrix
    rw [hq.flags, hq.notrend]
    rfl
  · rw [h3, usable_samples _ _ _ hlen]; rfl

/-- A run with the example options returns as soon as the fit does. -/
theorem six_returns (hv : SixV v) (opts : Dict PyVal) (q : Opt) (hopt : getOpt opts v.isSome = .ok q) (hq : LikeEx q)
    (hci : q.confInt = false) (hnd : q.nodiagn = true) (ho : q.ordercnstit = .str "frequency")
    (hfit : ∀ z p, z ≠ conj z → z + conj z ≠ 2 → SixPrep y v q z p → ∃ m W rf, stageFit idealEnv p = .ok (m, W, rf)) :
    ∃ co, solve idealEnv sixT (sixSeries y) v (some 45) opts = .ok co := by
  obtain ⟨z, p, hz, hz', hp⟩ := six_prep y v hv q hq
  obtain ⟨m, W, rf, hf⟩ := hfit z p hz hz' hp
  have hpo := hp.prep.hopt
  obtain ⟨c', ind, h1⟩ : ∃ c' ind, orderIndex idealEnv (rawCoef p m W rf) .frequency = .ok (c', ind) := ⟨_, _, rfl⟩
  refine ⟨_, (solve_ok _ _ _ _ _ _ _).2 ⟨q, p, _, _, m, W, rf, rawCoef p m W rf, rawCoef p m W rf, .frequency, hopt,
    hp.prep, hf, ?_, ?_, ?_, (reorder_ok _ _ _ _).2 ⟨c', ind, h1, rfl⟩⟩⟩
  · unfold stageConf; rw [hpo, hci]; rfl
  · unfold stageDiagn; rw [hpo, hnd]; rfl
  · rw [hpo, ho]; rfl

end

/-! ## The fit -/

/-- A curve through three given values. -/
theorem six_interp (z : ℂ) (h1 : z ≠ conj z) (h2 : z + conj z ≠ 2) (a b c : ℂ) : ∃ m : List ℂ, m.length = 3 ∧
    dot [z, conj z, 1] m = a ∧ dot [1, 1, 1] m = b ∧ dot [conj z, z, 1] m = c := by
  have h1' : z - conj z ≠ 0 := sub_ne_zero.2 h1
  have h2' : z + conj z - 2 ≠ 0 := sub_ne_zero.2 h2
  obtain ⟨S, hS⟩ : ∃ S, S * (z + conj z - 2) = a + c - 2 * b := ⟨_, div_mul_cancel₀ _ h2'⟩
  obtain ⟨D, hD⟩ : ∃ D, D * (z - conj z) = a - c := ⟨_, div_mul_cancel₀ _ h1'⟩
  refine ⟨[(S + D) / 2, (S - D) / 2, b - S], rfl, ?_, ?_, ?_⟩
  · simp only [dot_cons, dot_nil_left]; linear_combination (1 / 2 : ℂ) * hS + (1 / 2 : ℂ) * hD
  · simp only [dot_cons, dot_nil_left]; ring
  · simp only [dot_cons, dot_nil_left]; linear_combination (1 / 2 : ℂ) * hS - (1 / 2 : ℂ) * hD

theorem pair_cost (x y f : ℂ) : ‖x - f‖ ^ 2 + ‖y - f‖ ^ 2 = 2 * ‖f - (x + y) / 2‖ ^ 2 + ‖x - y‖ ^ 2 / 2 := by
  simp only [norm_sq_re, Complex.sub_re, Complex.sub_im, Complex.add_re, Complex.add_im, Complex.div_ofNat_re,
    Complex.div_ofNat_im]
  ring

/-- The best curve goes through the means of the pairs. -/
theorem six_opt (z : ℂ) (h1 : z ≠ conj z) (h2 : z + conj z ≠ 2) (a b c d e f : ℂ) (m : List ℂ)
    (hm : ∀ m', m'.length = 3 → cost (sixX z) [a, b, c, d, e, f] m ≤ cost (sixX z) [a, b, c, d, e, f] m') :
    dot [z, conj z, 1] m = (a + b) / 2 ∧ dot [1, 1, 1] m = (c + d) / 2 ∧ dot [conj z, z, 1] m = (e + f) / 2 := by
  obtain ⟨m', hl, k1, k2, k3⟩ := six_interp z h1 h2 ((a + b) / 2) ((c + d) / 2) ((e + f) / 2)
  have key : ∀ x, cost (sixX z) [a, b, c, d, e, f] x = 2 * ‖dot [z, conj z, 1] x - (a + b) / 2‖ ^ 2 +
      2 * ‖dot [1, 1, 1] x - (c + d) / 2‖ ^ 2 + 2 * ‖dot [conj z, z, 1] x - (e + f) / 2‖ ^ 2 +
      (‖a - b‖ ^ 2 / 2 + ‖c - d‖ ^ 2 / 2 + ‖e - f‖ ^ 2 / 2) := by
    intro x
    unfold sixX
    rw [cost_cons, cost_cons, cost_cons, cost_cons, cost_cons, cost_cons, cost_nil_left]
    linear_combination pair_cost a b (dot [z, conj z, 1] x) + pair_cost c d (dot [1, 1, 1] x) +
      pair_cost e f (dot [conj z, z, 1] x)
  have h := hm m' hl
  rw [key, key, k1, k2, k3] at h
  simp only [sub_self, norm_zero] at h
  have n1 := sq_nonneg ‖dot [z, conj z, 1] m - (a + b) / 2‖
  have n2 := sq_nonneg ‖dot [1, 1, 1] m - (c + d) / 2‖
  have n3 := sq_nonneg ‖dot [conj z, z, 1] m - (e + f) / 2‖
  have z1 : ‖dot [z, conj z, 1] m - (a + b) / 2‖ ^ 2 = 0 := by linarith
  have z2 : ‖dot [1, 1, 1] m - (c + d) / 2‖ ^ 2 = 0 := by linarith
  have z3 : ‖dot [conj z, z, 1] m - (e + f) / 2‖ ^ 2 = 0 := by linarith
  have fin : ∀ w : ℂ, ‖w‖ ^ 2 = 0 → w = 0 := fun w hw => by simpa using hw
  exact ⟨sub_eq_zero.1 (fin _ z1), sub_eq_zero.1 (fin _ z2), sub_eq_zero.1 (fin _ z3)⟩

theorem six_rows (z : ℂ) : ∀ r ∈ sixX z, r.length = 3 := by simp [sixX]

theorem six_indep (z : ℂ) (h1 : z ≠ conj z) (h2 : z + conj z ≠ 2) : IndepColumns 3 (sixX z) := by
  intro m hm hz
  refine quad_indep z h1 h2 m hm fun r hr => hz r ?_
  simp only [sixX, List.mem_cons, List.not_mem_nil, or_false] at hr ⊢
  tauto

theorem six_leverage (N : Num) (hN : NumOk N) (z : ℂ) (h1 : z ≠ conj z) (h2 : z + conj z ≠ 2) :
    leverage N 3 (sixX z) = [1 / 2, 1 / 2, 1 / 2, 1 / 2, 1 / 2, 1 / 2] := by
  obtain ⟨-, hp⟩ := hN.pinv 3 (sixX z) (six_rows z)
  have hd : ∀ (r : List ℂ) (j : ℕ), (List.zipWith (fun xji (prow : List ℂ) => xji * prow.getD j 0) r
      (N.pinv 3 (sixX z))).sum = dot r ((N.pinv 3 (sixX z)).map fun row => row.getD j 0) := by
    intro r j; unfold dot; rw [List.zipWith_map_right]
  have key := fun j hj => six_opt z h1 h2 _ _ _ _ _ _ _ ((hp j hj).optimal)
  have k0 := (key 0 (by simp [sixX])).1
  have k1 := (key 1 (by simp [sixX])).1
  have k2 := (key 2 (by simp [sixX])).2.1
  have k3 := (key 3 (by simp [sixX])).2.1
  have k4 := (key 4 (by simp [sixX])).2.2
  have k5 := (key 5 (by simp [sixX])).2.2
  unfold leverage
  simp only [hd]
  simp only [sixX, List.zipIdx_cons, List.zipIdx_nil, List.map_cons, List.map_nil, zero_add, Nat.reduceAdd]
  rw [show ([[z, conj z, 1], [z, conj z, 1], [1, 1, 1], [1, 1, 1], [conj z, z, 1], [conj z, z, 1]] : List (List ℂ)) =
    sixX z from rfl, k0, k1, k2, k3, k4, k5]
  norm_num

theorem six_robust (N : Num) (hN : NumOk N) (z : ℂ) (h1 : z ≠ conj z) (h2 : z + conj z ≠ 2) (a b c d e f : ℂ)
    (args : RobArgs) (hw : args.wfName = "bisquare") (hr : exactRcond (some args.rcond)) (ht : args.tune = none)
    (hm : args.maxit = 1)
    (hs : sigmaHat [(a - b) / 2, (b - a) / 2, (c - d) / 2, (d - c) / 2, (e - f) / 2, (f - e) / 2] ≠ 0) :
    ∃ out, robustfit N args 3 (sixX z) [a, b, c, d, e, f] = .ok out := by
  set p := robProblem N args .bisquare 3 (sixX z) [a, b, c, d, e, f] with hp
  have hfit : passFit N p 0 = N.lstsq (some args.rcond) 3 (sixX z) [a, b, c, d, e, f] := by
    show N.lstsq _ _ _ _ = _
    congr 1
    · simp [hp, robProblem, passW, sixX]
    · simp [hp, robProblem, passW]
  obtain ⟨-, hl⟩ := hN.lstsq (some args.rcond) 3 (sixX z) [a, b, c, d, e, f] (six_rows z) rfl
  obtain ⟨l1, -, l3⟩ := hl hr
  rw [← hfit] at l1 l3
  obtain ⟨o1, o2, o3⟩ := six_opt z h1 h2 a b c d e f _ l1.optimal
  have hres : residual p (passFit N p 0).b =
      [(a - b) / 2, (b - a) / 2, (c - d) / 2, (d - c) / 2, (e - f) / 2, (f - e) / 2] := by
    show List.zipWith _ (sixX z) [a, b, c, d, e, f] = _
    simp only [sixX, List.zipWith_cons_cons, List.zipWith_nil_left, o1, o2, o3]
    simp only [List.cons.injEq, and_true]
    exact ⟨by ring, by ring, by ring, by ring, by ring, by ring⟩
  have hpass : Passed N p 0 := by
    refine ⟨l3.2 ⟨six_indep z h1 h2, by simp [sixX]⟩, ⟨?_, by simp [hp, robProblem, WFun.usesMax]⟩, by omega⟩
    rintro ⟨-, h0⟩
    rw [hres] at h0
    exact hs h0
  have hstep := (robStep_none N p _).2 ⟨hpass, rfl⟩
  have hloop : robLoop N p args.maxit args.maxit 0 ([a, b, c, d, e, f].map fun _ => (1 : ℝ)) none =
      .ok ⟨(passOld N p 0).fit, passW N p 1, (passOld N p 0).resid, args.maxit⟩ := by
    rw [hm]
    unfold robLoop
    rw [show robStep N p 0 ([a, b, c, d, e, f].map fun _ => (1 : ℝ)) none = _ from hstep]
    rfl
  refine ⟨_, robustfit_returns N args 3 (sixX z) _ .bisquare _ (by rw [hw]; rfl)
    (.inr ⟨by rw [ht]; norm_num [WFun.tune], ?_⟩) hloop⟩
  rw [six_leverage N hN z h1 h2]
  intro l hl
  simp at hl
  rw [hl]; norm_num

/-! ## The runs -/

def sixKw : List (String × PyVal) := [("maxit", .num 1)]

/-- The facts used below about an example run. -/
structure SixRun (y : Fin 6 → ℝ) (c : Coef) : Prop where
  returned : solve idealEnv sixT (sixSeries y) none (some 45) (methodOpts "robust" sixKw) = .ok c
  opt : c.opt = { exOpt false with method := .robust sixKw }
  kept : AllKept c
  name : c.name = ["M2"]

theorem six_run (y : Fin 6 → ℝ)
    (hs : sigmaHat [((y 0 : ℂ) - y 1) / 2, ((y 1 : ℂ) - y 0) / 2, ((y 2 : ℂ) - y 3) / 2, ((y 3 : ℂ) - y 2) / 2,
      ((y 4 : ℂ) - y 5) / 2, ((y 5 : ℂ) - y 4) / 2] ≠ 0) : ∃ c, SixRun y c := by
  have R := six_ready y none (.inl rfl)
  obtain ⟨c, hc⟩ := six_returns y none (.inl rfl) (methodOpts "robust" sixKw) _ (methodOpts_robust _)
    ⟨rfl, rfl, rfl, rfl, rfl⟩ rfl rfl rfl (by
      intro z p hz hz' hp
      obtain ⟨out, hout⟩ := six_robust idealEnv.num idealNum_ok z hz hz' (y 0) (y 1) (y 2) (y 3) (y 4) (y 5)
        { robDefaults with maxit := 1 } rfl (.inr le_rfl) rfl rfl hs
      refine ⟨out.b, out.w, some out, ?_⟩
      unfold stageFit
      rw [hp.prep.hopt, hp.B, hp.nm, hp.x]
      show ((readRobArgs sixKw robDefaults) >>= fun a => _) = _
      have h1 : readRobArgs sixKw robDefaults = .ok { robDefaults with maxit := 1 } := by
        unfold sixKw readRobArgs; rfl
      have h2 : sixValues y none = [(y 0 : ℂ), (y 1 : ℂ), (y 2 : ℂ), (y 3 : ℂ), (y 4 : ℂ), (y 5 : ℂ)] := by
        unfold sixValues
        rw [Option.map_none, (six_samples y y).1]; rfl
      rw [h1, ok_bind, h2, hout]
      rfl)
  obtain ⟨opt, p, tn, constit, m, W, rf, full, o, ind, F⟩ := solve_facts R hc
  have hopt := Except.ok.inj ((methodOpts_robust sixKw).symm.trans F.hopt)
  have hco : c.opt = { exOpt false with method := .robust sixKw } := F.copt.trans hopt.symm
  refine ⟨c, hc, hco, .inl (.inr (.inl (.inl (by rw [hco]; rfl)))), ?_⟩
  exact List.perm_singleton.1 ((C17_honoured idealEnv sixT _ none (some 45) (methodOpts "robust" sixKw) R
      (by decide) .list (by simp) ["M2"] rfl rfl (.str "frequency") rfl c hc).1 (.inr ⟨_, rfl⟩))

theorem six_sigma : sigmaHat [1, -1, 2, -2, -3, 3] = 2 / 0.6745 := by
  have hc : cmedian [1, -1, 2, -2, -3, 3] = 0 := by
    rw [cmedian_eq _ [-3, -2, -1, 1, 2, 3] ?_ ?_]
    · norm_num [midOf]
    · exact List.perm_iff_count.2 fun a => by simp only [List.count_cons, List.count_nil]; omega
    · simp [lexLE]; norm_num
  unfold sigmaHat
  rw [hc]
  have : ([1, -1, 2, -2, -3, 3] : List ℂ).map (fun z => ‖z - 0‖) = [1, 1, 2, 2, 3, 3] := by simp
  rw [this, median_eq [1, 1, 2, 2, 3, 3] [1, 1, 2, 2, 3, 3] (List.Perm.refl _) (by norm_num)]
  norm_num [middle]

/-- The record with a factor and an offset. -/
def sixY (k s : ℝ) (i : Fin 6) : ℝ := k * ![1, -1, 3, -1, 0, 6] i + s

theorem six_run' (k s : ℝ) (hk : k ≠ 0) : ∃ c, SixRun (sixY k s) c := by
  apply six_run
  have h := sigmaHat_map_mul k [1, -1, 2, -2, -3, 3]
  rw [six_sigma] at h
  have e : [((sixY k s 0 : ℂ) - sixY k s 1) / 2, ((sixY k s 1 : ℂ) - sixY k s 0) / 2,
      ((sixY k s 2 : ℂ) - sixY k s 3) / 2, ((sixY k s 3 : ℂ) - sixY k s 2) / 2,
      ((sixY k s 4 : ℂ) - sixY k s 5) / 2, ((sixY k s 5 : ℂ) - sixY k s 4) / 2] =
      ([1, -1, 2, -2, -3, 3] : List ℂ).map ((k : ℂ) * ·) := by
    simp only [sixY, List.map_cons, List.map_nil, List.cons.injEq, and_true]
    refine ⟨?_, ?_, ?_, ?_, ?_, ?_⟩ <;> · push_cast; simp [Matrix.cons_val]; try ring
  rw [e, h]
  positivity

theorem six_transformed (k s k' s' : ℝ) (f : ℝ → ℂ → ℂ)
    (h : ∀ i τ, f τ (sixY k s i : ℝ) = (sixY k' s' i : ℝ)) :
    Transformed f sixTn (sixSeries (sixY k s)) none (sixSeries (sixY k' s')) none := by
  intro i τ _
  have key : ∀ y : Fin 6 → ℝ, (sampleValues (sixSeries y).data none)[i]? =
      if hi : i < 6 then some (some ((y ⟨i, hi⟩ : ℝ) : ℂ)) else none := by
    intro y
    simp only [sampleValues, sixSeries, List.map_map, List.getElem?_map, List.getElem?_ofFn]
    split <;> rfl
  rw [Option.map_none, key, key]
  split
  · rw [Option.map_some, Option.map_some, h]
  · rfl

/-- C81: the units reversed and doubled, and ten added. -/
example : ∃ c c' mean, solve idealEnv sixT (sixSeries (sixY 1 0)) none (some 45) (methodOpts "robust" sixKw) = .ok c ∧
    solve idealEnv sixT (sixSeries (sixY (-2) 10)) none (some 45) (methodOpts "robust" sixKw) = .ok c' ∧
    c'.weights = c.weights ∧ c.mean = .one mean none ∧ c'.mean = .one (-2 * mean + 10) none := by
  obtain ⟨c, H⟩ := six_run' 1 0 one_ne_zero
  obtain ⟨c', H'⟩ := six_run' (-2) 10 (by norm_num)
  have hR := fun y => six_ready y none (.inl rfl)
  obtain ⟨h1, -, -, ⟨mean, slope, h2, h3⟩, -⟩ := C81_equivariant idealEnv sixT (sixSeries (sixY 1 0))
    (sixSeries (sixY (-2) 10)) none none (some 45) (methodOpts "robust" sixKw) (hR _) (hR _) rfl (by decide) sixKw
    ⟨⟨"robust", by decide, rfl⟩, false, rfl⟩ ⟨by decide, by simp [sixKw]⟩ c c' H.returned H'.returned H.kept
    (by rw [H.name]; simp) none (by rw [H.opt]; rfl) (by simp) sixTn (by rw [H.opt]; exact six_times) (-2) (by norm_num)
    (fun _ => 0) (fun _ => 0) 10 0
    (by constructor <;> intro s hs <;> cases hs) (fun _ => rfl) (six_transformed _ _ _ _ _ fun i τ => by
      unfold rotaryCurve sixY
      push_cast
      simp)
  rw [H.opt] at h2 h3
  exact ⟨c, c', mean.re, H.returned, H'.returned, h1, h2, by rw [h3]; simp [meanRec, exOpt]⟩

/-- C81: other units. -/
example : ∃ c c', solve idealEnv sixT (sixSeries (sixY 1 0)) none (some 45) (methodOpts "robust" sixKw) = .ok c ∧
    solve idealEnv sixT (sixSeries (sixY 100 0)) none (some 45) (methodOpts "robust" sixKw) = .ok c' ∧
    c'.PE = c.PE ∧ c'.ell = scaleEll 100 c.ell ∧ c'.weights = c.weights := by
  obtain ⟨c, H⟩ := six_run' 1 0 one_ne_zero
  obtain ⟨c', H'⟩ := six_run' 100 0 (by norm_num)
  have hR := fun y => six_ready y none (.inl rfl)
  obtain ⟨-, -, -, h1, h2, -, h3⟩ := C81_scale idealEnv sixT (sixSeries (sixY 1 0))
    (sixSeries (sixY 100 0)) none none (some 45) (methodOpts "robust" sixKw) (hR _) (hR _) rfl (by decide) sixKw
    ⟨⟨"robust", by decide, rfl⟩, false, rfl⟩ ⟨by decide, by simp [sixKw]⟩ c c' H.returned H'.returned
    sixTn (by rw [H.opt]; exact six_times) 100 (by norm_num)
    (six_transformed _ _ _ _ _ fun i τ => by unfold sixY; push_cast; ring) (by rw [H.opt]; simp [IsStr, exOpt])
  exact ⟨c, c', H.returned, H'.returned, h1, h2, h3⟩

/-- C82: six weights. -/
example : ∃ c, solve idealEnv sixT (sixSeries (sixY 1 0)) none (some 45) (methodOpts "robust" sixKw) = .ok c ∧
    c.weights.length = 6 ∧ ∀ w ∈ c.weights, 0 ≤ w ∧ w ≤ 1 := by
  obtain ⟨c, H⟩ := six_run' 1 0 one_ne_zero
  obtain ⟨h1, h2, -⟩ := C82_weights idealEnv sixT (sixSeries (sixY 1 0)) none (some 45) (methodOpts "robust" sixKw)
    (six_ready _ none (.inl rfl)) (by decide) c H.returned sixTn (by rw [H.opt]; exact six_times)
  rw [Option.map_none, (six_samples _ (sixY 1 0)).1] at h1
  exact ⟨c, H.returned, h1, h2⟩

end
end UTide.Props
