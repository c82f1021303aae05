import Verif.Props.AvailProps
import Verif.Props.PsdProps

/-!
# An evenly sampled run with intervals

Five samples three hours apart, M2 only, raw phases, no nodal corrections, no trend.
-/

namespace UTide.Props

noncomputable section

open Classical

local notation "conj" => starRingEnd ℂ

def pentTn : List Fl := [.fin 0.25, .fin 0.375, .fin 0.5, .fin 0.625, .fin 0.75]
def pentT : TimeArg := ⟨[5], .float pentTn, []⟩

def pentSeries (y0 y1 y2 y3 y4 : ℝ) : Series :=
  ⟨[5], [⟨.fin y0, false⟩, ⟨.fin y1, false⟩, ⟨.fin y2, false⟩, ⟨.fin y3, false⟩, ⟨.fin y4, false⟩]⟩

/-- A scalar series or a second component of the same kind. -/
def PentV (v : Option Series) : Prop := v = none ∨ ∃ y0 y1 y2 y3 y4, v = some (pentSeries y0 y1 y2 y3 y4)

section
variable (y0 y1 y2 y3 y4 : ℝ) (v : Option Series)

theorem pent_ready (hv : PentV v) : Ready idealEnv pentT (pentSeries y0 y1 y2 y3 y4) v :=
  idealReady _ _ _ (by simp [TimeArg.WF, TimeArr.length, pentT, pentTn]) (by simp [Series.WF, pentSeries]) (by
    rintro w rfl
    rcases hv with h | ⟨a, b, c, d, e, h⟩
    · cases h
    · cases h; simp [Series.WF, pentSeries])

theorem pent_times : normalizeTime idealEnv.dt64 pentT.arr (.str "python") = .ok pentTn := by
  show (Except.ok (pentTn.map _) : Except PyErr (List Fl)) = _
  congr 1

theorem pent_finite : finiteTimes pentTn = [0.25, 0.375, 0.5, 0.625, 0.75] := by
  simp [finiteTimes, pentTn, Fl.toReal?]

theorem pent_usable (hv : PentV v) :
    (usable pentTn (pentSeries y0 y1 y2 y3 y4).data (v.map Series.data)).map Prod.fst = [0.25, 0.375, 0.5, 0.625, 0.75] := by
  rcases hv with rfl | ⟨a, b, c, d, e, rfl⟩
  · simp [usable, pentSeries, pentTn, goodSamples, Fl.toReal?, Cell.value?]
  · simp [usable, pentSeries, pentTn, goodSamples2, Fl.toReal?, Cell.value?]

theorem pent_shapes (hv : PentV v) : GoodShapes pentT (pentSeries y0 y1 y2 y3 y4) v := by
  refine ⟨rfl, rfl, ?_⟩
  rintro w rfl
  rcases hv with h | ⟨a, b, c, d, e, h⟩
  · cases h
  · cases h; rfl

end

/-- The values of the M2 harmonic at the five times: the powers of a number on the unit circle with positive real
part. -/
theorem m2_pent : ∃ z : ℂ, m2 0.25 = conj z ^ 2 ∧ m2 0.375 = conj z ∧ m2 0.5 = 1 ∧ m2 0.625 = z ∧ m2 0.75 = z ^ 2 ∧
    z.re ^ 2 + z.im ^ 2 = 1 ∧ 0 < z.re ∧ 0 < z.im := by
  obtain ⟨x, h1, h2, hm⟩ := m2_rate
  have hpi := Real.pi_gt_three
  have hpi4 := Real.pi_lt_d2
  refine ⟨Complex.exp (((Real.pi / 2 * (1 - x) : ℝ) : ℂ) * Complex.I), ?_, ?_, ?_, ?_, ?_, ?_, ?_, ?_⟩
  · rw [hm, ← Complex.exp_conj, ← Complex.exp_nat_mul, map_mul, Complex.conj_ofReal, Complex.conj_I]
    congr 1; push_cast; ring
  · rw [hm, ← Complex.exp_conj, map_mul, Complex.conj_ofReal, Complex.conj_I]
    congr 1; push_cast; ring
  · rw [hm]; norm_num
  · rw [hm]; congr 1; push_cast; ring
  · rw [hm, ← Complex.exp_nat_mul]; congr 1; push_cast; ring
  · rw [Complex.exp_ofReal_mul_I_re, Complex.exp_ofReal_mul_I_im]; exact Real.cos_sq_add_sin_sq _
  · rw [Complex.exp_ofReal_mul_I_re]
    exact Real.cos_pos_of_mem_Ioo ⟨by nlinarith, by nlinarith⟩
  · rw [Complex.exp_ofReal_mul_I_im]
    exact Real.sin_pos_of_pos_of_lt_pi (by nlinarith) (by nlinarith)

/-- The design matrix. -/
def pentB (z : ℂ) : List (List ℂ) :=
  [[conj z ^ 2, z ^ 2, 1], [conj z, z, 1], [1, 1, 1], [z, conj z, 1], [z ^ 2, conj z ^ 2, 1]]

theorem pent_indep (z : ℂ) (hu : z.re ^ 2 + z.im ^ 2 = 1) (hr : 0 < z.re) (hi : 0 < z.im) : IndepColumns 3 (pentB z) := by
  intro m hm hz x hx
  match m, hm with
  | [P, M, k], _ =>
    have k0 := hz [conj z, z, 1] (by simp [pentB])
    have k5 := hz [1, 1, 1] (by simp [pentB])
    have k1 := hz [z, conj z, 1] (by simp [pentB])
    simp only [dot_cons, dot_nil_left, add_zero, one_mul] at k0 k5 k1
    have h1 : z - conj z ≠ 0 := by
      intro h
      have := congrArg Complex.im h
      simp at this
      linarith
    have h2 : z + conj z - 2 ≠ 0 := by
      intro h
      have := congrArg Complex.re h
      simp at this
      nlinarith
    have a1 : (P - M) * (z - conj z) = 0 := by linear_combination k1 - k0
    have a2 : P = M := by
      rcases mul_eq_zero.1 a1 with h | h
      · exact sub_eq_zero.1 h
      · exact absurd h h1
    rw [← a2] at k0 k5
    have a3 : P * (z + conj z - 2) = 0 := by linear_combination k0 - k5
    have a4 : P = 0 := by
      rcases mul_eq_zero.1 a3 with h | h
      · exact h
      · exact absurd h h2
    have a5 : k = 0 := by rw [a4] at k5; simpa using k5
    simp only [List.mem_cons, List.not_mem_nil, or_false] at hx
    rcases hx with rfl | rfl | rfl
    · exact a4
    · rw [← a2]; exact a4
    · exact a5

/-- The prepared problem of the example. -/
structure PentPrep (v : Option Series) (q : Opt) (y0 y1 y2 y3 y4 : ℝ) (p : Prep) : Prop where
  prep : PrepOk idealEnv q pentT (pentSeries y0 y1 y2 y3 y4) v (some 45) pentTn (.names ["M2"]) p
  B : ∃ z : ℂ, z.re ^ 2 + z.im ^ 2 = 1 ∧ 0 < z.re ∧ 0 < z.im ∧ p.B = pentB z
  nm : p.nm = 3
  indep : IndepColumns p.nm p.B
  sel : p.sel = m2Sel 0.5
  infer : p.infer = none
  t : p.ed.t = [0.25, 0.375, 0.5, 0.625, 0.75]
  tin : p.ed.tin = [0.25, 0.375, 0.5, 0.625, 0.75]
  equi : p.ed.equi = true
  elor : p.ed.elor = .fin 0.625
  tref : p.ed.tref = 0.5

theorem pent_even : EvenlySpaced ([0.25, 0.375, 0.5, 0.625, 0.75] : List ℝ) :=
  ⟨0.125, fun i a b h1 h2 => by
    match i with
    | 0 => simp at h1 h2; subst h1 h2; norm_num
    | 1 => simp at h1 h2; subst h1 h2; norm_num
    | 2 => simp at h1 h2; subst h1 h2; norm_num
    | 3 => simp at h1 h2; subst h1 h2; norm_num
    | n + 4 => simp at h2⟩

theorem pent_prep (y0 y1 y2 y3 y4 : ℝ) (v : Option Series) (hv : PentV v)
    (q : Opt) (hq : LikeEx q) : ∃ p, PentPrep v q y0 y1 y2 y3 y4 p := by
  have R := pent_ready y0 y1 y2 y3 y4 v hv
  have hus := pent_usable y0 y1 y2 y3 y4 v hv
  have hne : usable pentTn (pentSeries y0 y1 y2 y3 y4).data (v.map Series.data) ≠ [] := by
    intro h0; rw [h0] at hus; simp at hus
  have hlen : SameLength pentTn (pentSeries y0 y1 y2 y3 y4).data (v.map Series.data) := by
    refine ⟨rfl, fun w hw => ?_⟩
    rcases hv with rfl | ⟨a, b, c, d, e, rfl⟩
    · simp at hw
    · simp only [Option.map_some, Option.some.injEq] at hw; subst hw; rfl
  obtain ⟨ed, hed⟩ := editData_total pentTn (pentSeries y0 y1 y2 y3 y4).data (v.map Series.data) hlen hne
  obtain ⟨h1, h2, h3, -, h5⟩ := editData_usable _ _ _ hlen _ hed
  rw [hus] at h2 h5
  rw [pent_finite] at h1 h5
  have heq : isEqui [0.25, 0.375, 0.5, 0.625, 0.75] = true := C68_even _ (by simp) pent_even
  have hst : ed.tref = 0.5 ∧ ed.elor = .fin 0.625 ∧ ed.equi = true := by
    unfold timeStats at h5
    rw [heq] at h5
    simp only [if_true] at h5
    have h6 := Except.ok.inj h5
    have e1 := congrArg Prod.fst h6
    have e2 := congrArg (fun x => x.2.2.1) h6
    have e3 := congrArg (fun x => x.2.2.2) h6
    dsimp only at e1 e2 e3
    refine ⟨e1.symm.trans ?_, e2.symm.trans ?_, e3.symm⟩
    · show (0.5 : ℝ) * (0.25 + 0.75) = 0.5
      norm_num
    · have hm : (max (max (max (max (0.25 : ℝ) 0.375) 0.5) 0.625) 0.75 - min (min (min (min (0.25 : ℝ) 0.375) 0.5) 0.625) 0.75) = 0.5 := by
        norm_num
      show (Fl.fin ((max (max (max (max (0.25 : ℝ) 0.375) 0.5) 0.625) 0.75 - min (min (min (min (0.25 : ℝ) 0.375) 0.5) 0.625) 0.75) * ((5 : ℕ) : ℝ))).div
        (.fin (((5 : ℕ) : ℝ) - 1)) = _
      rw [hm]
      show (if ((5 : ℕ) : ℝ) - 1 = 0 then _ else Fl.fin (0.5 * ((5 : ℕ) : ℝ) / (((5 : ℕ) : ℝ) - 1))) = _
      rw [if_neg (by norm_num)]
      norm_num
  obtain ⟨href, helor, hequi⟩ := hst
  obtain ⟨z, m0, m1, m2', m3, m4, hu, hr, hi⟩ := m2_pent
  have hrow : ∀ τ, modelRow q.flags ed.tref 45 ed.lor (!q.notrend) (approxOf none)
      (m2Sel ed.tref) τ = [m2 τ, conj (m2 τ), 1] := by
    intro τ
    have hm : utE q.flags ed.tref 45 τ (linFreqs ed.tref 47) 47 = m2 τ := by
      unfold m2 nameBasis
      have h47 : constitNames.idxOf "M2" = 47 := by decide +kernel
      rw [h47, hq.flags, href]
    unfold modelRow rowNR m2Sel
    simp only [List.zipWith_cons_cons, List.zipWith_nil_left, hm, hq.notrend]
    simp
  have hB : ed.t.map (modelRow q.flags ed.tref 45 ed.lor (!q.notrend) (approxOf none)
      (m2Sel ed.tref)) = pentB z := by
    rw [h2]
    simp only [List.map_cons, List.map_nil, hrow, m0, m1, m2', m3, m4, map_one, Complex.conj_conj, map_pow]
    rfl
  have hnm : numCols (!q.notrend) (m2Sel ed.tref) = 3 := by
    rw [hq.notrend]; rfl
  refine ⟨⟨q, none, ed, 45, m2Sel ed.tref, _, _⟩, ?_, ⟨z, hu, hr, hi, hB⟩, hnm, ?_, by show m2Sel ed.tref = _; rw [href], rfl, h2, h1, hequi, helor, href⟩
  · refine ⟨⟨rfl, pent_shapes y0 y1 y2 y3 y4 v hv, by rw [hq.epoch]; exact pent_times, hed⟩, by rw [hq.cnstit]; rfl, by rw [hq.infer]; rfl,
      m2_sel _ _, ?_, rfl, rfl, rfl⟩
    unfold checkMatrix
    rw [hq.flags, hq.notrend]
    rfl
  · show IndepColumns (numCols _ _) (ed.t.map _)
    rw [hB, hnm]
    exact pent_indep z hu hr hi

/-- The facts used about an example run. -/
structure PentRun (opts : Dict PyVal) (q : Opt) (y0 y1 y2 y3 y4 : ℝ) (v : Option Series) (co : Coef) : Prop where
  returned : solve idealEnv pentT (pentSeries y0 y1 y2 y3 y4) v (some 45) opts = .ok co
  opt : co.opt = q
  kept : AllKept co
  over : Overdetermined co pentTn (pentSeries y0 y1 y2 y3 y4) v
  name : co.name = ["M2"]
  frq : co.frq = [linFreqs 0.5 47]
  reftime : co.reftime = 0.5
  lat : co.lat = 45

theorem pent_run_facts {opts : Dict PyVal} {q : Opt} {y0 y1 y2 y3 y4 : ℝ} {v : Option Series} {co : Coef}
    (hv : PentV v) (hnd : opts.keys.Nodup)
    (hopt : getOpt opts v.isSome = .ok q) (hq : LikeEx q) (ho : q.ordercnstit = .str "frequency")
    (h : solve idealEnv pentT (pentSeries y0 y1 y2 y3 y4) v (some 45) opts = .ok co) :
    PentRun opts q y0 y1 y2 y3 y4 v co := by
  have R := pent_ready y0 y1 y2 y3 y4 v hv
  obtain ⟨opt, p, tn, constit, m, W, rf, full, o, ind, F⟩ := solve_facts R h
  have hqq := Except.ok.inj (hopt.symm.trans F.hopt)
  subst hqq
  obtain ⟨p', hp'⟩ := pent_prep y0 y1 y2 y3 y4 v hv q hq
  have hpp := prepOk_unique hp'.prep F.prep
  have htn : tn = pentTn := by
    have h1 := F.prep.init.time
    rw [hq.epoch, pent_times] at h1
    exact (Except.ok.inj h1).symm
  subst htn
  have hco : co.opt = q := F.copt
  have hk : AllKept co := .inl (.inr (.inl (.inl (by rw [hco, ho]))))
  have hinf : p.infer = none := by rw [hpp]; exact hp'.infer
  have hi : IndepColumns p.nm p.B := by rw [hpp]; exact hp'.indep
  refine ⟨h, hco, hk, ⟨F.separated R hnd hk hinf hi, ?_⟩, ?_, ?_, ?_, ?_⟩
  · unfold sampleTimes
    rw [F.numPar_eq R hnd hk hinf, pent_usable _ _ _ _ _ v hv, hpp, hp'.nm]
    simp
  · have := F.perm_names R hnd hk
    rw [hpp, hp'.sel] at this
    exact (List.perm_singleton.1 this).trans (by rw [nameAt_M2])
  · have h1 : co.frq = gather full.frq ind := by rw [F.solved.result]; rfl
    have h2 := gather_perm full.frq (ind := ind) (by rw [F.len.frq]; exact F.kept hnd R hk)
    rw [F.solved.frq, hpp, hp'.sel] at h2
    rw [h1, F.solved.frq, hpp, hp'.sel]
    exact List.perm_singleton.1 h2
  · rw [F.creftime, hpp]; exact hp'.tref
  · rw [F.clat]
    exact (Option.some.inj F.prep.init.hlat).symm

/-- Five samples of M2: linearised intervals can be had with both noise models. -/
theorem pent_ci (y0 y1 y2 y3 y4 : ℝ) (v : Option Series) (hv : PentV v) (wh : Bool) :
    ∃ co, PentRun (ciOpts "linear" wh) (ciOpt v.isSome true wh) y0 y1 y2 y3 y4 v co ∧ co.ci ≠ none := by
  have R := pent_ready y0 y1 y2 y3 y4 v hv
  have hret : ∃ c0, solve idealEnv pentT (pentSeries y0 y1 y2 y3 y4) v (some 45) (ciOpts "none" true) = .ok c0 := by
    have hus := pent_usable y0 y1 y2 y3 y4 v hv
    refine solve_total idealEnv _ _ v 45 _ _ pentTn (.names ["M2"]) .frequency (ciOpts_none v.isSome true) rfl rfl rfl rfl rfl
      ⟨by simpa using M2_known, .inl (by simp)⟩ rfl (.inr rfl) (pent_shapes _ _ _ _ _ v hv) R.ht R.hu R.hv pent_times ?_
      (fun k => by simp [nodalSingular, exOpt]) (fun h => by simp [exOpt] at h)
    intro h0
    rw [h0] at hus
    simp at hus
  obtain ⟨c0, hc0⟩ := hret
  have Q0 := pent_run_facts hv (by decide) (ciOpts_none v.isSome true) ⟨rfl, rfl, rfl, rfl, rfl⟩ rfl hc0
  have hok := ciOpts_linear v.isSome wh
  obtain ⟨co, hco⟩ := C72_available R idealNum_ok.inv idealNum_ok.mvn (by decide)
    (by cases wh <;> decide) (ciOpts_requested "none" "linear" true wh)
    ⟨.str "ols", rfl, .inl rfl⟩ hc0 (by rw [Q0.opt]; rfl) Q0.kept (by rw [Q0.opt]; exact pent_times) Q0.over _ hok rfl
    (.inr ⟨rfl, by rw [pent_finite]; exact pent_even, 0.25, 0.375, [0.5, 0.625, 0.75], pent_finite, by norm_num⟩)
  have Q := pent_run_facts hv (by cases wh <;> decide) hok ⟨rfl, rfl, rfl, rfl, rfl⟩ rfl hco
  refine ⟨co, Q, ?_⟩
  obtain ⟨opt, p, tn, constit, m, W, rf, full, o, ind, F⟩ := solve_facts R hco
  have hqq := Except.ok.inj (hok.symm.trans F.hopt)
  subst hqq
  rcases F.solved.ci with ⟨h1, -⟩ | ⟨-, ci, -, h2⟩
  · rw [F.prep.hopt] at h1; cases h1
  · rw [F.solved.result]
    intro h3
    have h4 : full.ci.map (CiArr.permute ind) = none := h3
    rw [h2] at h4
    cases h4

/-! ## The noise power of the run -/

theorem m2_freq : 0.08 < linFreqs 0.5 47 ∧ linFreqs 0.5 47 < 0.081 := by
  rw [linFreqs_primary _ kind_M2]
  simp only [Doodson.dot, ader]
  constructor <;> norm_num [Cubic.dotDargs, scCoef, hcCoef, daten]

/-- The Fourier frequencies of four samples three hours apart. -/
def pentGrid : List ℝ := [0, 1 / 12, 2 / 12]

theorem pentGrid_avs (P : List ℂ) (hP : P.length = 3) (f : ℝ) (h1 : 0.08 < f) (h2 : f < 0.081) :
    ∃ avs, fbndavg P pentGrid [f] = .ok avs ∧ avs[2]? = some (some (P.getD 2 0)) := by
  obtain ⟨excl, hex, hall⟩ := C58_mean pentGrid [f] (by
    unfold pentGrid
    simp only [List.pairwise_cons, List.mem_cons, List.not_mem_nil, or_false, forall_eq_or_imp, forall_eq,
      IsEmpty.forall_iff, implies_true, List.Pairwise.nil, and_true]
    norm_num) (by simp [pentGrid])
  obtain ⟨avs, a1, -, a2⟩ := hall P (by simp [pentGrid, hP])
  refine ⟨avs, a1, ?_⟩
  have key : ∀ i, Nearest pentGrid f i → i = 1 := by
    rintro i ⟨h3, h4⟩
    have h5 := h4 1 (by simp [pentGrid])
    have h3' : i < 3 := by simpa [pentGrid] using h3
    norm_num at h1 h2
    interval_cases i
    · simp only [pentGrid, List.getD_cons_zero, List.getD_cons_succ] at h5
      rw [abs_of_neg (by linarith), abs_of_pos (by linarith)] at h5
      linarith
    · rfl
    · simp only [pentGrid, List.getD_cons_zero, List.getD_cons_succ] at h5
      rw [abs_of_pos (by linarith), abs_of_pos (by linarith)] at h5
      linarith
  have hE : excl = {1} := by
    ext i
    rw [Finset.mem_singleton]
    constructor
    · intro hi
      obtain ⟨g, hg, hn⟩ := hex.only i hi
      rw [List.mem_singleton] at hg
      subst hg
      exact key i hn
    · rintro rfl
      obtain ⟨i, hi, hn⟩ := hex.each _ (List.mem_singleton_self _)
      rwa [key i hn] at hi
  have hR : reach pentGrid (0.07218, 0.08884) = {1, 2} := by
    ext i
    unfold reach
    rw [Finset.mem_filter, Finset.mem_range]
    simp only [Finset.mem_insert, Finset.mem_singleton]
    constructor
    · rintro ⟨h3, h4, -⟩
      have h3' : i < 3 := by simpa [pentGrid] using h3
      interval_cases i
      · simp only [pentGrid, List.getD_cons_zero] at h4
        norm_num at h4
      · simp
      · simp
    · rintro (rfl | rfl)
      · refine ⟨by simp [pentGrid], ?_, ?_⟩
        · simp only [pentGrid, List.getD_cons_zero, List.getD_cons_succ]
          norm_num
        · intro j hj
          have : j = 0 := by omega
          subst this
          simp only [pentGrid, List.getD_cons_zero]
          norm_num
      · refine ⟨by simp [pentGrid], ?_, ?_⟩
        · simp only [pentGrid, List.getD_cons_zero, List.getD_cons_succ]
          norm_num
        · intro j hj
          interval_cases j
          · simp only [pentGrid, List.getD_cons_zero]
            norm_num
          · simp only [pentGrid, List.getD_cons_zero, List.getD_cons_succ]
            norm_num
  have hd : ({1, 2} \ {1} : Finset ℕ) = {2} := by decide
  rw [a2 2 (0.07218, 0.08884) (by rfl), hE, hR, hd]
  unfold meanOver
  rw [if_neg (by simp)]
  simp

theorem hann_four : hann 4 = [0, 0.5, 1, 0.5] := by
  unfold hann
  have e1 : (2 * Real.pi * ((1 : ℕ) : ℝ) / ((4 : ℕ) : ℝ)) = Real.pi / 2 := by push_cast; ring
  have e2 : (2 * Real.pi * ((2 : ℕ) : ℝ) / ((4 : ℕ) : ℝ)) = Real.pi := by push_cast; ring
  have e3 : (2 * Real.pi * ((3 : ℕ) : ℝ) / ((4 : ℕ) : ℝ)) = Real.pi / 2 + Real.pi := by push_cast; ring
  have e0 : (2 * Real.pi * ((0 : ℕ) : ℝ) / ((4 : ℕ) : ℝ)) = 0 := by simp
  rw [show List.range 4 = [0, 1, 2, 3] by decide]
  simp only [List.map_cons, List.map_nil]
  rw [e0, e1, e2, e3, Real.cos_zero, Real.cos_pi_div_two, Real.cos_pi, Real.cos_add_pi, Real.cos_pi_div_two]
  norm_num

theorem dft_two (a b c d : ℝ) : dft [a, b, c, d] 2 = ((a - b + c - d : ℝ) : ℂ) := by
  unfold dft
  have e : ∀ j : ℕ, Complex.exp (-2 * Real.pi * Complex.I * j * (2 : ℕ) / ((4 : ℕ) : ℂ)) = (-1) ^ j := by
    intro j
    rw [show (-2 * (Real.pi : ℂ) * Complex.I * j * (2 : ℕ) / ((4 : ℕ) : ℂ)) = (j : ℂ) * (-(Real.pi * Complex.I)) by push_cast; ring,
      Complex.exp_nat_mul, Complex.exp_neg, Complex.exp_pi_mul_I]
    norm_num
  have hz : [a, b, c, d].zipIdx = [(a, 0), (b, 1), (c, 2), (d, 3)] := rfl
  have hl : [a, b, c, d].length = 4 := rfl
  rw [hz, hl]
  simp only [List.map_cons, List.map_nil, e, List.sum_cons, List.sum_nil]
  push_cast
  ring

/-- The value at the highest frequency. -/
theorem psd_four (a b c d : ℂ) :
    (psd false [a, b, c, d] (hann 4) (1 / (24 * (0.375 - 0.25)))).length = 3 ∧
    (psd false [a, b, c, d] (hann 4) (1 / (24 * (0.375 - 0.25)))).getD 2 0 =
      ((2 * (c.re - (b.re + d.re) / 2) ^ 2 : ℝ) : ℂ) := by
  rw [psd_auto _ _ _ 2 rfl (by simp [hann])]
  refine ⟨by simp, ?_⟩
  rw [List.getD_eq_getElem _ _ (by simp)]
  simp only [List.getElem_map, List.getElem_range]
  have h1 : tapered ([a, b, c, d].map Complex.re) (hann 4) =
      [0, (b.re - meanOf ([a, b, c, d].map Complex.re)) * 0.5, (c.re - meanOf ([a, b, c, d].map Complex.re)),
        (d.re - meanOf ([a, b, c, d].map Complex.re)) * 0.5] := by
    unfold tapered
    rw [hann_four]
    simp only [List.map_cons, List.map_nil, List.zipWith_cons_cons, List.zipWith_nil_left, mul_zero, mul_one]
  rw [h1]
  generalize meanOf ([a, b, c, d].map Complex.re) = mu
  rw [dft_two, hann_four, Complex.norm_real, Real.norm_eq_abs, sq_abs]
  congr 1
  simp only [energy, sided, List.map_cons, List.map_nil, List.sum_cons, List.sum_nil]
  norm_num
  ring

theorem pent_bandPsd (N : Num) (e0 e1 e2 e3 e4 : ℂ) (f : ℝ) (h1 : 0.08 < f) (h2 : f < 0.081) :
    ∃ ba, bandPsd N [0.25, 0.375, 0.5, 0.625, 0.75] [e0, e1, e2, e3, e4] [f] true = .ok ba ∧
      ba.Puu[2]? = some (some ((2 * (e2.re - (e1.re + e3.re) / 2) ^ 2 : ℝ) : ℂ)) ∧
      ba.Pvv[2]? = some (some ((2 * (e2.im - (e1.im + e3.im) / 2) ^ 2 : ℝ) : ℂ)) ∧
      ∃ z, ba.Puv[2]? = some (some z) := by
  unfold bandPsd
  have hodd : [e0, e1, e2, e3, e4].length % 2 = 1 := by simp
  unfold evenPart
  rw [if_pos hodd, if_pos hodd]
  have hs : bandSpectra N [0.25, 0.375, 0.5, 0.625, 0.75].dropLast [e0, e1, e2, e3, e4].dropLast true =
      .ok ({ Pxx := psd false ([e0, e1, e2, e3].map fun z => (z.re : ℂ)) (hann 4) (1 / (24 * (0.375 - 0.25))),
             Pyy := psd false ([e0, e1, e2, e3].map fun z => (z.im : ℂ)) (hann 4) (1 / (24 * (0.375 - 0.25))),
             Pxy := psd true [e0, e1, e2, e3] (hann 4) (1 / (24 * (0.375 - 0.25))) }, pentGrid) := by
    unfold bandSpectra
    simp only [if_true, List.dropLast_cons_cons, List.dropLast_singleton]
    rw [if_neg (by norm_num)]
    congr 2
    have hl : [e0, e1, e2, e3].length = 4 := by simp
    rw [hl, show List.range (4 / 2 + 1) = [0, 1, 2] by decide]
    unfold pentGrid
    simp only [List.map_cons, List.map_nil]
    norm_num
  rw [hs]
  obtain ⟨a1, a2⟩ := psd_four (e0.re : ℂ) (e1.re : ℂ) (e2.re : ℂ) (e3.re : ℂ)
  obtain ⟨b1, b2⟩ := psd_four (e0.im : ℂ) (e1.im : ℂ) (e2.im : ℂ) (e3.im : ℂ)
  obtain ⟨avs, c1, c2⟩ := pentGrid_avs _ a1 f h1 h2
  obtain ⟨bvs, d1, d2⟩ := pentGrid_avs _ b1 f h1 h2
  obtain ⟨cvs, g1, g2⟩ := pentGrid_avs (psd true [e0, e1, e2, e3] (hann 4) (1 / (24 * (0.375 - 0.25))))
    (by rw [psd_cross _ _ _ 2 rfl (by simp [hann])]; simp) f h1 h2
  rw [ok_bind]
  dsimp only
  rw [show ([e0, e1, e2, e3].map fun z => (z.re : ℂ)) = [(e0.re : ℂ), (e1.re : ℂ), (e2.re : ℂ), (e3.re : ℂ)] from rfl,
    show ([e0, e1, e2, e3].map fun z => (z.im : ℂ)) = [(e0.im : ℂ), (e1.im : ℂ), (e2.im : ℂ), (e3.im : ℂ)] from rfl, c1, d1, g1]
  refine ⟨_, rfl, ?_, ?_, ?_⟩
  · rw [c2, a2]; simp
  · rw [d2, b2]; simp
  · dsimp only
    rw [List.getElem?_map, g2]
    exact ⟨_, rfl⟩

/-- The power assigned to M2. -/
theorem pent_power (N : Num) (ed : Edited) (ht : ed.t = [0.25, 0.375, 0.5, 0.625, 0.75])
    (htin : ed.tin = [0.25, 0.375, 0.5, 0.625, 0.75]) (he : ed.equi = true) (hl : ed.elor = .fin 0.625)
    (e0 e1 e2 e3 e4 : ℂ) (pw : Power)
    (h : residualPower N ed [e0, e1, e2, e3, e4] [linFreqs 0.5 47] = .ok pw) :
    pw.Puu[0]? = some (.fin (2 / 15 * (e2.re - (e1.re + e3.re) / 2) ^ 2)) ∧
    pw.Pvv[0]? = some (.fin (2 / 15 * (e2.im - (e1.im + e3.im) / 2) ^ 2)) := by
  obtain ⟨ba, -, h2, -, h4⟩ := C62_power N ed _ _ pw h
  have h2' := h2 he (by rw [ht, htin]; simp)
  rw [htin] at h2'
  obtain ⟨f1, f2⟩ := m2_freq
  obtain ⟨ba', hb, b1, b2, z, b3⟩ := pent_bandPsd N e0 e1 e2 e3 e4 _ f1 f2
  cases Except.ok.inj (hb.symm.trans h2')
  obtain ⟨-, k⟩ := h4 0 _ rfl
  obtain ⟨k1, k2, -⟩ := k 2 (0.07218, 0.08884) rfl ⟨by norm_num at f1 f2 ⊢; linarith, by norm_num at f1 f2 ⊢; linarith⟩ _ _ _ b1 b2 b3
  have hdf : (Fl.fin 1).div (ed.elor * .fin 24) = .fin (1 / 15) := by
    rw [hl]
    show (if (0.625 * 24 : ℝ) = 0 then _ else Fl.fin (1 / (0.625 * 24))) = _
    rw [if_neg (by norm_num)]
    norm_num
  have hsc : ∀ x : ℝ, scalePower (.fin (1 / 15)) (some ((2 * x : ℝ) : ℂ)) = .fin (2 / 15 * x) := by
    intro x
    show Fl.fin (((2 * x : ℝ) : ℂ).re * (1 / 15)) = _
    rw [Complex.ofReal_re]
    congr 1
    ring
  rw [hdf, hsc] at k1 k2
  exact ⟨k1, k2⟩

end

end UTide.Props
