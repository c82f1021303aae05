import Verif.Props.ComponentProps

/-!
# More constituents, better fit: C94
-/

namespace UTide.Props

noncomputable section

open Classical

local notation "conj" => starRingEnd ℂ

/-- Each option determines its own fields. -/
theorem getOpt_fields (opts opts' : Dict PyVal) (hnd : opts.keys.Nodup) (hnd' : opts'.keys.Nodup) (is2D : Bool) (q q' : Opt)
    (h : getOpt opts is2D = .ok q) (h' : getOpt opts' is2D = .ok q') :
    (requested opts "nodal" = requested opts' "nodal" → requested opts "phase" = requested opts' "phase" →
      q'.flags = q.flags) ∧
    (requested opts "epoch" = requested opts' "epoch" → q'.epoch = q.epoch) ∧
    (requested opts "trend" = requested opts' "trend" → q'.notrend = q.notrend) ∧
    (requested opts "infer" = requested opts' "infer" → q'.infer = q.infer) := by
  obtain ⟨hk, c, oc, ci, me, tr, ph, no, inf, ray, rk, wh, ve, ep, h1, h2, h3, h4, h5, h6, h7, h8, h9, h10,
      h11, h12, h13, r1, r2, r3, r4, r5, r6, r7, r8, r9, r10, r11, r12, r13, r14, r15, r16⟩ := getOpt_ok opts hnd is2D q h
  obtain ⟨hk', c', oc', ci', me', tr', ph', no', inf', ray', rk', wh', ve', ep', h1', h2', h3', h4', h5', h6', h7', h8', h9', h10',
      h11', h12', h13', r1', r2', r3', r4', r5', r6', r7', r8', r9', r10', r11', r12', r13', r14', r15', r16'⟩ :=
    getOpt_ok opts' hnd' is2D q' h'
  simp only [requested_eq]
  have okinj : ∀ {x : Except PyErr Bool} {a b : Bool}, x = .ok a → x = .ok b → b = a := by
    intro x a b ha hb; rw [ha] at hb; exact (Except.ok.inj hb).symm
  refine ⟨fun g g' => ?_, fun g => ?_, fun g => ?_, fun g => ?_⟩
  · rw [h7, h7'] at g
    rw [h6, h6'] at g'
    cases Option.some.inj g
    cases Option.some.inj g'
    have e6 : q'.flags.nodsatlint = q.flags.nodsatlint := okinj r11 r11'
    have e7 : q'.flags.gwchlint = q.flags.gwchlint := okinj r13 r13'
    have e8 : q'.flags.nodsatnone = q.flags.nodsatnone := by
      rw [e6] at r12'
      by_cases hl : q.flags.nodsatlint = true
      · rw [if_pos hl] at r12 r12'; rw [r12, r12']
      · rw [if_neg hl] at r12 r12'
        exact Bool.not_inj (okinj r12 r12')
    have e9 : q'.flags.gwchnone = q.flags.gwchnone := by
      rw [e7] at r14'
      by_cases hl : q.flags.gwchlint = true
      · rw [if_pos hl] at r14 r14'; rw [r14, r14']
      · rw [if_neg hl] at r14 r14'
        exact okinj r14 r14'
    exact flags_ext _ _ e6 e8 e7 e9
  · rw [h13, h13'] at g
    cases Option.some.inj g
    rw [r5, r5']
  · rw [h5, h5'] at g
    cases Option.some.inj g
    exact Bool.not_inj (okinj r6 r6')
  · rw [h8, h8'] at g
    cases Option.some.inj g
    exact Except.ok.inj (r3'.symm.trans r3)

section
variable {E : Env} {t : TimeArg} {u : Series} {v : Option Series} {lat : Option ℝ} {opts : Dict PyVal}
  {c : Coef} {opt : Opt} {p : Prep} {tn : List Fl} {constit : Constit} {m : List ℂ} {W : List ℝ}
  {rf : Option RobOut} {full : Coef} {o : Order} {ind : List ℕ}

/-- Whatever the method, the result consists of rotating components by name, tied as requested, and a level. -/
theorem Facts.components (F : Facts E t u v lat opts c opt p tn constit m W rf full o ind) (R : Ready E t u v)
    (hnd : opts.keys.Nodup) (hk : AllKept c) (hn : c.name.Nodup) :
    ∃ (P M : String → ℂ) (mean slope : ℂ), TiedRotary p.infer v.isSome P M ∧ (opt.notrend = true → slope = 0) ∧
      (∀ n, n ∉ c.name → P n = 0 ∧ M n = 0) ∧
      (∀ i n, c.name[i]? = some n → ∃ e, ellipseAt c.ell i = some e ∧ ccw e = P n ∧ cw e = M n) ∧
      ∀ τ, level c τ = mean + slope * ((τ - c.reftime : ℝ) : ℂ) := by
  have hperm := F.perm_names R hnd hk
  obtain ⟨P, M, mean, slope, hP, hM, hs, hm⟩ := F.exists_coef (hperm.nodup_iff.1 hn) m F.mlen
  obtain ⟨r1, r2⟩ := F.read hnd P M mean slope hP hM hm
  have hnames := F.prep.aligned.names
  have hmem : ∀ r ∈ p.sel.refs, r.name ∈ c.name ∧ ∀ q ∈ r.inf, q.name ∈ c.name := by
    intro r hr
    constructor
    · rw [hperm.mem_iff, hnames]
      simp only [List.mem_append, List.mem_map]
      exact .inl (.inr ⟨r, hr, rfl⟩)
    · intro q hq
      rw [hperm.mem_iff, hnames]
      simp only [List.mem_append, List.mem_flatMap, List.mem_map]
      exact .inr ⟨r, hr, q, hq, rfl⟩
  have cut : ∀ (f : InfCon → ℂ) (A : String → ℂ), TiedBy p.sel f A →
      TiedBy p.sel f fun n => if n ∈ c.name then A n else 0 := by
    intro f A h r hr q hq
    dsimp only
    rw [if_pos ((hmem r hr).2 q hq), if_pos (hmem r hr).1]
    exact h r hr q hq
  cases v with
  | some w =>
    refine ⟨fun n => if n ∈ c.name then P n else 0, fun n => if n ∈ c.name then M n else 0, mean, slope,
      F.tiedRotary hnd _ _ (cut _ _ hP) (cut _ _ hM), hs, fun n h => by simp [h], ?_, ?_⟩
    · intro i n hi
      have := List.mem_of_getElem? hi
      refine ⟨_, by rw [r1, ellipseAt_map, hi]; rfl, ?_, ?_⟩
      · simp only [Option.isSome_some, if_true, ccw_ell2, this]
      · simp only [Option.isSome_some, if_true, cw_ell2, this]
    · intro τ
      rw [level_meanRec c _ _ _ _ hs r2 τ]; rfl
  | none =>
    have hlens := fun s hs => F.inferLengths hnd s hs
    simp only [Option.isSome_none, Bool.false_eq_true, if_false] at hlens
    have hconj : p.sel.Conj := sel_conj F.prep.hsel fun s hs => (hlens s hs).2.1.le
    have hP' : TiedBy p.sel InfCon.Rp fun n => (P n + conj (M n)) / 2 := by
      intro r hr q hq
      dsimp only
      rw [hP r hr q hq, hM r hr q hq, hconj r hr q hq, map_mul, Complex.conj_conj]; ring
    have hM' : TiedBy p.sel InfCon.Rm fun n => conj ((P n + conj (M n)) / 2) := by
      intro r hr q hq
      have := hP' r hr q hq
      dsimp only at this ⊢
      rw [this, hconj r hr q hq, map_mul]
    refine ⟨fun n => if n ∈ c.name then (P n + conj (M n)) / 2 else 0,
      fun n => if n ∈ c.name then conj ((P n + conj (M n)) / 2) else 0, (mean.re : ℂ), (slope.re : ℂ),
      F.tiedRotary hnd _ _ (cut _ _ hP') (cut _ _ hM'), fun h => by rw [hs h]; simp, fun n h => by simp [h], ?_, ?_⟩
    · intro i n hi
      have := List.mem_of_getElem? hi
      refine ⟨_, by rw [r1, ellipseAt_map, hi]; rfl, ?_, ?_⟩
      · simp only [Option.isSome_none, Bool.false_eq_true, if_false, ccw_ell1, this, if_true]
      · simp only [Option.isSome_none, Bool.false_eq_true, if_false, cw_ell1, this, if_true]
    · intro τ
      rw [level_meanRec c _ _ _ _ hs r2 τ]
      simp

end

/-- A function that vanishes outside a sublist has the same sum over both. -/
theorem sum_subset {l l' : List String} (h : l.Nodup) (h' : l'.Nodup) (hsub : ∀ n ∈ l, n ∈ l') (f : String → ℂ)
    (hf : ∀ n, n ∉ l → f n = 0) : (l'.map f).sum = (l.map f).sum := by
  rw [← List.sum_toFinset f h, ← List.sum_toFinset f h']
  refine (Finset.sum_subset (fun n hn => ?_) fun n _ hn => hf n ?_).symm
  · rw [List.mem_toFinset] at hn ⊢; exact hsub n hn
  · rwa [List.mem_toFinset] at hn

/-- **C94.** `c'`, an ordinary least-squares analysis, has all the constituents of `c` (fitted by whatever method),
fits a trend if `c` does, and ties no more constituents by inference than `c`. Then it fits the data at least as well. -/
theorem C94_nested (E : Env) (t : TimeArg) (u : Series) (v : Option Series) (lat : Option ℝ) (opts opts' : Dict PyVal)
    (R : Ready E t u v) (hnd : opts.keys.Nodup) (hnd' : opts'.keys.Nodup)
    (hm' : ∃ x, requested opts' "method" = some x ∧ IsStr x "ols") (c c' : Coef)
    (h : solve E t u v lat opts = .ok c) (h' : solve E t u v lat opts' = .ok c') (hk : AllKept c) (hk' : AllKept c')
    (hn : c.name.Nodup) (hn' : c'.name.Nodup) (hsub : ∀ n ∈ c.name, n ∈ c'.name)
    (hsame : ∀ k ∈ ["nodal", "phase", "epoch"], requested opts k = requested opts' k)
    (htr : c'.opt.notrend = true → c.opt.notrend = true)
    (sp sp' : Option InferSpec) (hi : readInfer c.opt.infer = .ok sp) (hi' : readInfer c'.opt.infer = .ok sp')
    (hex : ∀ s, sp' = some s → s.approximate = false)
    (hties : ∀ P M, TiedRotary sp v.isSome P M → TiedRotary sp' v.isSome P M)
    (a : RecArgs) (hae : a.epoch = c.opt.epoch) (ha : RecArgs.Everything a) :
    ∃ r r', reconstruct E t.arr c a = .ok r ∧ reconstruct E t.arr c' a = .ok r' ∧
      misfit u.data (v.map Series.data) r' ≤ misfit u.data (v.map Series.data) r := by
  have hfl : c'.opt.flags = c.opt.flags ∧ c'.opt.epoch = c.opt.epoch := by
    obtain ⟨opt, p, tn0, constit, m, W, rf, full, o, ind, F⟩ := solve_facts R h
    obtain ⟨opt', p', tn1, constit', m', W', rf', full', o', ind', F'⟩ := solve_facts R h'
    obtain ⟨e1, e2, -⟩ := getOpt_fields opts opts' hnd hnd' _ _ _ F.hopt F'.hopt
    rw [F.copt, F'.copt]
    exact ⟨e1 (hsame _ (by simp)) (hsame _ (by simp)), e2 (hsame _ (by simp))⟩
  obtain ⟨hfl, hep⟩ := hfl
  obtain ⟨tn, r', htn', hr', -, -, -, -, hbest⟩ := best_rotary E t u v lat opts' R hnd' hm' c' h' hk' sp' hi' hex a
    (by rw [hae, hep]) ha
  obtain ⟨opt, p, tn0, constit, m, W, rf, full, o, ind, F⟩ := solve_facts R h
  obtain ⟨opt', p', tn1, constit', m', W', rf', full', o', ind', F'⟩ := solve_facts R h'
  have hc := F.copt
  have hc' := F'.copt
  subst hc hc'
  cases Except.ok.inj (F.prep.hinfer.symm.trans hi)
  rw [hep] at htn'
  cases Except.ok.inj (F.prep.init.time.symm.trans htn')
  have hF' := F'.prep.init.time
  rw [hep] at hF'
  cases Except.ok.inj (htn'.symm.trans hF')
  have hed : p'.ed = p.ed := Except.ok.inj (F'.prep.init.edit.symm.trans F.prep.init.edit)
  have hlat : p'.lat = p.lat := Option.some.inj (F'.prep.init.hlat.symm.trans F.prep.init.hlat)
  have href : c'.reftime = c.reftime := by rw [F.creftime, F'.creftime, hed]
  have hh : ∀ n τ, harmonic c' n τ = harmonic c n τ := by
    intro n τ
    rw [F.harmonic_eq, F'.harmonic_eq, hed, hlat, hfl]
  obtain ⟨P, M, mean, slope, hT, hs, hz, hell, hlev⟩ := F.components R hnd hk hn
  obtain ⟨h1, h2⟩ := hties P M hT
  refine ⟨_, r', ?_, hr', hbest P M mean slope h1 h2 fun h => hs (htr h)⟩
  rw [predicted R hnd h hk P M hell a ha E t.arr, hae, htn']
  show Except.ok _ = _
  congr 1
  refine List.map_congr_left fun x _ => ?_
  congr 1
  funext τ
  rw [hlev, href, sum_subset hn hn' hsub _ (fun n hn => by rw [(hz n hn).1, (hz n hn).2]; ring)]
  simp only [hh]
  ring

/-! ## Cases that meet the hypotheses -/

/-- The example options with other constituents. -/
def pairOpts (ns : List String) : Dict PyVal :=
  [("constit", .seq .list (ns.map .str)), ("conf_int", .str "none"), ("trend", .bool false), ("nodal", .bool false),
   ("phase", .str "raw"), ("order_constit", .str "frequency"), ("epoch", .str "python")]

def pairOpt (ns : List String) (twodim : Bool) : Opt :=
  { twodim := twodim, flags := ⟨false, true, false, true⟩, cnstit := .seq .list (ns.map .str), infer := .none,
    ordercnstit := .str "frequency", rmin := 1, notrend := true, confInt := false, linci := false, white := false,
    nodiagn := true, method := .ols, verbose := true, epoch := .str "python" }

theorem pairOpt_eq (a b : String) (twodim : Bool) : getOpt (pairOpts [a, b]) twodim = .ok (pairOpt [a, b] twodim) := by
  cases twodim <;> kernel_rfl

theorem pair_run (n n' : String) (hn : n ∈ constitNames) (hn' : n' ∈ constitNames) (a b c d : ℝ) :
    ∃ co, solve idealEnv quadT (quadSeries a b c d) none (some 45) (pairOpts [n, n']) = .ok co ∧
      co.opt = pairOpt [n, n'] false ∧ AllKept co ∧ co.name.Perm [n, n'] := by
  have R := quad_ready a b c d none (.inl rfl)
  have hus := quad_usable a b c d none (.inl rfl)
  obtain ⟨co, hc⟩ := solve_total idealEnv _ _ none 45 (pairOpts [n, n']) (pairOpt [n, n'] false) quadTn (.names [n, n'])
      .frequency (pairOpt_eq _ _ _) rfl rfl rfl rfl rfl ⟨by simp [hn, hn'], .inl (by simp)⟩ rfl (.inr rfl)
      (⟨rfl, rfl, by simp⟩ : GoodShapes quadT (quadSeries a b c d) none) R.ht R.hu R.hv quad_times (by
        intro h0; rw [h0] at hus; simp at hus) (fun k => by simp [nodalSingular, pairOpt]) (fun h => by simp [pairOpt] at h)
  obtain ⟨opt, p, tn, constit, m, W, rf, full, o, ind, F⟩ := solve_facts R hc
  have hopt : opt = pairOpt [n, n'] false := Except.ok.inj (F.hopt.symm.trans (pairOpt_eq _ _ _))
  subst hopt
  have hco := F.copt
  refine ⟨co, hc, hco, ?_, ?_⟩
  · left; right; left; left; rw [hco]; rfl
  · exact (C17_honoured idealEnv quadT _ none (some 45) (pairOpts [n, n']) R (by
      show ["constit", "conf_int", "trend", "nodal", "phase", "order_constit", "epoch"].Nodup; decide) .list (by simp) [n, n'] rfl
      rfl (.str "frequency") rfl co hc).1 (.inr ⟨_, rfl⟩)

theorem S2_known : "S2" ∈ constitNames := by decide +kernel

/-- M2 alone, and M2 with S2. -/
example : ∃ c c' r r', solve idealEnv quadT (quadSeries 1 0 2 5) none (some 45) exOpts = .ok c ∧
    solve idealEnv quadT (quadSeries 1 0 2 5) none (some 45) (pairOpts ["M2", "S2"]) = .ok c' ∧
    reconstruct idealEnv quadT.arr c recAll = .ok r ∧ reconstruct idealEnv quadT.arr c' recAll = .ok r' ∧
    misfit (quadSeries 1 0 2 5).data none r' ≤ misfit (quadSeries 1 0 2 5).data none r := by
  obtain ⟨c, hc, D⟩ := quad_run 1 0 2 5 none (.inl rfl)
  obtain ⟨c', hc', h1, h2, h3⟩ := pair_run "M2" "S2" M2_known S2_known 1 0 2 5
  obtain ⟨r, r', g1, g2, g3⟩ := C94_nested idealEnv quadT _ none (some 45) exOpts (pairOpts ["M2", "S2"])
    (quad_ready 1 0 2 5 none (.inl rfl)) (by decide) (by decide) ⟨_, rfl, .inl rfl⟩ c c' hc hc' D.kept h2
    (by rw [D.name]; simp) (by rw [h3.nodup_iff]; decide) (by
      intro n hn; rw [D.name] at hn; rw [h3.mem_iff]; simp only [List.mem_singleton] at hn; simp [hn])
    (by
      intro k hk
      simp only [List.mem_cons, List.not_mem_nil, or_false] at hk
      rcases hk with rfl | rfl | rfl <;> rfl) (fun _ => by rw [D.opt]; rfl) none none (by rw [D.opt]; rfl)
    (by rw [h1]; rfl) (by simp) (fun _ _ h => h) recAll (by rw [D.opt]; rfl) ⟨rfl, rfl, rfl⟩
  exact ⟨c, c', r, r', hc, hc', g1, g2, g3⟩

end

end UTide.Props
