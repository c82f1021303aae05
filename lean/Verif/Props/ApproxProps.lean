import Verif.Props.SwapProps

/-!
# Approximate inference (C13)

With `infer.approximate=True` the ratios should still act on the fitted reference constituents. The code computes the
correction factors (_solve.py 288-291) and never uses them, so the fit is the one of the reference alone.
-/

namespace UTide.Props

noncomputable section

/-- Two calls which differ in nothing but the ratios and phase offsets of an approximate inference. -/
structure ApproxPair (E : Env) (t : TimeArg) (u : Series) (v : Option Series) (lat : Option ℝ)
    (opts opts' : Dict PyVal) (s s' : InferSpec) (c c' : Coef) : Prop where
  ready : Ready E t u v
  keys : opts.keys.Nodup
  keys' : opts'.keys.Nodup
  same : ∀ k, k ≠ "infer" → requested opts k = requested opts' k
  run : solve E t u v lat opts = .ok c
  run' : solve E t u v lat opts' = .ok c'
  spec : readInfer c.opt.infer = .ok (some s)
  spec' : readInfer c'.opt.infer = .ok (some s')
  approx : s.approximate = true
  approx' : s'.approximate = true
  inferred : s'.inferred = s.inferred
  reference : s'.reference = s.reference

/-- C13: some choice of data and ratios makes the fitted reference constituents differ. -/
def C13_full : Prop :=
  ∃ E t u v lat opts opts' s s' c c', ApproxPair E t u v lat opts opts' s s' c c' ∧
    ∃ (i j : ℕ) (n : String), n ∈ s.reference ∧ n ∉ s.inferred ∧ c.name[i]? = some n ∧ c'.name[j]? = some n ∧
      ellipseAt c'.ell j ≠ ellipseAt c.ell i

/-- Two selections with the same fitted constituents. -/
structure SameFitted (a b : Sel) : Prop where
  nrLind : b.nrLind = a.nrLind
  nrName : b.nrName = a.nrName
  nrFrq : b.nrFrq = a.nrFrq
  nNR : b.nNR = a.nNR
  nR : b.nR = a.nR
  name : b.name = a.name
  keys : (b.refs.map fun r => (r.frq, r.lind)) = a.refs.map fun r => (r.frq, r.lind)

theorem mkRef_keys (s : InferSpec) (tref : ℝ) (l : List String) (refs : List RefCon)
    (h : l.mapM (mkRef s tref) = .ok refs) :
    (refs.map fun r => (r.frq, r.lind)) =
      l.map fun n => match constitIndex n with | .ok k => (linFreqs tref k, k) | .error _ => (0, 0) := by
  refine mapM_map _ _ _ _ _ h fun n _ r hr => ?_
  obtain ⟨-, h1, h2, -⟩ := mkRef_ok _ _ _ _ hr
  rw [h1, h2]

theorem mkRef_infs (s : InferSpec) (tref : ℝ) (l : List String) (refs : List RefCon)
    (h : l.mapM (mkRef s tref) = .ok refs) :
    (refs.map fun r => r.inf.map InfCon.name) =
      l.map fun n => (refPositions s.reference n).map fun i => (s.inferred[i]?).getD "" := by
  refine mapM_map _ _ _ _ _ h fun n _ r hr => ?_
  obtain ⟨-, -, -, h3⟩ := mkRef_ok _ _ _ _ hr
  refine mapM_map _ _ _ _ _ h3 fun i _ q hq => ?_
  obtain ⟨_, _, -, -, -, -, -, h4, -, -⟩ := mkInf_ok _ _ _ _ hq
  rw [h4]; rfl

theorem cnstitsel_ratios {tref : ℝ} {minres : Fl} {con : Constit} {s s' : InferSpec} {a b : Sel}
    (h : cnstitsel tref minres con (some s) = .ok a) (h' : cnstitsel tref minres con (some s') = .ok b)
    (hi : s'.inferred = s.inferred) (hr : s'.reference = s.reference) : SameFitted a b := by
  unfold cnstitsel at h h'
  simp only [bind_eq_ok] at h h'
  obtain ⟨l0, hl0, l, hl, refs, hrefs, h⟩ := h
  obtain ⟨l0', hl0', l', hl', refs', hrefs', h'⟩ := h'
  have e0 : l0' = l0 := Except.ok.inj (hl0'.symm.trans hl0)
  have e1 : l' = l := by
    have : removeRI (some s') l0' = removeRI (some s) l0 := by
      unfold removeRI; dsimp only; rw [hi, hr, e0]
    exact Except.ok.inj (hl'.symm.trans (this.trans hl))
  rw [pure_eq_ok] at h h'
  have k1 := mkRef_keys _ _ _ _ hrefs
  have k2 := mkRef_keys _ _ _ _ hrefs'
  have i1 := mkRef_infs _ _ _ _ hrefs
  have i2 := mkRef_infs _ _ _ _ hrefs'
  rw [hr] at k2 i2
  rw [hi] at i2
  cases h; cases h'
  refine ⟨e1, by rw [e1], by rw [e1], by simp [e1], by simp [hr], ?_, k2.trans k1.symm⟩
  simp only [List.flatMap_def]
  rw [e1, hr, i1, i2]

theorem modelRow_approx {a b : Sel} (h : SameFitted a b) (fl : Flags) (tref lat lor : ℝ) (trend : Bool) (t : ℝ) :
    modelRow fl tref lat lor trend true b t = modelRow fl tref lat lor trend true a t := by
  have e : ∀ s : Sel, s.refs.map (etilp fl tref lat true t) =
      (s.refs.map fun r => (r.frq, r.lind)).map fun q => utE fl tref lat t q.1 q.2 := by
    intro s; rw [List.map_map]; rfl
  have e' : ∀ s : Sel, (s.refs.map fun r => (starRingEnd ℂ) (etilm fl tref lat true t r)) =
      (s.refs.map fun r => (r.frq, r.lind)).map fun q => (starRingEnd ℂ) (utE fl tref lat t q.1 q.2) := by
    intro s; rw [List.map_map]; rfl
  unfold modelRow rowNR
  rw [e, e', e, e', h.keys, h.nrFrq, h.nrLind]

/-- What the two calls share inside. -/
theorem ApproxPair.fit {E : Env} {t : TimeArg} {u : Series} {v : Option Series} {lat : Option ℝ}
    {opts opts' : Dict PyVal} {s s' : InferSpec} {c c' : Coef} (P : ApproxPair E t u v lat opts opts' s s' c c') :
    ∃ p p' tn tn' constit constit' m W rf full full' o o' ind ind',
      Facts E t u v lat opts c c.opt p tn constit m W rf full o ind ∧
      Facts E t u v lat opts' c' c'.opt p' tn' constit' m W rf full' o' ind' ∧
      p.infer = some s ∧ p.ed = p'.ed ∧ p'.nm = p.nm ∧ SameFitted p.sel p'.sel ∧
      c'.opt = { c.opt with infer := c'.opt.infer, twodim := c'.opt.twodim } ∧ c'.opt.twodim = c.opt.twodim := by
  obtain ⟨opt, p, tn, constit, m, W, rf, full, o, ind, F⟩ := solve_facts P.ready P.run
  obtain ⟨opt', p', tn', constit', m', W', rf', full', o', ind', F'⟩ := solve_facts P.ready P.run'
  have hc := F.copt
  have hc' := F'.copt
  subst hc hc'
  have hinf : p.infer = some s := Except.ok.inj (F.prep.hinfer.symm.trans P.spec)
  have hinf' : p'.infer = some s' := Except.ok.inj (F'.prep.hinfer.symm.trans P.spec')
  have hoo := getOpt_infer opts opts' P.keys P.keys' _ _ P.same _ _ F.hopt F'.hopt
  have htd : c'.opt.twodim = c.opt.twodim := by
    exact (getOpt_requests _ P.keys' _ _ F'.hopt).twodim.trans (getOpt_requests _ P.keys _ _ F.hopt).twodim.symm
  have htn : tn' = tn := by
    have h1 := F.prep.init.time
    have h2 := F'.prep.init.time
    rw [hoo] at h2
    exact (Except.ok.inj (h1.symm.trans h2)).symm
  subst htn
  have hed : p.ed = p'.ed := Except.ok.inj (F.prep.init.edit.symm.trans F'.prep.init.edit)
  have hla : p'.lat = p.lat := Option.some.inj (F'.prep.init.hlat.symm.trans F.prep.init.hlat)
  have hcon : constit' = constit := by
    have := F'.prep.cons
    rw [hoo] at this
    exact (Except.ok.inj (F.prep.cons.symm.trans this)).symm
  have hsel : SameFitted p.sel p'.sel := by
    have h1 := F.prep.hsel
    have h2 := F'.prep.hsel
    rw [hinf] at h1
    rw [hinf', hoo, ← hed, hcon] at h2
    exact cnstitsel_ratios h1 h2 P.inferred P.reference
  have hnm : p'.nm = p.nm := by
    rw [F.prep.nm, F'.prep.nm, hoo]
    unfold numCols
    rw [hsel.nNR, hsel.nR]
  have hB : p'.B = p.B := by
    rw [F.prep.B, F'.prep.B, hinf, hinf', hoo, ← hed, hla]
    have a1 : approxOf (some s) = true := P.approx
    have a2 : approxOf (some s') = true := P.approx'
    rw [a1, a2]
    exact List.map_congr_left fun τ _ => modelRow_approx hsel _ _ _ _ _ _
  have hfit : stageFit E p' = stageFit E p := by
    unfold stageFit
    rw [F.prep.hopt, F'.prep.hopt, hnm, hB, ← hed, hoo]
  have hm := F'.solved.fit
  rw [hfit, F.solved.fit] at hm
  have h3 := Except.ok.inj hm
  obtain ⟨rfl, rfl, rfl⟩ : m = m' ∧ W = W' ∧ rf = rf' := by
    simpa only [Prod.mk.injEq] using h3
  exact ⟨p, p', tn', tn', constit, constit', m, W, rf, full, full', o, o', ind, ind', F, F', hinf, hed, hnm, hsel,
    hoo, htd⟩

/-- A name at a position of the selection which is not the name of an inferred constituent is a fitted one. -/
theorem fitted_position {tref : ℝ} {minres : Fl} {con : Constit} {s : InferSpec} {sel : Sel}
    (h : cnstitsel tref minres con (some s) = .ok sel) (k : ℕ) (n : String) (hk : sel.name[k]? = some n)
    (hn : n ∉ s.inferred) : k < sel.nNR + sel.nR := by
  by_contra hge
  push Not at hge
  have hal := cnstitsel_aligned _ _ _ _ _ h
  obtain ⟨l0, -, -, -, -, hrefs, hname⟩ := cnstitsel_some _ _ _ _ _ h
  have h1 : (sel.nrName ++ firsts s.reference).length = sel.nNR + sel.nR := by
    rw [List.length_append, hal.nrName, List.length_map, ← hal.nNR, hal.nR, mapM_length _ _ _ hrefs]
  rw [hname, List.getElem?_append_right (by rw [h1]; exact hge)] at hk
  have hmem := List.mem_of_getElem? hk
  rw [List.mem_flatMap] at hmem
  obtain ⟨r, hr, hm⟩ := hmem
  rw [List.mem_map] at hm
  obtain ⟨q, hq, rfl⟩ := hm
  obtain ⟨nm, -, hmk⟩ := mapM_mem' _ _ _ hrefs r hr
  obtain ⟨-, -, -, h3⟩ := mkRef_ok _ _ _ _ hmk
  obtain ⟨i, -, hi⟩ := mapM_mem' _ _ _ h3 q hq
  obtain ⟨_, _, -, -, -, -, -, h4, -, -⟩ := mkInf_ok _ _ _ _ hi
  exact hn (List.mem_of_getElem? h4)

/-- A reference which is not itself inferred has one position. -/
theorem reference_position {tref : ℝ} {minres : Fl} {con : Constit} {s : InferSpec} {sel : Sel}
    (h : cnstitsel tref minres con (some s) = .ok sel) (k k' : ℕ) (n : String) (hk : sel.name[k]? = some n)
    (hk' : sel.name[k']? = some n) (hn : n ∉ s.inferred) (hr : n ∈ s.reference) : k = k' := by
  have l1 := fitted_position h k n hk hn
  have l2 := fitted_position h k' n hk' hn
  have hal := cnstitsel_aligned _ _ _ _ _ h
  obtain ⟨l0, -, ⟨q, hq1, hq2⟩, -, -, hrefs, hname⟩ := cnstitsel_some _ _ _ _ _ h
  have hlen : sel.nrName.length = sel.nNR := by rw [hal.nrName, List.length_map, ← hal.nNR]
  have hR : (firsts s.reference).length = sel.nR := by rw [hal.nR, mapM_length _ _ _ hrefs]
  have hnot : n ∉ sel.nrName := by
    rw [hal.nrName, List.mem_map]
    rintro ⟨i, hi, rfl⟩
    have := (hq2 i (hal.nr_lt i hi)).1 (by rw [hq1, List.mem_filter] at hi; exact hi.2)
    exact this (List.mem_append_right _ hr)
  have key : ∀ j : ℕ, j < sel.nNR + sel.nR → sel.name[j]? = some n →
      sel.nNR ≤ j ∧ (firsts s.reference)[j - sel.nNR]? = some n := by
    intro j hj hjn
    rw [hname, List.append_assoc] at hjn
    have hge : sel.nNR ≤ j := by
      by_contra hlt
      push Not at hlt
      rw [List.getElem?_append_left (by rw [hlen]; exact hlt)] at hjn
      exact hnot (List.mem_of_getElem? hjn)
    rw [List.getElem?_append_right (by rw [hlen]; exact hge), hlen,
      List.getElem?_append_left (by rw [hR]; omega)] at hjn
    exact ⟨hge, hjn⟩
  obtain ⟨a1, a2⟩ := key k l1 hk
  obtain ⟨b1, b2⟩ := key k' l2 hk'
  have hnd := firsts_nodup s.reference
  obtain ⟨x1, x2⟩ := List.getElem?_eq_some_iff.1 a2
  obtain ⟨y1, y2⟩ := List.getElem?_eq_some_iff.1 b2
  have := (List.Nodup.getElem_inj_iff hnd).1 (x2.trans y2.symm)
  omega

/-- The coefficients of a fitted constituent do not involve the ratios. -/
theorem fitted_coef {a b : Sel} (h : SameFitted a b) (m : List ℂ) (k : ℕ)
    (hk : k < (apOf a m).length) (hk' : k < (amOf a m).length) :
    (allAp b m)[k]? = (allAp a m)[k]? ∧ (allAm b m)[k]? = (allAm a m)[k]? := by
  have e1 : apOf b m = apOf a m := by unfold apOf; rw [h.nNR, h.nR]
  have e2 : amOf b m = amOf a m := by unfold amOf; rw [h.nNR, h.nR]
  unfold allAp allAm
  rw [e1, e2, List.getElem?_append_left hk, List.getElem?_append_left hk, List.getElem?_append_left hk',
    List.getElem?_append_left hk']
  exact ⟨rfl, rfl⟩

section

variable {E : Env} {t : TimeArg} {u : Series} {v : Option Series} {lat : Option ℝ} {opts opts' : Dict PyVal}
  {s s' : InferSpec} {c c' : Coef}

/-- The mean, the trend and every constituent which is not inferred are the same whatever the ratios are. -/
theorem C13_independent_partial (P : ApproxPair E t u v lat opts opts' s s' c c') :
    c'.mean = c.mean ∧
    ∀ (i j : ℕ) (n : String), n ∉ s.inferred → (n ∈ s.reference ∨ (AllKept c ∧ c.name.Nodup)) →
      c.name[i]? = some n → c'.name[j]? = some n → ellipseAt c'.ell j = ellipseAt c.ell i := by
  obtain ⟨p, p', tn, tn', constit, constit', m, W, rf, full, full', o, o', ind, ind', F, F', hinf, hed, hnm, hsel,
    hoo, htd⟩ := P.fit
  constructor
  · have h1 : c.mean = full.mean := by rw [F.solved.result]; rfl
    have h2 : c'.mean = full'.mean := by rw [F'.solved.result]; rfl
    rw [h1, h2, F.solved.head.mean, F'.solved.head.mean]
    show UTide.meanOf p'.opt.twodim p'.opt.notrend p'.ed.lor p'.nm m = UTide.meanOf p.opt.twodim p.opt.notrend p.ed.lor p.nm m
    rw [F.prep.hopt, F'.prep.hopt, hnm, hed, hoo, htd]
  · intro i j n hn hor hi hj
    have hs := F.prep.hsel
    rw [hinf] at hs
    have hal := F.prep.aligned
    have hmlen : m.length = numCols (!c.opt.notrend) p.sel := by rw [F.mlen, F.prep.nm]
    rw [F.cname, gather_getElem? _ _ (by rw [← F.solved.name, F.len.name]; exact F.lt)] at hi
    rw [F'.cname, gather_getElem? _ _ (by rw [← F'.solved.name, F'.len.name]; exact F'.lt)] at hj
    rw [Option.bind_eq_some_iff] at hi hj
    obtain ⟨k, hk, hkn⟩ := hi
    obtain ⟨k', hk', hkn'⟩ := hj
    rw [hsel.name] at hkn'
    have hkk : k = k' := by
      rcases hor with hr | ⟨hkept, hnd⟩
      · exact reference_position hs k k' n hkn hkn' hn hr
      · have hnd' : p.sel.name.Nodup := (F.perm_names P.ready P.keys hkept).nodup_iff.1 hnd
        obtain ⟨x1, x2⟩ := List.getElem?_eq_some_iff.1 hkn
        obtain ⟨y1, y2⟩ := List.getElem?_eq_some_iff.1 hkn'
        exact (List.Nodup.getElem_inj_iff hnd').1 (x2.trans y2.symm)
    subst hkk
    have hlt := fitted_position hs k n hkn hn
    have hsz : m.length = 2 * (p.sel.nNR + p.sel.nR) + 1 + (if (!c.opt.notrend) = true then 1 else 0) := hmlen
    have hap : (apOf p.sel m).length = p.sel.nNR + p.sel.nR := by
      unfold apOf; rw [List.length_append, List.length_take, List.length_take, List.length_drop]; omega
    have ham : (amOf p.sel m).length = p.sel.nNR + p.sel.nR := by
      unfold amOf
      rw [List.length_append, List.length_take, List.length_drop, List.length_take, List.length_drop]; omega
    obtain ⟨e1, e2⟩ := fitted_coef hsel m k (by rw [hap]; exact hlt) (by rw [ham]; exact hlt)
    rw [F.ellipse P.keys, F'.ellipse P.keys', hk, hk']
    simp only [Option.bind_some]
    rw [e1, e2]

end

/-- The code never lets the ratios act on a reference. -/
theorem C13_false : ¬ C13_full := by
  rintro ⟨E, t, u, v, lat, opts, opts', s, s', c, c', P, i, j, n, hr, hn, hi, hj, hne⟩
  exact hne ((C13_independent_partial P).2 i j n hn (.inl hr) hi hj)

/-! ## Example -/

/-- M2 and N2 fitted to three samples, NU2 inferred from N2 approximately, with amplitude ratio
1/2 or 1/5. -/
def nearRatio (a : Bool) : ℚ := if a then 1 / 2 else 1 / 5

def nearDict (a : Bool) : PyVal :=
  .dict true [("inferred_names", .seq .list [.str "NU2"]), ("reference_names", .seq .list [.str "N2"]),
    ("amp_ratios", .seq .list [.num (nearRatio a)]), ("phase_offsets", .seq .list [.num 30]), ("approximate", .bool true)]

def nearOpts (a : Bool) : Dict PyVal :=
  [("constit", .seq .list [.str "M2", .str "N2"]), ("conf_int", .str "none"), ("trend", .bool false),
   ("nodal", .bool false), ("phase", .str "raw"), ("order_constit", .str "frequency"), ("epoch", .str "python"),
   ("infer", nearDict a)]

def nearOpt (a : Bool) : Opt := { exOpt false with
    cnstit := .seq .list [.str "M2", .str "N2"], ordercnstit := .str "frequency", infer := nearDict a }

theorem nearOpt_eq (a : Bool) : getOpt (nearOpts a) false = .ok (nearOpt a) := by
  cases a <;> kernel_rfl

def nearSpec (a : Bool) : InferSpec := ⟨["NU2"], ["N2"], [nearRatio a], [30], true⟩

theorem near_read (a : Bool) : readInfer (nearOpt a).infer = .ok (some (nearSpec a)) := by
  cases a <;> rfl

theorem near_returns (E : Env) (a : Bool) : ∃ c, solve E dayT dayU none (some 45) (nearOpts a) = .ok c := by
  refine solve_total_infer E _ _ none 45 _ (nearOpt a) [.fin 0, .fin 0.5, .fin 1] (.names ["M2", "N2"]) .frequency
    (nearSpec a) (nearOpt_eq a) rfl rfl rfl (near_read a) ⟨?_, rfl, ?_, ?_⟩
    (readConstit_list .list (by simp) ["M2", "N2"]) ⟨?_, .inr ⟨rfl, rfl⟩⟩ (.inl ⟨rfl, rfl⟩) rfl (.inr rfl)
    ⟨rfl, rfl, by simp⟩ dayReady.ht dayReady.hu (by simp) ?_
    (by simp [usable, goodSamples, Fl.toReal?, Cell.value?, dayU])
    (fun k => by simp [nodalSingular, nearOpt, exOpt]) (fun h => by simp [nearOpt, exOpt] at h)
    (fun h => by simp [nearSpec] at h) (fun _ => by simp [nearSpec])
  · show ∀ n ∈ ["NU2", "N2"], n ∈ constitNames
    decide +kernel
  · simp [nearSpec]
  · simp [nearSpec]
  · decide +kernel
  · show (Except.ok (List.map _ _) : Except PyErr (List Fl)) = _
    congr 1

theorem near_opt {a : Bool} {c : Coef} (h : solve idealEnv dayT dayU none (some 45) (nearOpts a) = .ok c) :
    c.opt = nearOpt a := by
  obtain ⟨opt, p, tn, constit, m, W, rf, full, o, ind, F⟩ := solve_facts dayReady h
  have h2 := F.hopt
  rw [show (none : Option Series).isSome = false from rfl, nearOpt_eq] at h2
  rw [F.copt, ← Except.ok.inj h2]

theorem near_pair (a b : Bool) : ∃ c c', ApproxPair idealEnv dayT dayU none (some 45) (nearOpts a) (nearOpts b)
    (nearSpec a) (nearSpec b) c c' := by
  obtain ⟨c, hc⟩ := near_returns idealEnv a
  obtain ⟨c', hc'⟩ := near_returns idealEnv b
  refine ⟨c, c', dayReady, by cases a <;> decide, by cases b <;> decide, ?_, hc, hc', by rw [near_opt hc]; exact near_read a,
    by rw [near_opt hc']; exact near_read b, rfl, rfl, rfl, rfl⟩
  intro k hk
  have hk' : ("infer" == k) = false := by simpa using Ne.symm hk
  unfold requested nearOpts
  simp only [List.find?_cons, hk', List.find?_nil]

/-- Two different ratios, one fit: N2 and M2 come out the same. -/
example : ∃ c c', ApproxPair idealEnv dayT dayU none (some 45) (nearOpts true) (nearOpts false)
    (nearSpec true) (nearSpec false) c c' ∧ (nearSpec true).amp ≠ (nearSpec false).amp ∧ c'.mean = c.mean ∧
    ∀ (i j : ℕ), c.name[i]? = some "N2" → c'.name[j]? = some "N2" → ellipseAt c'.ell j = ellipseAt c.ell i := by
  obtain ⟨c, c', P⟩ := near_pair true false
  obtain ⟨h1, h2⟩ := C13_independent_partial P
  refine ⟨c, c', P, ?_, h1, fun i j => h2 i j "N2" (by simp [nearSpec]) (.inl (by simp [nearSpec]))⟩
  simp only [nearSpec, nearRatio, ne_eq, List.cons.injEq]
  norm_num

end

end UTide.Props
