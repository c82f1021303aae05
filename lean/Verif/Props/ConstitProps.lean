import Verif.Props.NestedProps

/-!
# The order of the constituents does not matter: C95
-/

namespace UTide.Props

noncomputable section

open Classical

local notation "conj" => starRingEnd ℂ

/-! ## Permuted columns -/

theorem rowNR_names {tref : ℝ} {sel : Sel} (h : SelAligned tref sel) (fl : Flags) (lat t : ℝ) :
    rowNR fl tref lat sel t = sel.nrName.map (nameBasis fl tref lat t) := by
  unfold rowNR
  rw [h.nrFrq, h.nrName, List.map_map]
  have : List.zipWith (utE fl tref lat t) (sel.nrLind.map (linFreqs tref)) sel.nrLind =
      sel.nrLind.map fun i => utE fl tref lat t (linFreqs tref i) i := by
    conv_lhs => rw [show sel.nrLind = sel.nrLind.map id by simp]
    rw [List.map_map]
    exact zipWith_map_same _ _ _ _
  rw [this]
  exact List.map_congr_left fun i hi => (nameBasis_nameAt fl tref lat t (h.nr_lt i hi)).symm

theorem dot_map_map {α : Type} (l : List α) (f g : α → ℂ) : dot (l.map f) (l.map g) = (l.map fun n => f n * g n).sum := by
  unfold dot
  rw [zipWith_map_same]

/-- A row times coefficients by name, part by part. -/
theorem dot_row_nameCoef {tref : ℝ} {sel : Sel} (h : SelAligned tref sel) (fl : Flags) (lat lor : ℝ) (trend ap : Bool)
    (t : ℝ) (P M : String → ℂ) (mean slope : ℂ) :
    dot (modelRow fl tref lat lor trend ap sel t) (nameCoef sel trend P M mean slope) =
      (sel.nrName.map fun n => nameBasis fl tref lat t n * P n).sum +
      (sel.nrName.map fun n => conj (nameBasis fl tref lat t n) * M n).sum +
      (sel.refs.map fun r => etilp fl tref lat ap t r * P r.name).sum +
      (sel.refs.map fun r => conj (etilm fl tref lat ap t r) * M r.name).sum + dot [1] [mean] +
      dot (if trend then [(((t - tref) / lor : ℝ) : ℂ)] else []) (if trend then [slope] else []) := by
  unfold modelRow nameCoef
  rw [rowNR_names h, List.map_map]
  rw [dot_append _ _ _ _ (by simp), dot_append _ _ _ _ (by simp), dot_append _ _ _ _ (by simp),
    dot_append _ _ _ _ (by simp), dot_append _ _ _ _ (by simp)]
  simp only [dot_map_map, Function.comp]

/-- Two selections of the same constituents. -/
structure SameSel (sel sel' : Sel) : Prop where
  nr : sel'.nrName.Perm sel.nrName
  refs : sel'.refs = sel.refs

theorem SameSel.dot {tref : ℝ} {sel sel' : Sel} (S : SameSel sel sel') (h : SelAligned tref sel) (h' : SelAligned tref sel')
    (fl : Flags) (lat lor : ℝ) (trend ap : Bool) (t : ℝ) (P M : String → ℂ) (mean slope : ℂ) :
    dot (modelRow fl tref lat lor trend ap sel' t) (nameCoef sel' trend P M mean slope) =
      dot (modelRow fl tref lat lor trend ap sel t) (nameCoef sel trend P M mean slope) := by
  rw [dot_row_nameCoef h, dot_row_nameCoef h', S.refs, (S.nr.map _).sum_eq, (S.nr.map _).sum_eq]

theorem SameSel.normSq {sel sel' : Sel} (S : SameSel sel sel') (trend : Bool) (P M : String → ℂ) (mean slope : ℂ) :
    normSq (nameCoef sel' trend P M mean slope) = normSq (nameCoef sel trend P M mean slope) := by
  have : (nameCoef sel' trend P M mean slope).Perm (nameCoef sel trend P M mean slope) := by
    unfold nameCoef
    rw [S.refs]
    exact ((((((S.nr.map P).append (S.nr.map M)).append (List.Perm.refl _)).append (List.Perm.refl _)).append
      (List.Perm.refl _))).append (List.Perm.refl _)
  exact (this.map _).sum_eq

theorem SameSel.cost {tref : ℝ} {sel sel' : Sel} (S : SameSel sel sel') (h : SelAligned tref sel) (h' : SelAligned tref sel')
    (fl : Flags) (lat lor : ℝ) (trend ap : Bool) (ts : List ℝ) (x : List ℂ) (P M : String → ℂ) (mean slope : ℂ) :
    cost (ts.map (modelRow fl tref lat lor trend ap sel')) x (nameCoef sel' trend P M mean slope) =
      cost (ts.map (modelRow fl tref lat lor trend ap sel)) x (nameCoef sel trend P M mean slope) := by
  unfold UTide.cost
  rw [List.zipWith_map_left, List.zipWith_map_left]
  simp only [S.dot h h']

/-- The minimum-norm solution by name does not depend on the order of the columns. -/
theorem SameSel.minNorm {tref : ℝ} {sel sel' : Sel} (S : SameSel sel sel') (h : SelAligned tref sel)
    (h' : SelAligned tref sel') (hn : sel.name.Nodup) (fl : Flags) (lat lor : ℝ) (trend ap : Bool) (ts : List ℝ) (x : List ℂ)
    (P M : String → ℂ) (mean slope : ℂ)
    (hmin : IsMinNormSol (numCols trend sel') (ts.map (modelRow fl tref lat lor trend ap sel')) x
      (nameCoef sel' trend P M mean slope)) :
    IsMinNormSol (numCols trend sel) (ts.map (modelRow fl tref lat lor trend ap sel)) x
      (nameCoef sel trend P M mean slope) := by
  have hl := (nameCoef_blocks h trend P M mean slope).length
  refine ⟨hl, ?_, ?_⟩
  · intro z hz
    obtain ⟨P', M', mean', slope', -, -, rfl⟩ := exists_nameCoef h hn trend z hz
    rw [← S.cost h h', ← S.cost h h']
    exact hmin.optimal _ (nameCoef_blocks h' trend P' M' mean' slope').length
  · intro z hz hc
    obtain ⟨P', M', mean', slope', -, -, rfl⟩ := exists_nameCoef h hn trend z hz
    rw [← S.cost h h', ← S.cost h h'] at hc
    rw [← S.normSq, ← S.normSq]
    exact hmin.minimal _ (nameCoef_blocks h' trend P' M' mean' slope').length hc

/-- The references do not depend on the list of constituents. -/
theorem cnstitsel_refs {tref : ℝ} {mr mr' : Fl} {con con' : Constit} {inf : Option InferSpec} {sel sel' : Sel}
    (h : cnstitsel tref mr con inf = .ok sel) (h' : cnstitsel tref mr' con' inf = .ok sel') : sel'.refs = sel.refs := by
  unfold cnstitsel at h h'
  simp only [bind_eq_ok] at h h'
  obtain ⟨l0, -, l, -, h⟩ := h
  obtain ⟨l0', -, l', -, h'⟩ := h'
  cases inf with
  | none =>
    dsimp only at h h'
    rw [pure_eq_ok] at h h'
    cases h; cases h'; rfl
  | some s =>
    dsimp only at h h'
    rw [bind_eq_ok] at h h'
    obtain ⟨refs, hr, h⟩ := h
    obtain ⟨refs', hr', h'⟩ := h'
    rw [pure_eq_ok] at h h'
    cases h; cases h'
    exact Except.ok.inj (hr'.symm.trans hr)

/-! ## C95 -/

/-- **C95.** Two ordinary least-squares analyses of the same record for the same constituents, however they were listed
(another order, or chosen automatically), and whatever the order of the results: the same ellipse for each constituent,
the same mean and trend, the same prediction. -/
theorem C95_constituents (E : Env) (t : TimeArg) (u : Series) (v : Option Series) (lat : Option ℝ) (opts opts' : Dict PyVal)
    (R : Ready E t u v) (hnd : opts.keys.Nodup) (hnd' : opts'.keys.Nodup)
    (hm : ∃ x, requested opts "method" = some x ∧ IsStr x "ols")
    (hm' : ∃ x, requested opts' "method" = some x ∧ IsStr x "ols") (c c' : Coef)
    (h : solve E t u v lat opts = .ok c) (h' : solve E t u v lat opts' = .ok c') (hk : AllKept c) (hk' : AllKept c')
    (hn : c.name.Nodup) (hp : c'.name.Perm c.name)
    (hsame : ∀ k ∈ ["nodal", "phase", "epoch", "trend", "infer"], requested opts k = requested opts' k) :
    SameTide c c' ∧ c'.mean = c.mean ∧ c'.reftime = c.reftime ∧
    ∀ (E' : Env) (t' : TimeArr) (a : RecArgs), RecArgs.Everything a → reconstruct E' t' c' a = reconstruct E' t' c a := by
  obtain ⟨opt, p, tn0, constit, m, W, rf, full, o, ind, F⟩ := solve_facts R h
  obtain ⟨opt', p', tn1, constit', m', W', rf', full', o', ind', F'⟩ := solve_facts R h'
  obtain ⟨e1, e2, e3, e4⟩ := getOpt_fields opts opts' hnd hnd' _ _ _ F.hopt F'.hopt
  have e1 := e1 (hsame _ (by simp)) (hsame _ (by simp))
  have e2 := e2 (hsame _ (by simp))
  have e3 := e3 (hsame _ (by simp))
  have e4 := e4 (hsame _ (by simp))
  have hols : opt.method = .ols := by
    obtain ⟨x, hx, hs⟩ := hm
    exact (getOpt_requests _ hnd _ _ F.hopt).ols x hx ((eqStr_iff _ _).2 hs)
  have hols' : opt'.method = .ols := by
    obtain ⟨x, hx, hs⟩ := hm'
    exact (getOpt_requests _ hnd' _ _ F'.hopt).ols x hx ((eqStr_iff _ _).2 hs)
  have htn := F'.prep.init.time
  rw [e2, F.prep.init.time] at htn
  cases Except.ok.inj htn
  have hed : p'.ed = p.ed := Except.ok.inj (F'.prep.init.edit.symm.trans F.prep.init.edit)
  have hlat : p'.lat = p.lat := Option.some.inj (F'.prep.init.hlat.symm.trans F.prep.init.hlat)
  have hinf : p'.infer = p.infer := by
    have := F'.prep.hinfer
    rw [e4, F.prep.hinfer] at this
    exact (Except.ok.inj this).symm
  have href : c'.reftime = c.reftime := by rw [F.creftime, F'.creftime, hed]
  have hsel' := F'.prep.hsel
  rw [hed, hinf] at hsel'
  have S : SameSel p.sel p'.sel := by
    have hr := cnstitsel_refs F.prep.hsel hsel'
    refine ⟨?_, hr⟩
    have h1 := (F'.perm_names R hnd' hk').symm.trans (hp.trans (F.perm_names R hnd hk))
    rw [F.prep.aligned.names, F'.prep.aligned.names, hr, List.append_assoc, List.append_assoc] at h1
    exact (List.perm_append_right_iff _).1 h1
  have hal := F.prep.aligned
  have hal' := F'.prep.aligned
  rw [hed] at hal'
  have hn1 : p.sel.name.Nodup := (F.perm_names R hnd hk).nodup_iff.1 hn
  have hn2 : p'.sel.name.Nodup := (F'.perm_names R hnd' hk').nodup_iff.1 (hp.nodup_iff.2 hn)
  obtain ⟨P, M, mean, slope, hP, hM, hs, hmc⟩ := F'.exists_coef hn2 m' F'.mlen
  obtain ⟨r1, r2⟩ := F'.read hnd' P M mean slope hP hM hmc
  have hmin := F'.minNorm R hols'
  rw [F'.prep.nm, F'.prep.B, hmc, hed, hlat, e1, e3, hinf] at hmin
  have hmin := S.minNorm hal hal' hn1 _ _ _ _ _ _ _ _ _ _ _ hmin
  have hmin0 := F.minNorm R hols
  rw [F.prep.nm, F.prep.B] at hmin0
  have hm0 : m = _ := IsMinNormSol.unique (by
    have := F.prep.height R.ht R.hu R.hv
    rw [F.prep.B] at this; exact this) hmin0 hmin
  have hP' : TiedBy p.sel InfCon.Rp P := fun r hr q hq => hP r (by rw [S.refs]; exact hr) q hq
  have hM' : TiedBy p.sel InfCon.Rm M := fun r hr q hq => hM r (by rw [S.refs]; exact hr) q hq
  obtain ⟨r3, r4⟩ := F.read hnd P M mean slope hP' hM' hm0
  have hmean : c'.mean = c.mean := by rw [r2, r4, e3]
  have hlev : ∀ τ, level c' τ = level c τ := by
    intro τ
    unfold level
    rw [hmean, href]
  have hell : ∀ (i j : ℕ) (n : String), c.name[i]? = some n → c'.name[j]? = some n →
      ellipseAt c'.ell j = ellipseAt c.ell i := by
    intro i j n hi hj
    rw [r1, r3, ellipseAt_map, ellipseAt_map, hi, hj]
  refine ⟨⟨hell, hlev⟩, hmean, href, ?_⟩
  intro E' t' a ha
  obtain ⟨A, B, -, -, -, -, -, hAB, -⟩ := F.components R hnd hk hn
  rw [predicted R hnd h hk A B hAB a ha E' t', predicted R hnd' h' hk' A B (by
    intro j n hj
    obtain ⟨i, hi⟩ := List.mem_iff_getElem?.1 (hp.subset (List.mem_of_getElem? hj))
    obtain ⟨e, g1, g2⟩ := hAB i n hi
    exact ⟨e, by rw [hell i j n hi hj, g1], g2⟩) a ha E' t']
  congr 1
  funext tn
  refine List.map_congr_left fun x _ => ?_
  congr 1
  funext τ
  have hh : ∀ n, harmonic c' n τ = harmonic c n τ := by
    intro n
    rw [F.harmonic_eq, F'.harmonic_eq, hed, hlat, e1]
  simp only [hlev, hh]
  rw [(hp.map _).sum_eq]

/-- The selected names for a list and a rearranged list. -/
theorem cnstitsel_perm {tref : ℝ} {mr mr' : Fl} {ns ns' : List String} {inf : Option InferSpec} {sel sel' : Sel}
    (hp : ns'.Perm ns) (h : cnstitsel tref mr (.names ns) inf = .ok sel) (h' : cnstitsel tref mr' (.names ns') inf = .ok sel') :
    sel'.name.Perm sel.name := by
  have key : ∀ {l : List String} {r : List ℕ}, l.mapM constitIndex = .ok r → r = l.map fun n => constitNames.idxOf n := by
    intro l r hr
    rw [← List.map_id r]
    refine mapM_map constitIndex id _ l r hr fun n _ i hi => ?_
    have h2 := idxOf_nameAt (constitIndex_lt hi)
    rw [nameAt_constitIndex hi] at h2
    exact h2.symm
  have hrefs := cnstitsel_refs h h'
  rw [(cnstitsel_aligned _ _ _ _ _ h).names, (cnstitsel_aligned _ _ _ _ _ h').names, hrefs]
  refine List.Perm.append_right _ (List.Perm.append_right _ ?_)
  rw [(cnstitsel_aligned _ _ _ _ _ h).nrName, (cnstitsel_aligned _ _ _ _ _ h').nrName]
  refine List.Perm.map _ ?_
  have hstart : ∀ {mr : Fl} {ns : List String} {sel : Sel}, cnstitsel tref mr (.names ns) inf = .ok sel →
      removeRI inf (ns.map fun n => constitNames.idxOf n) = .ok sel.nrLind := by
    intro mr ns sel h
    unfold cnstitsel at h
    simp only [bind_eq_ok] at h
    obtain ⟨l0, hl0, l, hl, h⟩ := h
    rw [key (show ns.mapM constitIndex = .ok l0 from hl0)] at hl
    cases inf with
    | none =>
      dsimp only at h
      rw [pure_eq_ok] at h
      cases h; exact hl
    | some s =>
      dsimp only at h
      rw [bind_eq_ok] at h
      obtain ⟨refs, hr, h⟩ := h
      rw [pure_eq_ok] at h
      cases h; exact hl
  have g := hstart h
  have g' := hstart h'
  unfold removeRI at g g'
  cases inf with
  | none =>
    rw [← Except.ok.inj g, ← Except.ok.inj g']
    exact hp.map _
  | some s =>
    dsimp only at g g'
    rw [bind_eq_ok] at g g'
    obtain ⟨ri, h1, g⟩ := g
    obtain ⟨ri', h1', g'⟩ := g'
    rw [pure_eq_ok] at g g'
    cases Except.ok.inj (h1.symm.trans h1')
    rw [← Except.ok.inj g, ← Except.ok.inj g']
    exact (hp.map _).filter _

/-- **C95** for a list and a rearranged list, also with inference. -/
theorem C95_list (E : Env) (t : TimeArg) (u : Series) (v : Option Series) (lat : Option ℝ) (opts opts' : Dict PyVal)
    (R : Ready E t u v) (hnd : opts.keys.Nodup) (hnd' : opts'.keys.Nodup)
    (hm : ∃ x, requested opts "method" = some x ∧ IsStr x "ols")
    (k k' : SeqKind) (hkd : k ≠ .ndarray) (hkd' : k' ≠ .ndarray) (ns ns' : List String)
    (hc : requested opts "constit" = some (.seq k (ns.map .str)))
    (hc' : requested opts' "constit" = some (.seq k' (ns'.map .str))) (hp : ns'.Perm ns)
    (hsame : ∀ k, k ≠ "constit" → requested opts k = requested opts' k) (c c' : Coef)
    (h : solve E t u v lat opts = .ok c) (h' : solve E t u v lat opts' = .ok c') (hk : AllKept c) (hk' : AllKept c')
    (hn : c.name.Nodup) :
    c'.name.Perm c.name ∧ SameTide c c' ∧ c'.mean = c.mean ∧ c'.reftime = c.reftime ∧
    ∀ (E' : Env) (t' : TimeArr) (a : RecArgs), RecArgs.Everything a → reconstruct E' t' c' a = reconstruct E' t' c a := by
  have hperm : c'.name.Perm c.name := by
    obtain ⟨opt, p, tn0, constit, m, W, rf, full, o, ind, F⟩ := solve_facts R h
    obtain ⟨opt', p', tn1, constit', m', W', rf', full', o', ind', F'⟩ := solve_facts R h'
    obtain ⟨-, e2, -, e4⟩ := getOpt_fields opts opts' hnd hnd' _ _ _ F.hopt F'.hopt
    have e2 := e2 (hsame _ (by decide))
    have e4 := e4 (hsame _ (by decide))
    have htn := F'.prep.init.time
    rw [e2, F.prep.init.time] at htn
    cases Except.ok.inj htn
    have hed : p'.ed = p.ed := Except.ok.inj (F'.prep.init.edit.symm.trans F.prep.init.edit)
    have hinf : p'.infer = p.infer := by
      have := F'.prep.hinfer
      rw [e4, F.prep.hinfer] at this
      exact (Except.ok.inj this).symm
    have h1 : constit = .names ns := by
      have := F.prep.cons
      rw [(getOpt_requests _ hnd _ _ F.hopt).constit _ hc, readConstit_list k hkd] at this
      exact (Except.ok.inj this).symm
    have h2 : constit' = .names ns' := by
      have := F'.prep.cons
      rw [(getOpt_requests _ hnd' _ _ F'.hopt).constit _ hc', readConstit_list k' hkd'] at this
      exact (Except.ok.inj this).symm
    have g := F.prep.hsel
    have g' := F'.prep.hsel
    rw [h1] at g
    rw [h2, hed, hinf] at g'
    exact (F'.perm_names R hnd' hk').trans ((cnstitsel_perm hp g g').trans (F.perm_names R hnd hk).symm)
  refine ⟨hperm, C95_constituents E t u v lat opts opts' R hnd hnd' hm ?_ c c' h h' hk hk' hn hperm ?_⟩
  · obtain ⟨x, hx, hs⟩ := hm
    exact ⟨x, by rw [← hsame _ (by decide)]; exact hx, hs⟩
  · intro k hk
    refine hsame k ?_
    rintro rfl
    simp at hk

/-- M2 and S2 in both orders, from four samples (fewer than the five unknowns, so the columns are dependent). -/
example : ∃ c c' e e', solve idealEnv quadT (quadSeries 1 0 2 5) none (some 45) (pairOpts ["M2", "S2"]) = .ok c ∧
    solve idealEnv quadT (quadSeries 1 0 2 5) none (some 45) (pairOpts ["S2", "M2"]) = .ok c' ∧
    c'.mean = c.mean ∧ (∃ i j, c.name[i]? = some "S2" ∧ c'.name[j]? = some "S2" ∧ ellipseAt c.ell i = some e ∧
      ellipseAt c'.ell j = some e' ∧ e' = e) := by
  obtain ⟨c, hc, h1, h2, h3⟩ := pair_run "M2" "S2" M2_known S2_known 1 0 2 5
  obtain ⟨c', hc', h1', h2', h3'⟩ := pair_run "S2" "M2" S2_known M2_known 1 0 2 5
  have hn : c.name.Nodup := by rw [h3.nodup_iff]; decide
  obtain ⟨g0, g1, g2, -, -⟩ := C95_list idealEnv quadT (quadSeries 1 0 2 5) none (some 45) (pairOpts ["M2", "S2"])
    (pairOpts ["S2", "M2"]) (quad_ready 1 0 2 5 none (.inl rfl)) (by decide) (by decide) ⟨_, rfl, .inl rfl⟩ .list .list
    (by simp) (by simp) ["M2", "S2"] ["S2", "M2"] rfl rfl (List.Perm.swap _ _ _) (by
      intro k hk
      unfold requested pairOpts
      have hne : ("constit" == k) = false := by simpa using fun h => hk h.symm
      simp only [List.find?_cons, hne]) c c' hc hc' h2 h2' hn
  obtain ⟨i, hi⟩ := List.mem_iff_getElem?.1 (h3.mem_iff.2 (show "S2" ∈ ["M2", "S2"] by simp))
  obtain ⟨j, hj⟩ := List.mem_iff_getElem?.1 (h3'.mem_iff.2 (show "S2" ∈ ["S2", "M2"] by simp))
  have hR := quad_ready 1 0 2 5 none (.inl rfl)
  obtain ⟨opt, p, tn0, constit, m, W, rf, full, o, ind, F⟩ := solve_facts hR hc
  obtain ⟨A, B, -, -, -, -, -, hAB, -⟩ := F.components hR (by decide) h2 hn
  obtain ⟨e, he, -⟩ := hAB i _ hi
  exact ⟨c, c', e, e, hc, hc', g2, i, j, hi, hj, he, by rw [g1.ellipse i j _ hi hj, he], rfl⟩

end

end UTide.Props
