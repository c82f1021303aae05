import Verif.Props.RelProps

/-!
# Offset, drift, dimension and axes of the series: C06, C07, C08
-/

namespace UTide.Props

noncomputable section

open Classical

local notation "conj" => starRingEnd ℂ

/-- The options other than `infer` determine everything but that field and the dimension. -/
theorem getOpt_infer (opts opts' : Dict PyVal) (hnd : opts.keys.Nodup) (hnd' : opts'.keys.Nodup) (is2D is2D' : Bool)
    (heq : ∀ k, k ≠ "infer" → requested opts k = requested opts' k) (q q' : Opt)
    (h : getOpt opts is2D = .ok q) (h' : getOpt opts' is2D' = .ok q') :
    q' = { q with infer := q'.infer, twodim := q'.twodim } := by
  obtain ⟨hk, c, oc, ci, me, tr, ph, no, inf, ray, rk, wh, ve, ep, h1, h2, h3, h4, h5, h6, h7, h8, h9, h10,
      h11, h12, h13, r1, r2, r3, r4, r5, r6, r7, r8, r9, r10, r11, r12, r13, r14, r15, r16⟩ := getOpt_ok opts hnd is2D q h
  obtain ⟨hk', c', oc', ci', me', tr', ph', no', inf', ray', rk', wh', ve', ep', h1', h2', h3', h4', h5', h6', h7', h8', h9', h10',
      h11', h12', h13', r1', r2', r3', r4', r5', r6', r7', r8', r9', r10', r11', r12', r13', r14', r15', r16'⟩ :=
    getOpt_ok opts' hnd' is2D' q' h'
  simp only [requested_eq] at heq
  have tr1 : ∀ {k : String} {x y : PyVal}, k ≠ "infer" → effective opts k = some x →
      effective opts' k = some y → y = x := by
    intro k x y hk hx hy
    rw [← heq k hk, hx] at hy
    exact (Option.some.inj hy).symm
  obtain rfl := tr1 (by decide) h1 h1'
  obtain rfl := tr1 (by decide) h3 h3'
  obtain rfl := tr1 (by decide) h4 h4'
  obtain rfl := tr1 (by decide) h5 h5'
  obtain rfl := tr1 (by decide) h6 h6'
  obtain rfl := tr1 (by decide) h7 h7'
  obtain rfl := tr1 (by decide) h2 h2'
  obtain rfl := tr1 (by decide) h9 h9'
  obtain rfl := tr1 (by decide) h10 h10'
  obtain rfl := tr1 (by decide) h11 h11'
  obtain rfl := tr1 (by decide) h12 h12'
  obtain rfl := tr1 (by decide) h13 h13'
  have okinj : ∀ {x : Except PyErr Bool} {a b : Bool}, x = .ok a → x = .ok b → b = a := by
    intro x a b ha hb; rw [ha] at hb; exact (Except.ok.inj hb).symm
  have e1 : q'.notrend = q.notrend := by
    have := okinj r6 r6'; exact Bool.not_inj this
  have e2 := okinj r7 r7'
  have e3 := okinj r8 r8'
  have e5 := r9.unique r9'
  have e4 : q'.ordercnstit = q.ordercnstit := by
    rw [e5.1, r4] at r4'; exact (Except.ok.inj r4').symm
  have e6 : q'.flags.nodsatlint = q.flags.nodsatlint := okinj r11 r11'
  have e7 : q'.flags.gwchlint = q.flags.gwchlint := okinj r13 r13'
  have e8 : q'.flags.nodsatnone = q.flags.nodsatnone := by
    rw [e6] at r12'
    by_cases hl : q.flags.nodsatlint = true
    · rw [if_pos hl] at r12 r12'; rw [r12, r12']
    · rw [if_neg hl] at r12 r12'
      exact Bool.not_inj (okinj r12 r12')
  have e9 : q'.flags.gwchnone = q.flags.gwchnone := by
    rw [e7] at r14'
    by_cases hl : q.flags.gwchlint = true
    · rw [if_pos hl] at r14 r14'; rw [r14, r14']
    · rw [if_neg hl] at r14 r14'
      exact okinj r14 r14'
  have e10 : q'.method = q.method := by
    cases hm : q.method with
    | ols =>
      cases hm' : q'.method with
      | ols => rfl
      | robust kw' =>
        rw [hm] at r15; rw [hm'] at r15'
        simp only at r15 r15'
        rw [r15] at r15'; simp at r15'
    | robust kw =>
      cases hm' : q'.method with
      | ols =>
        rw [hm] at r15; rw [hm'] at r15'
        simp only at r15 r15'
        rw [r15'] at r15; simp at r15
      | robust kw' =>
        rw [hm] at r15; rw [hm'] at r15'
        simp only at r15 r15'
        obtain ⟨-, b, rfl⟩ := r15
        obtain ⟨-, b', hb⟩ := r15'
        injection hb with hb1 hb2
        rw [hb2]
  have e11 : q'.rmin = q.rmin := by
    rcases r16 with hr | ⟨b, hr, hq⟩
    · rcases r16' with hr' | ⟨b', hr', hq'⟩
      · rw [hr] at hr'; injection hr' with hr'; exact hr'.symm
      · rw [hr] at hr'; simp at hr'
    · rcases r16' with hr' | ⟨b', hr', hq'⟩
      · rw [hr] at hr'; simp at hr'
      · rw [hr] at hr'; injection hr' with hr'; rw [hq, hq', hr']
  have e12 : q'.flags = q.flags := by
    exact flags_ext _ _ e6 e8 e7 e9
  have e14 : q'.cnstit = q.cnstit := by rw [r2, r2']
  have e15 : q'.epoch = q.epoch := by rw [r5, r5']
  have e16 : q'.nodiagn = q.nodiagn := by rw [r10, r10', e5.1]
  obtain ⟨e5a, e5b⟩ := e5
  cases q; cases q'
  simp only at e1 e2 e3 e4 e5a e5b e10 e11 e12 e14 e15 e16
  subst e1 e2 e3 e4 e5a e5b e10 e11 e12 e14 e15 e16
  rfl

/-! ## C06 -/

theorem zipWith_append' {α β γ : Type} (f : α → β → γ) (a b : List α) (a' b' : List β) (h : a.length = a'.length) :
    List.zipWith f (a ++ b) (a' ++ b') = List.zipWith f a a' ++ List.zipWith f b b' := by
  induction a generalizing a' with
  | nil => cases a' with
    | nil => rfl
    | cons y a' => simp at h
  | cons x a ih => cases a' with
    | nil => simp at h
    | cons y a' => simp [ih a' (by simpa using h)]

theorem vadd_nameCoef (sel : Sel) (trend : Bool) (P M : String → ℂ) (mean slope a b : ℂ) :
    vadd (nameCoef sel trend P M mean slope) (nameCoef sel trend (fun _ => 0) (fun _ => 0) a b) =
      nameCoef sel trend P M (mean + a) (slope + b) := by
  unfold vadd nameCoef
  rw [zipWith_append' _ _ _ _ _ (by simp; omega), zipWith_append' _ _ _ _ _ (by simp; omega),
    zipWith_append' _ _ _ _ _ (by simp; omega), zipWith_append' _ _ _ _ _ (by simp),
    zipWith_append' _ _ _ _ _ (by simp)]
  simp only [zipWith_map_same, add_zero]
  cases trend <;> simp

/-- The coefficients of the mean and the slope that make up an offset and a drift. -/
def driftCoef (c : Coef) (p : Prep) (a b : ℂ) : List ℂ :=
  nameCoef p.sel (!c.opt.notrend) (fun _ => 0) (fun _ => 0) a (b * (p.ed.lor : ℂ))

section
variable {E : Env} {t : TimeArg} {u : Series} {v : Option Series} {lat : Option ℝ} {opts : Dict PyVal}
  {c : Coef} {p : Prep} {tn : List Fl} {constit : Constit} {m : List ℂ} {W : List ℝ}
  {rf : Option RobOut} {full : Coef} {o : Order} {ind : List ℕ}
  {u' : Series} {v' : Option Series} {c' : Coef} {p' : Prep} {constit' : Constit} {m' : List ℂ} {W' : List ℝ}
  {rf' : Option RobOut} {full' : Coef} {ind' : List ℕ}

theorem Facts.drift_row (F : Facts E t u v lat opts c c.opt p tn constit m W rf full o ind) (R : Ready E t u v)
    (hnd : opts.keys.Nodup) (hk : AllKept c) (hex : approxOf p.infer = false) (a b : ℂ) (hb : c.opt.notrend = true → b = 0)
    (τ : ℝ) (hτ : τ ∈ p.ed.t) : dot (rowAt p τ) (driftCoef c p a b) = a + b * ((τ - c.reftime : ℝ) : ℂ) := by
  have hT0 : ∀ Rr, TiedBy p.sel Rr (fun _ => 0) := fun Rr r _ q _ => by simp
  rw [driftCoef, F.row_curve R hnd hk hex _ _ a b (hT0 _) (hT0 _) hb _ hτ]
  simp [rotaryCurve]

theorem Facts.drift_length (F : Facts E t u v lat opts c c.opt p tn constit m W rf full o ind) (a b : ℂ) :
    (driftCoef c p a b).length = p.nm := by
  rw [F.prep.nm]; exact (nameCoef_blocks F.prep.aligned _ _ _ _ _).length

theorem Facts.rows_at (F : Facts E t u v lat opts c c.opt p tn constit m W rf full o ind) : p.B = p.ed.t.map (rowAt p) := by
  rw [F.prep.B]
  unfold rowAt
  rw [F.prep.hopt]

theorem offset_coef (F : Facts E t u v lat opts c c.opt p tn constit m W rf full o ind)
    (F' : Facts E t u' v' lat opts c' c.opt p' tn constit' m' W' rf' full' o ind') (R : Ready E t u v) (R' : Ready E t u' v')
    (hnd : opts.keys.Nodup) (hols : c.opt.method = .ols) (hk : AllKept c) (hex' : approxOf p.infer = false)
    (hsep : Separated c p.infer v.isSome (SampleTime tn u.data (v.map Series.data)))
    (a b : ℂ) (hb : c.opt.notrend = true → b = 0)
    (T : Twin (fun τ x => x + (a + b * ((τ - c.reftime : ℝ) : ℂ))) p p') :
    xraw p'.ed = vadd (xraw p.ed) (p.B.map fun r => dot r (driftCoef c p a b)) ∧ m' = vadd m (driftCoef c p a b) := by
  set d := driftCoef c p a b with hd
  have hdl : d.length = p.nm := by
    exact F.drift_length a b
  have hh := F.prep.height R.ht R.hu R.hv
  obtain ⟨us, h1, h2, h3⟩ := T.x
  have hx : xraw p'.ed = vadd (xraw p.ed) (p.B.map fun r => dot r d) := by
    have hB : p.B = us.map fun s => rowAt p s.1 := by
      rw [F.prep.B, h1, List.map_map]
      unfold rowAt
      rw [F.prep.hopt]
      rfl
    rw [h3, h2, hB, List.map_map]
    unfold vadd
    rw [zipWith_map_same]
    refine List.map_congr_left fun s hs' => ?_
    have hτ : s.1 ∈ p.ed.t := by rw [h1]; exact List.mem_map_of_mem hs'
    simp only [Function.comp]
    rw [hd, F.drift_row R hnd hk hex' a b hb _ hτ]
  have hi' := F.indep R hnd hk hex' hsep
  have a1 := F.minNorm R hols
  have a2 := F'.minNorm R' hols
  rw [T.nm, T.B, hx] at a2
  have hlen : m.length = d.length := by rw [F.mlen, hdl]
  have hmm : m' = vadd m d := by
    refine optimal_unique p.nm p.B _ _ _ (by simp [hh]) hi' a2.length (by simp [F.mlen, hdl]) a2.optimal ?_
    intro y hy
    rw [cost_shift _ _ _ _ hlen hh]
    have hy' : y = vadd (vadd y (vscale (-1) d)) d := by
      apply List.ext_getElem
      · simp [hy, hdl]
      · intro i k1 k2
        simp [vadd, vscale]
    rw [hy', cost_shift _ _ _ _ (by simp [hy, hdl]) hh]
    exact a1.optimal _ (by simp [hy, hdl])
  exact ⟨hx, hmm⟩
end

/-- A constant offset moves the mean, a linear drift moves the slope; nothing else changes. -/
theorem C06_offset (E : Env) (t : TimeArg) (u u' : Series) (v v' : Option Series) (lat : Option ℝ) (opts : Dict PyVal)
    (R : Ready E t u v) (R' : Ready E t u' v') (hv : v'.isSome = v.isSome) (hnd : opts.keys.Nodup)
    (hm : ∃ x, requested opts "method" = some x ∧ IsStr x "ols")
    (c c' : Coef) (h : solve E t u v lat opts = .ok c) (h' : solve E t u' v' lat opts = .ok c') (hk : AllKept c)
    (sp : Option InferSpec) (hi : readInfer c.opt.infer = .ok sp) (hex : ∀ s, sp = some s → s.approximate = false)
    (tn : List Fl) (htn : normalizeTime E.dt64 t.arr c.opt.epoch = .ok tn)
    (hsep : Separated c sp v.isSome (SampleTime tn u.data (v.map Series.data)))
    (a b : ℂ) (hb : c.opt.notrend = true → b = 0)
    (hu : Transformed (fun τ x => x + (a + b * ((τ - c.reftime : ℝ) : ℂ))) tn u v u' v') :
    (∀ (i j : ℕ) (n : String), c.name[i]? = some n → c'.name[j]? = some n → ellipseAt c'.ell j = ellipseAt c.ell i) ∧
    (∃ mean slope : ℂ, c.mean = meanRec v.isSome c.opt.notrend mean slope ∧
      c'.mean = meanRec v.isSome c.opt.notrend (mean + a) (slope + b)) ∧
    (¬ IsStr c.opt.ordercnstit "SNR" →
      c'.name = c.name ∧ c'.frq = c.frq ∧ c'.lind = c.lind ∧ c'.PE = c.PE ∧ c'.ell = c.ell) := by
  obtain ⟨p, constit, m, W, rf, full, o, ind, F, hols, rfl, hex'⟩ := run_facts R hnd hm h sp hi hex tn htn
  obtain ⟨opt', p', tn', constit', m', W', rf', full', o', ind', F'⟩ := solve_facts R' h'
  obtain ⟨rfl, rfl, rfl, hinf, T⟩ := twin' F F' R R' hv _ hu
  have hn : p.sel.name.Nodup := (F.perm_names R hnd hk).nodup_iff.1 hsep.names
  obtain ⟨P, M, mean, slope, hP, hM, hs, hmc⟩ := F.exists_coef hn m F.mlen
  obtain ⟨-, hmm⟩ := offset_coef F F' R R' hnd hols hk hex' hsep a b hb T
  have hmc' : m' = nameCoef p'.sel (!c.opt.notrend) P M (mean + a) ((slope + b) * (p'.ed.lor : ℂ)) := by
    rw [hmm, hmc, driftCoef, vadd_nameCoef, T.sel, T.lor, add_mul]
  obtain ⟨r1, r2⟩ := F.read hnd P M mean slope hP hM hmc
  obtain ⟨r1', r2'⟩ := F'.read hnd P M _ _ (by rw [T.sel]; exact hP) (by rw [T.sel]; exact hM) hmc'
  rw [hv] at r1' r2'
  refine ⟨?_, ⟨mean, slope, r2, r2'⟩, ?_⟩
  · intro i j n hi1 hj1
    rw [r1, r1', ellipseAt_map, ellipseAt_map, hi1, hj1]
  · intro ho
    have hfe : full'.ell = full.ell := by
      have hal := F.prep.aligned
      have hal' := F'.prep.aligned
      rw [F.solved.ell, F'.solved.ell, F.prep.hopt, F'.prep.hopt, hmc', hmc,
        nameCoef_allAp hal _ _ _ _ _ hP, nameCoef_allAm hal _ _ _ _ _ hM,
        nameCoef_allAp hal' _ _ _ _ _ (by rw [T.sel]; exact hP), nameCoef_allAm hal' _ _ _ _ _ (by rw [T.sel]; exact hM),
        T.sel]
    obtain ⟨s1, s2, s3, s4, s5⟩ := T.results F F' rfl ho (by rw [hfe]) rfl
    refine ⟨s2, s3, s4, s5, ?_⟩
    rw [r1, r1', s2]

/-! ## C07 -/

theorem allAm_conj {sel : Sel} (hc : sel.Conj) (trend : Bool) (m a b c d : List ℂ) (e : ℂ) (f : List ℂ)
    (hbl : Blocks sel trend m a b c d e f) (hb : b = a.map conj) (hd : d = c.map conj) :
    allAm sel m = (allAp sel m).map conj := by
  unfold allAm allAp
  rw [hbl.ap, hbl.am, hb, hd, ← List.map_append]
  generalize a ++ c = l
  rw [List.map_append]
  congr 1
  unfold inferredCoef
  rw [List.map_flatMap]
  apply List.flatMap_congr
  rintro ⟨r, k⟩ hr
  rw [List.map_map]
  refine List.map_congr_left fun q hq => ?_
  simp only [Function.comp]
  have h1 : r ∈ sel.refs := (List.mem_zipIdx hr).2.2 ▸ List.getElem_mem _
  rw [hc r h1 q hq, map_mul]
  congr 1
  rw [List.getD_eq_getElem?_getD, List.getD_eq_getElem?_getD, List.getElem?_map]
  cases l[sel.nNR + k]? <;> simp

theorem angleDeg_two_mul (z : ℂ) : angleDeg (z + z) = angleDeg z := by
  rw [← two_mul]
  exact_mod_cast angleDeg_mul_pos 2 (by norm_num) z

theorem ell2_conj (a : ℂ) : ell2 a (conj a) = ell1 a (conj a) := by
  rw [ell1_eq, ell2_eq, Complex.conj_conj, angleDeg_two_mul, ← two_mul, norm_mul, RCLike.norm_conj]
  have hth : pymod ((angleDeg a + angleDeg (conj a)) / 2) 180 = 0 := by
    refine pymod_unique _ _ _ (by norm_num) le_rfl (by norm_num) ?_
    unfold angleDeg
    rw [Complex.arg_conj]
    split
    · rename_i h
      exact ⟨1, by rw [h]; push_cast; field_simp; ring⟩
    · exact ⟨0, by push_cast; ring⟩
  rw [hth]
  simp
  ring

theorem sel_conj {tref : ℝ} {mr : Fl} {con : Constit} {inf : Option InferSpec} {sel : Sel}
    (h : cnstitsel tref mr con inf = .ok sel) (hl : ∀ s, inf = some s → s.amp.length ≤ s.inferred.length) : sel.Conj := by
  cases inf with
  | none =>
    obtain ⟨-, -, h1, -⟩ := cnstitsel_none _ _ _ _ h
    intro r hr
    rw [h1] at hr
    simp at hr
  | some s =>
    obtain ⟨l0, -, -, -, -, hrefs, -⟩ := cnstitsel_some _ _ _ _ _ h
    intro r hr q hq
    obtain ⟨n, -, hn⟩ := mapM_mem' _ _ _ hrefs _ hr
    obtain ⟨-, -, -, hinf⟩ := mkRef_ok _ _ _ _ hn
    obtain ⟨i, -, hi⟩ := mapM_mem' _ _ _ hinf _ hq
    obtain ⟨_, _, -, -, -, -, h5, -, -, -⟩ := mkInf_ok _ _ _ _ hi
    exact h5 (hl s rfl)

/-- Both runs in view: the same coefficients, in conjugate pairs. -/
structure ZeroTwin (E : Env) (t : TimeArg) (u w : Series) (lat : Option ℝ) (opts opts' : Dict PyVal) (c c' : Coef)
    (p p' : Prep) (tn : List Fl) (constit constit' : Constit) (m : List ℂ) (W : List ℝ) (rf rf' : Option RobOut)
    (full full' : Coef) (o : Order) (ind ind' : List ℕ) : Prop where
  F : Facts E t u none lat opts c c.opt p tn constit m W rf full o ind
  F' : Facts E t u (some w) lat opts' c' c'.opt p' tn constit' m W rf' full' o ind'
  T : Twin (fun _ x => x) p p'
  hoo : c'.opt = { c.opt with twodim := c'.opt.twodim, infer := c'.opt.infer }
  sel : p.sel.Conj
  blocks : ∃ a c₀ e f, Blocks p.sel (!c.opt.notrend) m a (a.map conj) c₀ (c₀.map conj) e f ∧ conj e = e ∧
    f.map conj = f
  am : allAm p.sel m = (allAp p.sel m).map conj
  x : xraw p'.ed = xraw p.ed
  real : ∀ z ∈ xraw p.ed, conj z = z

theorem zero_twin (E : Env) (t : TimeArg) (u w : Series) (lat : Option ℝ) (opts opts' : Dict PyVal)
    (R : Ready E t u none) (R' : Ready E t u (some w)) (hw : ∀ x ∈ w.data, x.value? = some 0)
    (hnd : opts.keys.Nodup) (hnd' : opts'.keys.Nodup)
    (hsame : ∀ k, k ≠ "infer" → requested opts k = requested opts' k)
    (c c' : Coef) (h : solve E t u none lat opts = .ok c) (h' : solve E t u (some w) lat opts' = .ok c')
    (hsol : ∀ opt p tn constit m W rf full o ind, Facts E t u none lat opts c opt p tn constit m W rf full o ind →
      WeightedSol p.nm p.B (xraw p.ed) m)
    (sp : Option InferSpec) (hi : readInfer c.opt.infer = .ok sp) (hi' : readInfer c'.opt.infer = .ok (sp.map doubled)) :
    ∃ p p' tn constit constit' m W rf rf' full full' o ind ind',
      ZeroTwin E t u w lat opts opts' c c' p p' tn constit constit' m W rf rf' full full' o ind ind' := by
  obtain ⟨opt, p, tn, constit, m, W, rf, full, o, ind, F⟩ := solve_facts R h
  obtain ⟨opt', p', tn', constit', m', W', rf', full', o', ind', F'⟩ := solve_facts R' h'
  have hc := F.copt
  have hc' := F'.copt
  subst hc hc'
  have hinf : p.infer = sp := Except.ok.inj (F.prep.hinfer.symm.trans hi)
  have hinf' : p'.infer = sp.map doubled := Except.ok.inj (F'.prep.hinfer.symm.trans hi')
  have hoo := getOpt_infer opts opts' hnd hnd' _ _ hsame _ _ F.hopt F'.hopt
  have hlens := fun s hs => F.inferLengths hnd s hs
  simp only [Option.isSome_none, Bool.false_eq_true, if_false] at hlens
  have hcs : ∀ tref mr con, cnstitsel tref mr con p'.infer = cnstitsel tref mr con p.infer := by
    intro tref mr con
    rw [hinf', hinf]
    cases hsp : sp with
    | none => rfl
    | some s =>
      obtain ⟨l1, l2, l3⟩ := hlens s (hinf.trans hsp)
      exact cnstitsel_doubled tref mr con s l2 l3 l1
  have hap : approxOf p'.infer = approxOf p.infer := by
    rw [hinf', hinf]; cases sp <;> rfl
  have hsm : SameModel c.opt c'.opt :=
    ⟨by rw [hoo], by rw [hoo], by rw [hoo], by rw [hoo], by rw [hoo]⟩
  have htn : tn' = tn := by
    have h1 := F.prep.init.time
    have h2 := F'.prep.init.time
    rw [hsm.epoch, h1] at h2
    exact (Except.ok.inj h2).symm
  subst htn
  have l2 := (F'.samples R').1
  have hsv : sampleValues u.data (some w.data) = sampleValues u.data none := by
    have hl : u.data.length = w.data.length := l2.2 w.data rfl
    unfold sampleValues
    apply List.ext_getElem
    · simp [hl]
    · intro i k1 k2
      simp only [List.getElem_zipWith, List.getElem_map]
      rw [hw _ (List.getElem_mem _)]
      generalize Cell.value? _ = z
      cases z <;> simp [Complex.ext_iff]
  obtain ⟨-, T⟩ := twin F F' R R' hsm hcs hap (fun _ x => x) (by
    intro i τ _
    show (sampleValues u.data (some w.data))[i]? = (sampleValues u.data none)[i]?.map _
    rw [hsv]
    cases (sampleValues u.data none)[i]? with
    | none => rfl
    | some x => cases x <;> rfl)
  have hq := getOpt_requests _ hnd _ _ F.hopt
  obtain ⟨us, x1, x2, x3⟩ := T.x
  have hx : xraw p'.ed = xraw p.ed := x3.trans x2.symm
  have a1 := hsol _ _ _ _ _ _ _ _ _ _ F
  obtain ⟨hmm, hWW⟩ : m' = m ∧ W' = W := by
    have h1 := F.solved.fit
    have h2 := F'.solved.fit
    unfold stageFit at h1 h2
    rw [F'.prep.hopt, hoo, T.nm, T.B, hx] at h2
    rw [F.prep.hopt] at h1
    have ht : p'.ed.t.map (fun _ => (1 : ℝ)) = p.ed.t.map fun _ => 1 := by rw [T.t]
    rw [ht] at h2
    have := Except.ok.inj (h2.symm.trans h1)
    exact ⟨(Prod.mk.inj this).1, (Prod.mk.inj (Prod.mk.inj this).2).1⟩
  have hreal : ∀ z ∈ xraw p.ed, conj z = z := by
    intro z hz
    obtain ⟨l1, -, l3⟩ := F.samples R
    rw [l3] at hz
    obtain ⟨s, hs, rfl⟩ := List.mem_map.1 hz
    rw [usable_samples _ _ _ l1, mem_samples] at hs
    obtain ⟨i, -, hs⟩ := hs
    simp only [Option.map_none, sampleValues, List.getElem?_map] at hs
    cases hu : u.data[i]? with
    | none => rw [hu] at hs; simp at hs
    | some y =>
      rw [hu] at hs
      simp only [Option.map_some, Option.some.injEq, Option.map_eq_some_iff] at hs
      obtain ⟨y', -, hy⟩ := hs
      rw [← hy, Complex.conj_ofReal]
  have hconj : p.sel.Conj := sel_conj F.prep.hsel fun s hs => (hlens s hs).2.1.le
  obtain ⟨ba, bb, bc, bd, be, bf, hbl⟩ := exists_blocks p.sel (!c.opt.notrend) m (by rw [F.mlen, F.prep.nm])
  rw [F.prep.nm, F.prep.B] at a1
  obtain ⟨m1, m2, m3, m4⟩ := mirror_unique_w F.prep.aligned hconj _ _ _ _ _ _ _ _ hreal (by
    rw [x1, x2]; simp) m a1 _ _ _ _ _ _ hbl
  have hall := allAm_conj hconj _ _ _ _ _ _ _ _ hbl m1 m2
  have hoeq : o' = o := by
    have := F'.solved.order
    rw [F'.prep.hopt, hoo] at this
    have h2 := F.solved.order
    rw [F.prep.hopt] at h2
    exact (Except.ok.inj (this.symm.trans h2))
  subst hmm hWW hoeq m1 m2
  exact ⟨_, _, _, _, _, _, _, _, _, _, _, _, _, _, F, F', T, hoo, hconj, ⟨_, _, _, _, hbl, m3, m4⟩, hall, hx, hreal⟩

theorem ZeroTwin.weights {E : Env} {t : TimeArg} {u w : Series} {lat : Option ℝ} {opts opts' : Dict PyVal} {c c' : Coef}
    {p p' : Prep} {tn : List Fl} {constit constit' : Constit} {m : List ℂ} {W : List ℝ} {rf rf' : Option RobOut}
    {full full' : Coef} {o : Order} {ind ind' : List ℕ}
    (Z : ZeroTwin E t u w lat opts opts' c c' p p' tn constit constit' m W rf rf' full full' o ind ind') :
    c'.weights = c.weights := by
  rw [show c.weights = W by rw [Z.F.solved.result]; exact Z.F.solved.head.weights,
    show c'.weights = W by rw [Z.F'.solved.result]; exact Z.F'.solved.head.weights]

theorem ZeroTwin.mean {E : Env} {t : TimeArg} {u w : Series} {lat : Option ℝ} {opts opts' : Dict PyVal} {c c' : Coef}
    {p p' : Prep} {tn : List Fl} {constit constit' : Constit} {m : List ℂ} {W : List ℝ} {rf rf' : Option RobOut}
    {full full' : Coef} {o : Order} {ind ind' : List ℕ} (hnd : opts.keys.Nodup) (hnd' : opts'.keys.Nodup)
    (Z : ZeroTwin E t u w lat opts opts' c c' p p' tn constit constit' m W rf rf' full full' o ind ind') :
    ∃ mean slope, c.mean = .one mean slope ∧ c'.mean = .two mean 0 (slope.map fun s => (s, 0)) := by
  obtain ⟨F, F', T, hoo, hconj, ⟨ba, bc, be, bf, hbl, m3, m4⟩, hall, hx, hreal⟩ := Z
  have hq := getOpt_requests _ hnd _ _ F.hopt
  have htd : p.opt.twodim = false := by rw [F.prep.hopt]; exact hq.twodim
  have htd' : p'.opt.twodim = true := by
    rw [F'.prep.hopt]; exact (getOpt_requests _ hnd' _ _ F'.hopt).twodim
  have f1 : c.mean = full.mean := by rw [F.solved.result]; rfl
  have f2 : c'.mean = full'.mean := by rw [F'.solved.result]; rfl
  have g1 : full.mean = meanOf p.opt.twodim p.opt.notrend p.ed.lor p.nm m := F.solved.head.mean
  have g2 : full'.mean = meanOf p'.opt.twodim p'.opt.notrend p'.ed.lor p'.nm m := F'.solved.head.mean
  rw [htd, F.prep.hopt] at g1
  rw [htd', F'.prep.hopt, show c'.opt.notrend = c.opt.notrend by rw [hoo], T.lor, T.nm] at g2
  rw [f1, f2, g1, g2]
  have him : be.im = 0 := Complex.conj_eq_iff_im.1 m3
  unfold meanOf
  cases hnt : c.opt.notrend with
  | true =>
    rw [hnt] at hbl
    have hnm := F.prep.nm
    rw [hnt] at hnm
    have hmean := hbl.mean (p.nm - 1) (by rw [hnm]; unfold numCols; simp)
    refine ⟨_, _, rfl, ?_⟩
    simp only [if_true, hmean, him, Option.map_none]
  | false =>
    rw [hnt] at hbl
    have hnm := F.prep.nm
    rw [hnt] at hnm
    have hmean := hbl.mean (p.nm - 2) (by rw [hnm]; unfold numCols; simp)
    have hsl := hbl.slope (p.nm - 1) (by rw [hnm]; unfold numCols; simp)
    have him2 : (m.getD (p.nm - 1) 0).im = 0 := by
      rw [hsl] at m4
      simpa [Complex.conj_eq_iff_im] using m4
    refine ⟨_, _, rfl, ?_⟩
    simp only [if_true, Bool.false_eq_true, if_false, hmean, him, him2, Option.map_some, zero_div]

/-- C07 for every fit whose coefficients solve a system with real weights. -/
theorem zero_component_core (E : Env) (t : TimeArg) (u w : Series) (lat : Option ℝ) (opts opts' : Dict PyVal)
    (R : Ready E t u none) (R' : Ready E t u (some w)) (hw : ∀ x ∈ w.data, x.value? = some 0)
    (hnd : opts.keys.Nodup) (hnd' : opts'.keys.Nodup)
    (hsame : ∀ k, k ≠ "infer" → requested opts k = requested opts' k)
    (c c' : Coef) (h : solve E t u none lat opts = .ok c) (h' : solve E t u (some w) lat opts' = .ok c')
    (hsol : ∀ opt p tn constit m W rf full o ind, Facts E t u none lat opts c opt p tn constit m W rf full o ind →
      WeightedSol p.nm p.B (xraw p.ed) m)
    (sp : Option InferSpec) (hi : readInfer c.opt.infer = .ok sp) (hi' : readInfer c'.opt.infer = .ok (sp.map doubled))
    (ho : ¬ IsStr c.opt.ordercnstit "SNR") :
    c'.weights = c.weights ∧ c'.name = c.name ∧ c'.frq = c.frq ∧ c'.lind = c.lind ∧ c'.PE = c.PE ∧
    (∃ A g, c.ell = .one A g ∧ c'.ell = .two A (A.map fun _ => 0) (A.map fun _ => 0) g) ∧
    (∃ mean slope, c.mean = .one mean slope ∧ c'.mean = .two mean 0 (slope.map fun s => (s, 0))) := by
  obtain ⟨p, p', tn, constit, constit', m, W, rf, rf', full, full', o, ind, ind', Z⟩ := zero_twin E t u w lat opts opts'
    R R' hw hnd hnd' hsame c c' h h' hsol sp hi hi'
  have hwt := Z.weights
  have hmean := Z.mean hnd hnd'
  obtain ⟨F, F', T, hoo, hconj, -, hall, hx, hreal⟩ := Z
  have hq := getOpt_requests _ hnd _ _ F.hopt
  have htd : p.opt.twodim = false := by rw [F.prep.hopt]; exact hq.twodim
  have htd' : p'.opt.twodim = true := by
    rw [F'.prep.hopt]; exact (getOpt_requests _ hnd' _ _ F'.hopt).twodim
  have hz2 : List.zipWith ell2 (allAp p.sel m) (allAm p.sel m) = (allAp p.sel m).map fun a => ell1 a (conj a) := by
    rw [hall]
    simp only [← ell2_conj]
    generalize allAp p.sel m = l
    induction l with
    | nil => rfl
    | cons a l ih => simp [ih]
  have hz1 : List.zipWith ell1 (allAp p.sel m) (allAm p.sel m) = (allAp p.sel m).map fun a => ell1 a (conj a) := by
    rw [hall]
    generalize allAp p.sel m = l
    induction l with
    | nil => rfl
    | cons a l ih => simp [ih]
  have e1 := F.solved.ell
  have e2 := F'.solved.ell
  rw [htd] at e1
  rw [htd', T.sel] at e2
  unfold ellOf at e1 e2
  simp only [Bool.false_eq_true, if_false, if_true, hz1, hz2, List.map_map] at e1 e2
  have hen : energies full'.ell = energies full.ell := by
    rw [e1, e2]
    simp only [energies, List.map_map, zipWith_map_same]
    refine List.map_congr_left fun a _ => ?_
    simp only [Function.comp, ell1_eq]
    ring
  obtain ⟨r1, r2, r3, r4, r5⟩ := T.results F F' rfl ho (pe_energies hen) (by rw [hoo])
  subst r1
  refine ⟨hwt, r2, r3, r4, r5, ?_, hmean⟩
  · have f1 : c.ell = full.ell.permute ind' := by rw [F.solved.result]; rfl
    have f2 : c'.ell = full'.ell.permute ind' := by rw [F'.solved.result]; rfl
    rw [e1] at f1
    rw [e2] at f2
    simp only [EllArr.permute, gather_map] at f1 f2
    refine ⟨_, _, f1, ?_⟩
    rw [f2, List.map_map]
    congr 1

/-- A scalar series and a vector series whose second component is zero. `opts'` is `opts` with, if there is inference,
the ratios and offsets written twice (once for each direction of rotation, as the code requires for a vector). -/
theorem C07_zero_component (E : Env) (t : TimeArg) (u w : Series) (lat : Option ℝ) (opts opts' : Dict PyVal)
    (R : Ready E t u none) (R' : Ready E t u (some w)) (hw : ∀ x ∈ w.data, x.value? = some 0)
    (hnd : opts.keys.Nodup) (hnd' : opts'.keys.Nodup)
    (hsame : ∀ k, k ≠ "infer" → requested opts k = requested opts' k)
    (hm : ∃ x, requested opts "method" = some x ∧ IsStr x "ols")
    (c c' : Coef) (h : solve E t u none lat opts = .ok c) (h' : solve E t u (some w) lat opts' = .ok c')
    (sp : Option InferSpec) (hi : readInfer c.opt.infer = .ok sp) (hi' : readInfer c'.opt.infer = .ok (sp.map doubled))
    (ho : ¬ IsStr c.opt.ordercnstit "SNR") :
    c'.name = c.name ∧ c'.frq = c.frq ∧ c'.lind = c.lind ∧ c'.PE = c.PE ∧
    (∃ A g, c.ell = .one A g ∧ c'.ell = .two A (A.map fun _ => 0) (A.map fun _ => 0) g) ∧
    (∃ mean slope, c.mean = .one mean slope ∧ c'.mean = .two mean 0 (slope.map fun s => (s, 0))) :=
  (zero_component_core E t u w lat opts opts' R R' hw hnd hnd' hsame c c' h h'
    (fun opt p tn constit m W rf full o ind F => .of_min (F.prep.height R.ht R.hu R.hv) (F.minNorm R (by
      obtain ⟨x, hx, hs⟩ := hm
      exact (getOpt_requests _ hnd _ _ F.hopt).ols x hx ((eqStr_iff _ _).2 hs)))) sp hi hi' ho).2

/-! ## C08 -/

/-- Mean and slope turned by `φ` degrees. -/
def rotateMean (φ : ℝ) : MeanSlope → MeanSlope
  | .one m s => .one m s
  | .two a b s => .two (cisd φ * (⟨a, b⟩ : ℂ)).re (cisd φ * (⟨a, b⟩ : ℂ)).im
      (s.map fun p => ((cisd φ * (⟨p.1, p.2⟩ : ℂ)).re, (cisd φ * (⟨p.1, p.2⟩ : ℂ)).im))

/-- The ellipse `e'` is `e` turned by `φ` degrees: the same axes; where the ellipse is not a circle the orientations
differ by `φ` up to half turns, and each half turn of the orientation is made up by a half turn of the phase. For
circles (orientation and phase are then not determined separately) the combination that matters is turned. -/
def Turned (φ : ℝ) (e e' : Ell) : Prop :=
  e'.Lsmaj = e.Lsmaj ∧ e'.Lsmin = e.Lsmin ∧
  (|e.Lsmin| < e.Lsmaj → ∃ a b : ℤ, e'.theta = e.theta + φ + 180 * a ∧ e'.g = e.g + 180 * b ∧ Even (a - b)) ∧
  (e.Lsmaj + e.Lsmin ≠ 0 → ∃ k : ℤ, e'.theta - e'.g = e.theta + φ - e.g + 360 * k) ∧
  (e.Lsmaj - e.Lsmin ≠ 0 → ∃ k : ℤ, e'.theta + e'.g = e.theta + φ + e.g + 360 * k)

theorem turned_ell2 (φ : ℝ) (a b : ℂ) : Turned φ (ell2 a b) (ell2 (cisd φ * a) (cisd φ * b)) := by
  have h1 : (ell2 (cisd φ * a) (cisd φ * b)).Lsmaj = (ell2 a b).Lsmaj := by
    rw [ell2_eq, ell2_eq]; simp [norm_cisd]
  have h2 : (ell2 (cisd φ * a) (cisd φ * b)).Lsmin = (ell2 a b).Lsmin := by
    rw [ell2_eq, ell2_eq]; simp [norm_cisd]
  have hp : ccw (ell2 (cisd φ * a) (cisd φ * b)) = ccw { ell2 a b with theta := (ell2 a b).theta + φ } := by
    rw [ccw_ell2]
    conv_lhs => rw [← ccw_ell2 a b]
    unfold ccw
    dsimp only
    rw [show (ell2 a b).theta + φ - (ell2 a b).g = φ + ((ell2 a b).theta - (ell2 a b).g) by ring, cisd_add φ]
    ring
  have hq : cw (ell2 (cisd φ * a) (cisd φ * b)) = cw { ell2 a b with theta := (ell2 a b).theta + φ } := by
    rw [cw_ell2]
    conv_lhs => rw [← cw_ell2 a b]
    unfold cw
    dsimp only
    rw [show (ell2 a b).theta + φ + (ell2 a b).g = φ + ((ell2 a b).theta + (ell2 a b).g) by ring, cisd_add φ]
    ring
  obtain ⟨k3, k4⟩ := same_angles { ell2 a b with theta := (ell2 a b).theta + φ } _ h1 h2 hp hq
  dsimp only at k3 k4
  refine ⟨h1, h2, fun hlt => ?_, k3, k4⟩
  have hl := abs_lt.1 hlt
  exact same_angles180 (e := { ell2 a b with theta := (ell2 a b).theta + φ }) (k3 (by linarith)) (k4 (by linarith))

/-- Two runs whose coefficients differ by a turn. -/
theorem turned_results {E : Env} {t : TimeArg} {u w u' w' : Series} {lat : Option ℝ} {opts : Dict PyVal} {c c' : Coef}
    {p p' : Prep} {tn : List Fl} {constit constit' : Constit} {m m' : List ℂ} {W W' : List ℝ} {rf rf' : Option RobOut}
    {full full' : Coef} {o : Order} {ind ind' : List ℕ} {f : ℝ → ℂ → ℂ}
    (F : Facts E t u (some w) lat opts c c.opt p tn constit m W rf full o ind)
    (F' : Facts E t u' (some w') lat opts c' c.opt p' tn constit' m' W' rf' full' o ind') (hnd : opts.keys.Nodup)
    (T : Twin f p p') (φ : ℝ) (hmm : m' = vscale (cisd φ) m) (ho : ¬ IsStr c.opt.ordercnstit "SNR") :
    c'.name = c.name ∧ c'.frq = c.frq ∧ c'.lind = c.lind ∧ c'.PE = c.PE ∧ c'.mean = rotateMean φ c.mean ∧
      ∀ i e, ellipseAt c.ell i = some e → ∃ e', ellipseAt c'.ell i = some e' ∧ Turned φ e e' := by
  have hq := getOpt_requests _ hnd _ _ F.hopt
  have htd : c.opt.twodim = true := hq.twodim
  have hen : energies full'.ell = energies full.ell := by
    rw [F.solved.ell, F'.solved.ell, F.prep.hopt, F'.prep.hopt, htd, T.sel, hmm, allAp_vscale, allAm_vscale,
      energies_ellOf2, energies_ellOf2, zipWith_vscale]
    simp only [norm_mul, norm_cisd, one_mul]
  obtain ⟨r1, r2, r3, r4, r5⟩ := T.results F F' rfl ho (pe_energies hen) rfl
  subst r1
  refine ⟨r2, r3, r4, r5, ?_, ?_⟩
  · have e1 : c.mean = full.mean := by rw [F.solved.result]; rfl
    have e2 : c'.mean = full'.mean := by rw [F'.solved.result]; rfl
    rw [e1, e2, F.solved.head.mean, F'.solved.head.mean]
    show meanOf p'.opt.twodim p'.opt.notrend p'.ed.lor p'.nm m' =
      rotateMean φ (meanOf p.opt.twodim p.opt.notrend p.ed.lor p.nm m)
    rw [F.prep.hopt, F'.prep.hopt, T.lor, T.nm, hmm, htd]
    unfold meanOf
    simp only [getD_vscale]
    cases c.opt.notrend <;> simp [rotateMean] <;> constructor <;> ring
  · intro i e he
    rw [F.ellipse hnd] at he
    rw [F'.ellipse hnd, T.sel, hmm, allAp_vscale, allAm_vscale]
    unfold vscale
    simp only [List.getElem?_map]
    generalize allAp p.sel m = ap at *
    generalize allAm p.sel m = am at *
    cases hj : ind'[i]? with
    | none => rw [hj] at he; simp at he
    | some j =>
      rw [hj] at he
      simp only [Option.bind_some] at he ⊢
      cases ha : ap[j]? with
      | none => rw [ha] at he; simp at he
      | some a =>
        cases hb : am[j]? with
        | none => rw [ha, hb] at he; simp at he
        | some b =>
          rw [ha, hb] at he
          simp only [Option.bind_some, Option.map_some, Option.isSome_some, if_true, Option.some.injEq] at he ⊢
          subst he
          exact ⟨_, rfl, turned_ell2 φ a b⟩

/-- The axes of a vector series turned by `φ` degrees. -/
theorem C08_rotation (E : Env) (t : TimeArg) (u w u' w' : Series) (lat : Option ℝ) (opts : Dict PyVal)
    (R : Ready E t u (some w)) (R' : Ready E t u' (some w')) (hnd : opts.keys.Nodup)
    (hm : ∃ x, requested opts "method" = some x ∧ IsStr x "ols")
    (c c' : Coef) (h : solve E t u (some w) lat opts = .ok c) (h' : solve E t u' (some w') lat opts = .ok c')
    (tn : List Fl) (htn : normalizeTime E.dt64 t.arr c.opt.epoch = .ok tn)
    (φ : ℝ) (hu : Transformed (fun _ x => cisd φ * x) tn u (some w) u' (some w'))
    (ho : ¬ IsStr c.opt.ordercnstit "SNR") :
    c'.name = c.name ∧ c'.frq = c.frq ∧ c'.lind = c.lind ∧ c'.PE = c.PE ∧ c'.mean = rotateMean φ c.mean ∧
      ∀ i e, ellipseAt c.ell i = some e → ∃ e', ellipseAt c'.ell i = some e' ∧ Turned φ e e' := by
  obtain ⟨opt, p, tn0, constit, m, W, rf, full, o, ind, F⟩ := solve_facts R h
  obtain ⟨opt', p', tn', constit', m', W', rf', full', o', ind', F'⟩ := solve_facts R' h'
  have hc := F.copt
  subst hc
  cases Except.ok.inj (F.prep.init.time.symm.trans htn)
  obtain ⟨rfl, rfl, rfl, hinf, T⟩ := twin' F F' R R' rfl _ hu
  have hq := getOpt_requests _ hnd _ _ F.hopt
  have hols : c.opt.method = .ols := by
    obtain ⟨x, hx, hs⟩ := hm
    exact hq.ols x hx ((eqStr_iff _ _).2 hs)
  have hmm := vscale_coef (cisd φ) (cisd_ne_zero φ) F F' R R' hols T
  exact turned_results F F' hnd T φ hmm ho

/-! ## C05, C07, C08 whatever the order

`order_constit="SNR"` ranks by the confidence intervals, so the positions of a constituent in the two results may differ.
Constituent by constituent the relations hold all the same. -/

theorem vscale_nameCoef (sel : Sel) (trend : Bool) (P M : String → ℂ) (mean slope k : ℂ) :
    vscale k (nameCoef sel trend P M mean slope) =
      nameCoef sel trend (fun n => k * P n) (fun n => k * M n) (k * mean) (k * slope) := by
  unfold vscale nameCoef
  cases trend <;> simp [List.map_append, Function.comp_def]

section
variable {E : Env} {t : TimeArg} {u : Series} {v : Option Series} {lat : Option ℝ} {opts : Dict PyVal}
  {c : Coef} {opt : Opt} {p : Prep} {tn : List Fl} {constit : Constit} {m : List ℂ} {W : List ℝ}
  {rf : Option RobOut} {full : Coef} {o : Order} {ind : List ℕ}
  {u' : Series} {v' : Option Series}
  {c' : Coef} {p' : Prep} {constit' : Constit} {m' : List ℂ} {W' : List ℝ}
  {rf' : Option RobOut} {full' : Coef} {ind' : List ℕ}

theorem same_names {opts' : Dict PyVal} {opt' : Opt} {tn' : List Fl} {o' : Order}
    (F : Facts E t u v lat opts c opt p tn constit m W rf full o ind)
    (F' : Facts E t u' v' lat opts' c' opt' p' tn' constit' m' W' rf' full' o' ind')
    (R : Ready E t u v) (R' : Ready E t u' v') (hnd : opts.keys.Nodup) (hsel : p'.sel = p.sel) (hkept : AllKept c)
    (ho : o' = o) : c'.name.Perm c.name := by
  have hp := F.perm_names R hnd hkept
  by_cases hno : ∀ l, o ≠ .names l
  · have h1 := F'.solved.perm F'.prep F'.mlen R'.argsort (by rw [ho]; exact hno)
    have : c'.name = gather full'.name ind' := by rw [F'.solved.result]; rfl
    have h2 : c'.name.Perm p'.sel.name := by
      rw [this, ← F'.solved.name]
      exact gather_perm _ (by rw [F'.len.name]; exact h1)
    rw [hsel] at h2
    exact h2.trans hp.symm
  · push Not at hno
    obtain ⟨l, hl⟩ := hno
    have h1 := F.solved.indNames l hl
    have h2 := F'.solved.indNames l (ho.trans hl)
    rw [F'.solved.name, hsel, ← F.solved.name, h1] at h2
    rw [F.cname, F'.cname, hsel, Except.ok.inj h2]

theorem scaled_byname (k : ℂ) (hk : k ≠ 0) (F : Facts E t u v lat opts c opt p tn constit m W rf full o ind)
    (F' : Facts E t u' v' lat opts c' opt p' tn constit' m' W' rf' full' o ind')
    (R : Ready E t u v) (R' : Ready E t u' v') (hnd : opts.keys.Nodup) (hols : opt.method = .ols)
    (T : Twin (fun _ x => k * x) p p') (hkept : AllKept c) (hn : c.name.Nodup) :
    ∃ (P M : String → ℂ) (mean slope : ℂ),
      c.ell = ellOf v.isSome (c.name.map P) (c.name.map M) ∧ c.mean = meanRec v.isSome opt.notrend mean slope ∧
      c'.ell = ellOf v'.isSome (c'.name.map fun n => k * P n) (c'.name.map fun n => k * M n) ∧
      c'.mean = meanRec v'.isSome opt.notrend (k * mean) (k * slope) := by
  have hmm := vscale_coef k hk F F' R R' hols T
  have hn' : p.sel.name.Nodup := (F.perm_names R hnd hkept).nodup_iff.1 hn
  obtain ⟨P, M, mean, slope, hP, hM, -, hmc⟩ := F.exists_coef hn' m F.mlen
  obtain ⟨r1, r2⟩ := F.read hnd P M mean slope hP hM hmc
  have hP' : TiedBy p'.sel InfCon.Rp fun n => k * P n := by
    rw [T.sel]; intro r hr q hq; dsimp only; rw [hP r hr q hq]; ring
  have hM' : TiedBy p'.sel InfCon.Rm fun n => k * M n := by
    rw [T.sel]; intro r hr q hq; dsimp only; rw [hM r hr q hq]; ring
  obtain ⟨r3, r4⟩ := F'.read hnd _ _ (k * mean) (k * slope) hP' hM' (by
    rw [hmm, hmc, vscale_nameCoef, T.sel, T.lor, mul_assoc])
  exact ⟨P, M, mean, slope, r1, r2, r3, r4⟩

end

theorem C05_byname (E : Env) (t : TimeArg) (u u' : Series) (v v' : Option Series) (lat : Option ℝ) (opts : Dict PyVal)
    (R : Ready E t u v) (R' : Ready E t u' v') (hv : v'.isSome = v.isSome) (hnd : opts.keys.Nodup)
    (hm : ∃ x, requested opts "method" = some x ∧ IsStr x "ols")
    (c c' : Coef) (h : solve E t u v lat opts = .ok c) (h' : solve E t u' v' lat opts = .ok c')
    (hkept : AllKept c) (hn : c.name.Nodup)
    (tn : List Fl) (htn : normalizeTime E.dt64 t.arr c.opt.epoch = .ok tn)
    (k : ℝ) (hk : 0 < k) (hu : Transformed (fun _ x => k * x) tn u v u' v') :
    c'.name.Perm c.name ∧ c'.mean = scaleMean k c.mean ∧
    ∀ i j n, c.name[i]? = some n → c'.name[j]? = some n → ∃ e, ellipseAt c.ell i = some e ∧
      ellipseAt c'.ell j = some ⟨k * e.Lsmaj, k * e.Lsmin, e.theta, e.g⟩ := by
  obtain ⟨opt, p, tn0, constit, m, W, rf, full, o, ind, F⟩ := solve_facts R h
  obtain ⟨opt', p', tn', constit', m', W', rf', full', o', ind', F'⟩ := solve_facts R' h'
  have hc := F.copt
  subst hc
  cases Except.ok.inj (F.prep.init.time.symm.trans htn)
  obtain ⟨rfl, rfl, rfl, hinf, T⟩ := twin' F F' R R' hv _ hu
  have hq := getOpt_requests _ hnd _ _ F.hopt
  have hols : c.opt.method = .ols := by
    obtain ⟨x, hx, hs⟩ := hm
    exact hq.ols x hx ((eqStr_iff _ _).2 hs)
  have hk0 : (k : ℂ) ≠ 0 := by exact_mod_cast hk.ne'
  obtain ⟨P, M, mean, slope, r1, r2, r3, r4⟩ := scaled_byname (k : ℂ) hk0 F F' R R' hnd hols T hkept hn
  refine ⟨same_names F F' R R' hnd T.sel hkept rfl, ?_, ?_⟩
  · rw [r2, r4, hv]
    unfold meanRec
    simp only [Complex.re_ofReal_mul, Complex.im_ofReal_mul]
    cases v.isSome <;> cases c.opt.notrend <;> simp [scaleMean]
  · intro i j n hi hj
    refine ⟨_, by rw [r1, ellipseAt_map, hi]; rfl, ?_⟩
    rw [r3, ellipseAt_map, hj, hv]
    cases v.isSome with
    | true => simp only [Option.map_some, if_true]; rw [ell2_scale k hk]
    | false =>
      simp only [Option.map_some, Bool.false_eq_true, if_false]
      rw [ell1_scale k hk]
      simp [ell1_eq]

theorem C08_byname (E : Env) (t : TimeArg) (u w u' w' : Series) (lat : Option ℝ) (opts : Dict PyVal)
    (R : Ready E t u (some w)) (R' : Ready E t u' (some w')) (hnd : opts.keys.Nodup)
    (hm : ∃ x, requested opts "method" = some x ∧ IsStr x "ols")
    (c c' : Coef) (h : solve E t u (some w) lat opts = .ok c) (h' : solve E t u' (some w') lat opts = .ok c')
    (hkept : AllKept c) (hn : c.name.Nodup)
    (tn : List Fl) (htn : normalizeTime E.dt64 t.arr c.opt.epoch = .ok tn)
    (φ : ℝ) (hu : Transformed (fun _ x => cisd φ * x) tn u (some w) u' (some w')) :
    c'.name.Perm c.name ∧ c'.mean = rotateMean φ c.mean ∧
    ∀ i j n, c.name[i]? = some n → c'.name[j]? = some n → ∃ e e', ellipseAt c.ell i = some e ∧
      ellipseAt c'.ell j = some e' ∧ Turned φ e e' := by
  obtain ⟨opt, p, tn0, constit, m, W, rf, full, o, ind, F⟩ := solve_facts R h
  obtain ⟨opt', p', tn', constit', m', W', rf', full', o', ind', F'⟩ := solve_facts R' h'
  have hc := F.copt
  subst hc
  cases Except.ok.inj (F.prep.init.time.symm.trans htn)
  obtain ⟨rfl, rfl, rfl, hinf, T⟩ := twin' F F' R R' rfl _ hu
  have hq := getOpt_requests _ hnd _ _ F.hopt
  have hols : c.opt.method = .ols := by
    obtain ⟨x, hx, hs⟩ := hm
    exact hq.ols x hx ((eqStr_iff _ _).2 hs)
  obtain ⟨P, M, mean, slope, r1, r2, r3, r4⟩ :=
    scaled_byname (cisd φ) (cisd_ne_zero φ) F F' R R' hnd hols T hkept hn
  refine ⟨same_names F F' R R' hnd T.sel hkept rfl, ?_, ?_⟩
  · rw [r2, r4]
    unfold meanRec
    cases c.opt.notrend <;> simp [rotateMean]
  · intro i j n hi hj
    refine ⟨_, _, by rw [r1, ellipseAt_map, hi]; rfl, by rw [r3, ellipseAt_map, hj]; rfl, ?_⟩
    simp only [Option.isSome_some, if_true]
    exact turned_ell2 φ _ _

theorem zero_byname_core (E : Env) (t : TimeArg) (u w : Series) (lat : Option ℝ) (opts opts' : Dict PyVal)
    (R : Ready E t u none) (R' : Ready E t u (some w)) (hw : ∀ x ∈ w.data, x.value? = some 0)
    (hnd : opts.keys.Nodup) (hnd' : opts'.keys.Nodup)
    (hsame : ∀ k, k ≠ "infer" → requested opts k = requested opts' k)
    (c c' : Coef) (h : solve E t u none lat opts = .ok c) (h' : solve E t u (some w) lat opts' = .ok c')
    (hsol : ∀ opt p tn constit m W rf full o ind, Facts E t u none lat opts c opt p tn constit m W rf full o ind →
      WeightedSol p.nm p.B (xraw p.ed) m)
    (hkept : AllKept c) (hn : c.name.Nodup)
    (sp : Option InferSpec) (hi : readInfer c.opt.infer = .ok sp) (hi' : readInfer c'.opt.infer = .ok (sp.map doubled)) :
    c'.weights = c.weights ∧ c'.name.Perm c.name ∧
    (∀ i j n, c.name[i]? = some n → c'.name[j]? = some n → ∃ e, ellipseAt c.ell i = some e ∧
      ellipseAt c'.ell j = some ⟨e.Lsmaj, 0, 0, e.g⟩) ∧
    (∃ mean slope, c.mean = .one mean slope ∧ c'.mean = .two mean 0 (slope.map fun s => (s, 0))) := by
  obtain ⟨p, p', tn, constit, constit', m, W, rf, rf', full, full', o, ind, ind', Z⟩ := zero_twin E t u w lat opts opts'
    R R' hw hnd hnd' hsame c c' h h' hsol sp hi hi'
  have hwt := Z.weights
  have hmean := Z.mean hnd hnd'
  obtain ⟨F, F', T, hoo, hconj, -, hall, hx, hreal⟩ := Z
  refine ⟨hwt, same_names F F' R R' hnd T.sel hkept rfl, ?_, hmean⟩
  have hn' : p.sel.name.Nodup := (F.perm_names R hnd hkept).nodup_iff.1 hn
  obtain ⟨P, M, mean, slope, hP, hM, -, hmc⟩ := F.exists_coef hn' m F.mlen
  obtain ⟨r1, -⟩ := F.read hnd P M mean slope hP hM hmc
  obtain ⟨r2, -⟩ := F'.read hnd' P M mean slope (by rw [T.sel]; exact hP) (by rw [T.sel]; exact hM)
    (by rw [hmc, T.sel, T.lor, hoo])
  have hPM : ∀ n ∈ p.sel.name, M n = conj (P n) := by
    have hal := F.prep.aligned
    rw [hmc, nameCoef_allAp hal _ _ _ _ _ hP, nameCoef_allAm hal _ _ _ _ _ hM, List.map_map] at hall
    exact List.map_inj_left.1 hall
  intro i j n hi1 hj1
  have hmem : n ∈ p.sel.name := (F.perm_names R hnd hkept).mem_iff.1 (List.mem_of_getElem? hi1)
  refine ⟨_, by rw [r1, ellipseAt_map, hi1]; rfl, ?_⟩
  rw [r2, ellipseAt_map, hj1]
  simp only [Option.map_some, Option.isSome_some, Option.isSome_none, if_true, Bool.false_eq_true, if_false]
  rw [hPM n hmem, ell2_conj, ell1_eq]

theorem C07_byname (E : Env) (t : TimeArg) (u w : Series) (lat : Option ℝ) (opts opts' : Dict PyVal)
    (R : Ready E t u none) (R' : Ready E t u (some w)) (hw : ∀ x ∈ w.data, x.value? = some 0)
    (hnd : opts.keys.Nodup) (hnd' : opts'.keys.Nodup)
    (hsame : ∀ k, k ≠ "infer" → requested opts k = requested opts' k)
    (hm : ∃ x, requested opts "method" = some x ∧ IsStr x "ols")
    (c c' : Coef) (h : solve E t u none lat opts = .ok c) (h' : solve E t u (some w) lat opts' = .ok c')
    (hkept : AllKept c) (hn : c.name.Nodup)
    (sp : Option InferSpec) (hi : readInfer c.opt.infer = .ok sp) (hi' : readInfer c'.opt.infer = .ok (sp.map doubled)) :
    c'.name.Perm c.name ∧
    (∀ i j n, c.name[i]? = some n → c'.name[j]? = some n → ∃ e, ellipseAt c.ell i = some e ∧
      ellipseAt c'.ell j = some ⟨e.Lsmaj, 0, 0, e.g⟩) ∧
    (∃ mean slope, c.mean = .one mean slope ∧ c'.mean = .two mean 0 (slope.map fun s => (s, 0))) :=
  (zero_byname_core E t u w lat opts opts' R R' hw hnd hnd' hsame c c' h h'
    (fun opt p tn constit m W rf full o ind F => .of_min (F.prep.height R.ht R.hu R.hv) (F.minNorm R (by
      obtain ⟨x, hx, hs⟩ := hm
      exact (getOpt_requests _ hnd _ _ F.hopt).ols x hx ((eqStr_iff _ _).2 hs)))) hkept hn sp hi hi').2

end

end UTide.Props
