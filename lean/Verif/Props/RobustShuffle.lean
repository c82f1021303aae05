import Verif.Props.RobustOrder
import Verif.Props.ShuffleExamples

/-!
# C148: a robust analysis does not depend on the order of the samples
-/

namespace UTide.Props

noncomputable section

open UTide Classical

local notation "conj" => starRingEnd ℂ

/-! ## Lemmas -/

/-- A rearranged list takes the entries of the other in the order of some rearrangement of the positions. -/
theorem perm_gather {α : Type} {l l' : List α} (h : l'.Perm l) : ∃ I : List ℕ, I.Perm (List.range l.length) ∧ l' = gather l I := by
  have h0 : List.Forall₂ (fun (a : α) (i : ℕ) => l[i]? = some a) l (List.range l.length) := by
    rw [List.forall₂_iff_get]
    refine ⟨by simp, fun i h1 h2 => ?_⟩
    simp
  obtain ⟨I, h1, h2⟩ := List.perm_comp_forall₂ h h0
  refine ⟨I, h2, ?_⟩
  clear h h0 h2
  unfold gather
  induction h1 with
  | nil => rfl
  | cons h _ ih => rw [List.filterMap_cons, h, ← ih]

/-- Two sets of rows with independent columns that describe the same curves. -/
theorem change_of_range {ncol : ℕ} {X X' : List (List ℂ)} (hX : ∀ r ∈ X, r.length = ncol) (hX' : ∀ r ∈ X', r.length = ncol)
    (hh : X'.length = X.length) (hi : IndepColumns ncol X) (hi' : IndepColumns ncol X')
    (h1 : ∀ b' : List ℂ, b'.length = ncol → ∃ b : List ℂ, b.length = ncol ∧
      ∀ (i : ℕ) (h : i < X.length) (h' : i < X'.length), dot X'[i] b' = dot X[i] b)
    (h2 : ∀ b : List ℂ, b.length = ncol → ∃ b' : List ℂ, b'.length = ncol ∧
      ∀ (i : ℕ) (h : i < X.length) (h' : i < X'.length), dot X'[i] b' = dot X[i] b) :
    ∃ S, Change ncol X X' S ∧ ∀ b b' : List ℂ, b.length = ncol → b'.length = ncol →
      (∀ (i : ℕ) (h : i < X.length) (h' : i < X'.length), dot X'[i] b' = dot X[i] b) → S b' = b := by
  have uniq : ∀ {Y : List (List ℂ)}, (∀ r ∈ Y, r.length = ncol) → IndepColumns ncol Y → ∀ b d : List ℂ, b.length = ncol →
      d.length = ncol → (∀ (i : ℕ) (h : i < Y.length), dot Y[i] b = dot Y[i] d) → b = d := by
    intro Y hY hi b d hb hd h
    have nn : ∀ (x e : List ℂ), 0 ≤ cost Y x e := by
      intro x e
      unfold cost
      refine List.sum_nonneg fun z hz => ?_
      obtain ⟨i, h1, rfl⟩ := List.mem_iff_getElem.1 hz
      rw [List.getElem_zipWith]
      positivity
    have z : ∀ e : List ℂ, (∀ (i : ℕ) (h : i < Y.length), dot Y[i] b = dot Y[i] e) →
        cost Y (Y.map fun r => dot r b) e = 0 := by
      intro e he
      unfold cost
      refine List.sum_eq_zero fun z hz => ?_
      obtain ⟨i, h1, rfl⟩ := List.mem_iff_getElem.1 hz
      rw [List.getElem_zipWith, List.getElem_map, he i (by simp at h1; exact h1)]
      simp
    refine optimal_unique ncol Y (Y.map fun r => dot r b) b d (by simp) hi hb hd ?_ ?_
    · intro x _; rw [z b fun _ _ => rfl]; exact nn _ _
    · intro x _; rw [z d h]; exact nn _ _
  have dz : ∀ r : List ℂ, dot r (List.replicate ncol 0) = 0 := by
    intro r
    unfold dot
    refine List.sum_eq_zero fun z hz => ?_
    obtain ⟨i, h1, rfl⟩ := List.mem_iff_getElem.1 hz
    rw [List.getElem_zipWith, List.getElem_replicate, mul_zero]
  choose S hS using h1
  have key : ∀ b b' : List ℂ, b.length = ncol → b'.length = ncol →
      (∀ (i : ℕ) (h : i < X.length) (h' : i < X'.length), dot X'[i] b' = dot X[i] b) →
      (if h : b'.length = ncol then S b' h else b') = b := by
    intro b b' hb hb' h
    rw [dif_pos hb']
    exact uniq hX hi _ _ (hS b' hb').1 hb fun i h1 => by rw [← (hS b' hb').2 i h1 (by omega), h i h1 (by omega)]
  refine ⟨fun b' => if h : b'.length = ncol then S b' h else b', ⟨hX, hX', hh, ?_, ?_, ?_, ?_, ?_⟩, key⟩
  · intro b hb
    rw [dif_pos hb]
    exact (hS b hb).1
  · intro i h h' b hb
    rw [dif_pos hb]
    exact (hS b hb).2 i h h'
  · exact key _ _ (by simp) (by simp) fun i h h' => by rw [dz, dz]
  · intro b hb
    obtain ⟨b', hb', h⟩ := h2 b hb
    exact ⟨b', hb', key b b' hb hb' h⟩
  · intro b b' hb hb' h
    rw [dif_pos hb, dif_pos hb'] at h
    exact uniq hX' hi' _ _ hb hb' fun i h1 => by
      rw [(hS b hb).2 i (by omega) h1, (hS b' hb').2 i (by omega) h1, h]

/-- The number of columns does not depend on the reference time. -/
theorem numCols_eq {tref tref' : ℝ} {mr mr' : Fl} {con con' : Constit} {inf : Option InferSpec} {sel sel' : Sel}
    (h : cnstitsel tref mr con inf = .ok sel) (h' : cnstitsel tref' mr' con' inf = .ok sel')
    (hp : sel'.name.Perm sel.name) (trend : Bool) : numCols trend sel' = numCols trend sel := by
  have hl := hp.length_eq
  have a := cnstitsel_aligned _ _ _ _ _ h
  have a' := cnstitsel_aligned _ _ _ _ _ h'
  have key : sel'.nR = sel.nR ∧ (sel'.refs.flatMap fun r => r.inf.map InfCon.name).length =
      (sel.refs.flatMap fun r => r.inf.map InfCon.name).length := by
    rw [a.nR, a'.nR]
    have hinf : ∀ {tref : ℝ} {s : InferSpec} {ns : List String} {refs : List RefCon},
        ns.mapM (mkRef s tref) = .ok refs →
        refs.map (fun r => r.inf.length) = ns.map fun n => (refPositions s.reference n).length := by
      intro tref s ns refs hr
      refine mapM_map _ _ _ _ _ hr fun n _ r hr => ?_
      unfold mkRef at hr
      simp only [bind_eq_ok] at hr
      obtain ⟨_, -, inf, h1, h2⟩ := hr
      cases Except.ok.inj h2
      exact mapM_length _ _ _ h1
    unfold cnstitsel at h h'
    simp only [bind_eq_ok] at h h'
    obtain ⟨l0, -, l, -, h⟩ := h
    obtain ⟨l0', -, l', -, h'⟩ := h'
    cases inf with
    | none =>
      dsimp only at h h'
      rw [pure_eq_ok] at h h'
      cases h; cases h'; exact ⟨rfl, rfl⟩
    | some s =>
      dsimp only at h h'
      rw [bind_eq_ok] at h h'
      obtain ⟨refs, hr, h⟩ := h
      obtain ⟨refs', hr', h'⟩ := h'
      rw [pure_eq_ok] at h h'
      cases h; cases h'
      have e := (hinf hr').trans (hinf hr).symm
      refine ⟨by simpa using congrArg List.length e, ?_⟩
      simp only [List.length_flatMap, List.length_map]
      rw [e]
  rw [a.names, a'.names] at hl
  simp only [List.length_append, List.length_map, a.nrName, a'.nrName, ← a.nNR, ← a'.nNR, ← a.nR, ← a'.nR] at hl
  unfold numCols
  have := key.1; have := key.2
  omega

theorem sampleTime_iff (tn : List Fl) (u : List Cell) (v : Option (List Cell)) (τ : ℝ) :
    SampleTime tn u v τ ↔ τ ∈ (samples tn (sampleValues u v)).map Prod.fst := by
  rw [List.mem_map]
  constructor
  · rintro ⟨i, x, h1, h2⟩
    exact ⟨(τ, x), (mem_samples _ _ _).2 ⟨i, h1, h2⟩, rfl⟩
  · rintro ⟨s, hs, rfl⟩
    obtain ⟨i, h1, h2⟩ := (mem_samples _ _ _).1 hs
    exact ⟨i, s.2, h1, h2⟩

/-- Two robust analyses whose samples and constituents are the same up to order and whose basis functions agree. -/
theorem shuffle_robust {E : Env} {t t' : TimeArg} {u u' : Series} {v v' : Option Series} {lat : Option ℝ}
    {opts : Dict PyVal} {c c' : Coef} {opt : Opt} {p p' : Prep} {tn tn' : List Fl} {constit constit' : Constit}
    {m m' : List ℂ} {W W' : List ℝ} {rf rf' : Option RobOut} {full full' : Coef} {o o' : Order} {ind ind' : List ℕ}
    (F : Facts E t u v lat opts c opt p tn constit m W rf full o ind)
    (F' : Facts E t' u' v' lat opts c' opt p' tn' constit' m' W' rf' full' o' ind')
    (R : Ready E t u v) (R' : Ready E t' u' v') (hE : NumOk E.num) (hnd : opts.keys.Nodup) {kw : List (String × PyVal)}
    (hr : opt.method = .robust kw) (hw : Harmless kw)
    (hv : v'.isSome = v.isSome) (hinf : p'.infer = p.infer) (hex : approxOf p.infer = false)
    (hk : AllKept c) (hk' : AllKept c') (hn : c'.name.Perm c.name)
    (hh : ∀ n τ, harmonic c' n τ = harmonic c n τ) (hS : Shuffled tn u v tn' u' v')
    (hsep : Separated c p.infer v.isSome (SampleTime tn u.data (v.map Series.data))) :
    SameTide c c' ∧ (c'.reftime = c.reftime → c'.mean = c.mean) ∧
    ((samples tn' (sampleValues u'.data (v'.map Series.data))).zip c'.weights).Perm
      ((samples tn (sampleValues u.data (v.map Series.data))).zip c.weights) ∧
    ∃ r r', c.rf = some r ∧ c'.rf = some r' ∧ SameQuality r r' := by
  have hn1 := (F.perm_names R hnd hk).nodup_iff.1 hsep.names
  have hn2 := (F'.perm_names R' hnd hk').nodup_iff.1 (hn.nodup_iff.2 hsep.names)
  have hex' : approxOf p'.infer = false := by rw [hinf]; exact hex
  have hcurve : ∀ (P M : String → ℂ) (mean slope : ℂ) (τ : ℝ), rotaryCurve c' P M mean slope τ =
      rotaryCurve c P M (mean + slope * ((c.reftime - c'.reftime : ℝ) : ℂ)) slope τ := by
    intro P M mean slope τ
    unfold rotaryCurve
    simp only [hh]
    rw [(hn.map _).sum_eq]
    push_cast
    ring
  have hsam := samples_perm hS
  obtain ⟨L, hL⟩ : ∃ L, L = samples tn (sampleValues u.data (v.map Series.data)) := ⟨_, rfl⟩
  obtain ⟨L', hL'⟩ : ∃ L', L' = samples tn' (sampleValues u'.data (v'.map Series.data)) := ⟨_, rfl⟩
  rw [← hL, ← hL'] at hsam
  obtain ⟨I, hI, hLI⟩ := perm_gather hsam
  have ht : p.ed.t = L.map Prod.fst := by rw [(F.samples R).2.1, usable_samples _ _ _ (F.samples R).1, hL]
  have hx : xraw p.ed = L.map Prod.snd := by rw [(F.samples R).2.2, usable_samples _ _ _ (F.samples R).1, hL]
  have ht' : p'.ed.t = gather p.ed.t I := by
    rw [(F'.samples R').2.1, usable_samples _ _ _ (F'.samples R').1, ← hL', hLI, ht, gather_map]
  have hx' : xraw p'.ed = gather (xraw p.ed) I := by
    rw [(F'.samples R').2.2, usable_samples _ _ _ (F'.samples R').1, ← hL', hLI, hx, gather_map]
  have hmem : ∀ τ, τ ∈ p'.ed.t ↔ τ ∈ p.ed.t := fun τ => by
    rw [ht', (gather_perm p.ed.t (by rw [ht, List.length_map]; exact hI)).mem_iff]
  have hmemS : ∀ τ, SampleTime tn u.data (v.map Series.data) τ ↔ τ ∈ p.ed.t := fun τ => by
    rw [ht, hL]; exact sampleTime_iff ..
  have hmemS' : ∀ τ, SampleTime tn' u'.data (v'.map Series.data) τ ↔ τ ∈ p'.ed.t := fun τ => by
    rw [(F'.samples R').2.1, usable_samples _ _ _ (F'.samples R').1]; exact sampleTime_iff ..
  have hsep' : Separated c' p'.infer v'.isSome (SampleTime tn' u'.data (v'.map Series.data)) := by
    refine ⟨hn.nodup_iff.2 hsep.names, ?_⟩
    intro P M mean slope hT hs hz
    rw [hinf, hv] at hT
    obtain ⟨z1, z2, z3⟩ := hsep.indep P M (mean + slope * ((c.reftime - c'.reftime : ℝ) : ℂ)) slope hT
      (by rw [F.copt, ← F'.copt]; exact hs) fun τ hτ => by
        rw [← hcurve]; exact hz τ ((hmemS' τ).2 ((hmem τ).2 ((hmemS τ).1 hτ)))
    refine ⟨?_, z2, fun n hn' => z3 n (hn.subset hn')⟩
    rw [z2, zero_mul, add_zero] at z1
    exact z1
  have hi := F.indep R hnd hk hex hsep
  have hi' := F'.indep R' hnd hk' hex' hsep'
  have hB : p.B = p.ed.t.map (rowAt p) := by rw [F.prep.B]; unfold rowAt; rw [F.prep.hopt]
  have hB' : p'.B = gather (p.ed.t.map (rowAt p')) I := by
    rw [F'.prep.B, ht', gather_map]; unfold rowAt; rw [F'.prep.hopt]
  have hnm : p'.nm = p.nm := by
    rw [F.prep.nm, F'.prep.nm]
    have h1 := F.prep.hsel
    have h2 := F'.prep.hsel
    rw [hinf] at h2
    exact numCols_eq h1 h2 ((F'.perm_names R' hnd hk').symm.trans (hn.trans (F.perm_names R hnd hk))) _
  have hrows : ∀ r ∈ p.ed.t.map (rowAt p), r.length = p.nm := by rw [← hB]; exact F.prep.rows
  have hBp : p'.B.Perm (p.ed.t.map (rowAt p')) := by
    rw [hB']; exact gather_perm _ (by rw [List.length_map, ht, List.length_map]; exact hI)
  have hrows' : ∀ r ∈ p.ed.t.map (rowAt p'), r.length = p.nm := by
    intro r hr
    rw [← hnm]; exact F'.prep.rows r (hBp.symm.subset hr)
  have pair : ∀ (P M : String → ℂ) (mean slope : ℂ), TiedRotary p.infer v.isSome P M →
      (opt.notrend = true → slope = 0) → ∀ (i : ℕ) (h : i < (p.ed.t.map (rowAt p)).length)
        (h' : i < (p.ed.t.map (rowAt p')).length),
      dot (p.ed.t.map (rowAt p'))[i] (nameCoef p'.sel (!opt.notrend) P M mean (slope * (p'.ed.lor : ℂ))) =
      dot (p.ed.t.map (rowAt p))[i] (nameCoef p.sel (!opt.notrend) P M
        (mean + slope * ((c.reftime - c'.reftime : ℝ) : ℂ)) (slope * (p.ed.lor : ℂ))) := by
    intro P M mean slope hT hs i h h'
    obtain ⟨hP1, hM1⟩ := F.tiedBy hnd P M hT
    obtain ⟨hP2, hM2⟩ := F'.tiedBy hnd P M (by rw [hinf, hv]; exact hT)
    have hτ : p.ed.t[i]'(by simpa using h) ∈ p.ed.t := List.getElem_mem _
    rw [List.getElem_map, List.getElem_map, F.row_curve R hnd hk hex _ _ _ _ hP1 hM1 hs _ hτ,
      F'.row_curve R' hnd hk' hex' _ _ _ _ hP2 hM2 hs _ ((hmem _).2 hτ), hcurve]
  obtain ⟨S, C, hSu⟩ := change_of_range hrows hrows' (by simp) (by rw [← hB]; exact hi)
    (by
      intro x hx hz
      refine hi' x (by rw [hnm]; exact hx) fun r hr => hz r (hBp.subset hr))
    (by
      intro b' hb'
      obtain ⟨P, M, mean, slope, hP, hM, hs, rfl⟩ := F'.exists_coef hn2 b' (by rw [hnm]; exact hb')
      have hT := F'.tiedRotary hnd P M hP hM
      rw [hinf, hv] at hT
      exact ⟨_, F.nameCoef_length _ _ _ _, pair P M mean slope hT hs⟩)
    (by
      intro b hb
      obtain ⟨P, M, mean, slope, hP, hM, hs, rfl⟩ := F.exists_coef hn1 b hb
      have hT := F.tiedRotary hnd P M hP hM
      refine ⟨nameCoef p'.sel (!opt.notrend) P M (mean - slope * ((c.reftime - c'.reftime : ℝ) : ℂ))
        (slope * (p'.ed.lor : ℂ)), (F'.nameCoef_length _ _ _ _).trans hnm, ?_⟩
      have := pair P M (mean - slope * ((c.reftime - c'.reftime : ℝ) : ℂ)) slope hT hs
      rw [sub_add_cancel] at this
      exact this)
  obtain ⟨A, out, hA, hfit, hb, hW, hrf⟩ := F.robust_fit hr
  obtain ⟨A', out', hA', hfit', hb', hW', hrf'⟩ := F'.robust_fit hr
  cases Except.ok.inj (hA.symm.trans hA')
  have hy := F.prep.height R.ht R.hu R.hv
  rw [hB] at hy hfit
  have hIx : I.Perm (List.range (xraw p.ed).length) := by rw [hx, List.length_map]; exact hI
  have hc := robustfit_changed hE.lstsq hE.pinv A (hw.args hA) _ C (xraw p.ed) hy hIx
  rw [hnm, hB', hx'] at hfit'
  rw [hfit, hfit'] at hc
  have hlen := robustfit_lengths _ _ _ _ _ hy _ hfit
  obtain ⟨P, M, mean, slope, hP, hM, hs, hm'⟩ := F'.exists_coef hn2 m' F'.mlen
  have hT := F'.tiedRotary hnd P M hP hM
  rw [hinf, hv] at hT
  obtain ⟨hP1, hM1⟩ := F.tiedBy hnd P M hT
  have hm : m = nameCoef p.sel (!opt.notrend) P M (mean + slope * ((c.reftime - c'.reftime : ℝ) : ℂ))
      (slope * (p.ed.lor : ℂ)) := by
    rw [hb, hc.b, ← hb', hm']
    exact hSu _ _ (F.nameCoef_length _ _ _ _) (by rw [← hnm]; exact F'.nameCoef_length _ _ _ _) (pair P M mean slope hT hs)
  obtain ⟨e1, e2⟩ := F.read hnd P M _ slope hP1 hM1 hm
  obtain ⟨e3, e4⟩ := F'.read hnd P M mean slope hP hM hm'
  refine ⟨⟨?_, ?_⟩, ?_, ?_, ⟨out, out', by rw [F.crf, hrf], by rw [F'.crf, hrf'], ⟨hc.iterations, hc.rms, hc.olsRms⟩⟩⟩
  · intro i j n hi hj
    rw [e1, e3, ellipseAt_map, ellipseAt_map, hi, hj, hv]
  · intro τ
    rw [level_meanRec c' _ _ _ _ hs e4 τ, level_meanRec c _ _ _ _ hs e2 τ, hv]
    have : mean + slope * ((τ - c'.reftime : ℝ) : ℂ) = mean + slope * ((c.reftime - c'.reftime : ℝ) : ℂ) +
        slope * ((τ - c.reftime : ℝ) : ℂ) := by push_cast; ring
    rw [this]
  · intro hr
    rw [e4, e2, hv, hr, sub_self, Complex.ofReal_zero, mul_zero, add_zero]
  · have hl : L.length = out.w.length := by rw [hlen.1, hx, List.length_map]
    rw [← hL, ← hL', F.cweights, F'.cweights, hW, hW', hc.w, hLI]
    show (List.zipWith Prod.mk _ _).Perm (List.zipWith Prod.mk _ _)
    rw [← gather_zipWith _ _ _ hl]
    exact gather_perm _ (by rw [List.length_zipWith, ← hl, Nat.min_self]; exact hI)

theorem approxOf_exact {sp : Option InferSpec} (h : ∀ s, sp = some s → s.approximate = false) : approxOf sp = false := by
  cases hsp : sp with
  | none => rfl
  | some s => exact h s hsp

/-! ## C148 -/

/-- **C148** for any `nodal` and `phase`, if the two results have the same reference time. -/
theorem C148_same_reftime (E : Env) (hE : NumOk E.num) (t t' : TimeArg) (u u' : Series) (v v' : Option Series)
    (lat : Option ℝ) (opts : Dict PyVal) (R : Ready E t u v) (R' : Ready E t' u' v') (hnd : opts.keys.Nodup)
    (kw : List (String × PyVal)) (hr : AsksRobust opts kw) (hw : Harmless kw) (hv : v'.isSome = v.isSome) (c c' : Coef)
    (h : solve E t u v lat opts = .ok c) (h' : solve E t' u' v' lat opts = .ok c') (hk : AllKept c) (hk' : AllKept c')
    (sp : Option InferSpec) (hi : readInfer c.opt.infer = .ok sp) (hex : ∀ s, sp = some s → s.approximate = false)
    (tn tn' : List Fl) (htn : normalizeTime E.dt64 t.arr c.opt.epoch = .ok tn)
    (htn' : normalizeTime E.dt64 t'.arr c.opt.epoch = .ok tn') (hS : Shuffled tn u v tn' u' v')
    (hn : c'.name.Perm c.name) (hsep : Separated c sp v.isSome (SampleTime tn u.data (v.map Series.data)))
    (href : c'.reftime = c.reftime) :
    SameTide c c' ∧ c'.mean = c.mean ∧
    ((samples tn' (sampleValues u'.data (v'.map Series.data))).zip c'.weights).Perm
      ((samples tn (sampleValues u.data (v.map Series.data))).zip c.weights) ∧
    ∃ r r', c.rf = some r ∧ c'.rf = some r' ∧ SameQuality r r' := by
  obtain ⟨opt, p, tn0, constit, m, W, rf, full, o, ind, F⟩ := solve_facts R h
  obtain ⟨opt', p', tn1, constit', m', W', rf', full', o', ind', F'⟩ := solve_facts R' h'
  have ho : opt' = opt := by
    have := F'.hopt
    rw [hv, F.hopt] at this
    exact (Except.ok.inj this).symm
  subst ho
  have hc := F.copt
  have hc' := F'.copt
  rw [hc] at hi htn htn'
  cases Except.ok.inj (F.prep.init.time.symm.trans htn)
  cases Except.ok.inj (F'.prep.init.time.symm.trans htn')
  cases Except.ok.inj (F.prep.hinfer.symm.trans hi)
  have hinf : p'.infer = p.infer := Except.ok.inj (F'.prep.hinfer.symm.trans F.prep.hinfer)
  obtain ⟨h1, h2, h3, h4⟩ := shuffle_robust F F' R R' hE hnd (F.method_robust hnd hr) hw hv hinf (approxOf_exact hex) hk hk' hn (by
    intro n τ
    unfold harmonic
    rw [hc, hc', href, F.clat, F'.clat, Option.some.inj (F'.prep.init.hlat.symm.trans F.prep.init.hlat)]) hS hsep
  exact ⟨h1, h2 href, h3, h4⟩

/-- **C148** for `phase="Greenwich"` and `nodal` true or false: if two robust analyses get the same rows in different
orders, for the same constituents, which the times separate, then amplitudes, phases and inclinations are the same, mean
and trend are the same as a function of time, and every sample has the same weight. -/
theorem C148_order (E : Env) (hE : NumOk E.num) (t t' : TimeArg) (u u' : Series) (v v' : Option Series)
    (lat : Option ℝ) (opts : Dict PyVal) (R : Ready E t u v) (R' : Ready E t' u' v') (hnd : opts.keys.Nodup)
    (kw : List (String × PyVal)) (hr : AsksRobust opts kw) (hw : Harmless kw) (hv : v'.isSome = v.isSome) (c c' : Coef)
    (h : solve E t u v lat opts = .ok c) (h' : solve E t' u' v' lat opts = .ok c') (hk : AllKept c) (hk' : AllKept c')
    (sp : Option InferSpec) (hi : readInfer c.opt.infer = .ok sp) (hex : ∀ s, sp = some s → s.approximate = false)
    (tn tn' : List Fl) (htn : normalizeTime E.dt64 t.arr c.opt.epoch = .ok tn)
    (htn' : normalizeTime E.dt64 t'.arr c.opt.epoch = .ok tn') (hS : Shuffled tn u v tn' u' v')
    (hn : c'.name.Perm c.name) (hsep : Separated c sp v.isSome (SampleTime tn u.data (v.map Series.data)))
    (mn : Mode) (hmn : (requested opts "nodal").bind nodalMode = some mn) (hmn' : mn ≠ .atReference)
    (hmp : (requested opts "phase").bind phaseMode = some .exact) :
    SameTide c c' ∧
    ((samples tn' (sampleValues u'.data (v'.map Series.data))).zip c'.weights).Perm
      ((samples tn (sampleValues u.data (v.map Series.data))).zip c.weights) ∧
    ∃ r r', c.rf = some r ∧ c'.rf = some r' ∧ SameQuality r r' := by
  obtain ⟨opt, p, tn0, constit, m, W, rf, full, o, ind, F⟩ := solve_facts R h
  obtain ⟨opt', p', tn1, constit', m', W', rf', full', o', ind', F'⟩ := solve_facts R' h'
  have ho : opt' = opt := by
    have := F'.hopt
    rw [hv, F.hopt] at this
    exact (Except.ok.inj this).symm
  subst ho
  have hc := F.copt
  have hc' := F'.copt
  rw [hc] at hi htn htn'
  cases Except.ok.inj (F.prep.init.time.symm.trans htn)
  cases Except.ok.inj (F'.prep.init.time.symm.trans htn')
  cases Except.ok.inj (F.prep.hinfer.symm.trans hi)
  have hinf : p'.infer = p.infer := Except.ok.inj (F'.prep.hinfer.symm.trans F.prep.hinfer)
  obtain ⟨f1, f2⟩ := C20_modes opts hnd _ _ F.hopt
  have f1 := f1 mn hmn
  have f2 := f2 _ hmp
  obtain ⟨h1, -, h3, h4⟩ := shuffle_robust F F' R R' hE hnd (F.method_robust hnd hr) hw hv hinf (approxOf_exact hex) hk hk' hn (by
    intro n τ
    unfold harmonic
    rw [hc, hc', F.clat, F'.clat, Option.some.inj (F'.prep.init.hlat.symm.trans F.prep.init.hlat)]
    refine nameBasis_tref _ _ _ _ _ _ ?_ ?_ ?_
    · cases ha : opt'.flags.gwchlint <;> cases hb : opt'.flags.gwchnone <;> simp [ha, hb, flagMode] at f2 ⊢
    · cases ha : opt'.flags.gwchlint <;> cases hb : opt'.flags.gwchnone <;> simp [ha, hb, flagMode] at f2 ⊢
    · cases ha : opt'.flags.nodsatlint <;> cases hb : opt'.flags.nodsatnone <;>
        simp [ha, hb, flagMode] at f1 ⊢
      exact hmn' f1.symm) hS hsep
  exact ⟨h1, h3, h4⟩

/-! ## A case -/

/-- The six samples of the example with those of equal times exchanged. -/
def sixSwap : Fin 6 → ℝ := ![-1, 1, -1, 3, 6, 0]

theorem six_swap_run : ∃ c, SixRun sixSwap c := by
  apply six_run
  have e : [((sixSwap 0 : ℂ) - sixSwap 1) / 2, ((sixSwap 1 : ℂ) - sixSwap 0) / 2,
      ((sixSwap 2 : ℂ) - sixSwap 3) / 2, ((sixSwap 3 : ℂ) - sixSwap 2) / 2,
      ((sixSwap 4 : ℂ) - sixSwap 5) / 2, ((sixSwap 5 : ℂ) - sixSwap 4) / 2] = [-1, 1, -2, 2, 3, -3] := by
    simp only [sixSwap, List.cons.injEq, and_true]
    refine ⟨?_, ?_, ?_, ?_, ?_, ?_⟩ <;> · simp [Matrix.cons_val]; try norm_num
  have hp : ([-1, 1, -2, 2, 3, -3] : List ℂ).Perm [1, -1, 2, -2, -3, 3] :=
    (List.Perm.swap _ _ _).trans (((List.Perm.swap _ _ _).trans (((List.Perm.swap _ _ _).cons _).cons _)).cons _ |>.cons _)
  rw [e, sigmaHat_perm hp, six_sigma]
  norm_num

/-- `C148_same_reftime`: the samples of equal times exchanged. -/
example : ∃ c c', solve idealEnv sixT (sixSeries (sixY 1 0)) none (some 45) (methodOpts "robust" sixKw) = .ok c ∧
    solve idealEnv sixT (sixSeries sixSwap) none (some 45) (methodOpts "robust" sixKw) = .ok c' ∧
    SameTide c c' ∧ c'.mean = c.mean ∧
    (([(0, -1), (0, 1), (0.5, -1), (0.5, 3), (1, 6), (1, 0)] : List (ℝ × ℂ)).zip c'.weights).Perm
      (([(0, 1), (0, -1), (0.5, 3), (0.5, -1), (1, 0), (1, 6)] : List (ℝ × ℂ)).zip sixW) := by
  obtain ⟨c, H⟩ := six_run' 1 0 one_ne_zero
  obtain ⟨c', H'⟩ := six_swap_run
  have R := six_ready (sixY 1 0) none (.inl rfl)
  have R' := six_ready sixSwap none (.inl rfl)
  have hnd : (methodOpts "robust" sixKw).keys.Nodup := by decide
  obtain ⟨p, constit, m, rf, full, o, ind, z, F, hz, hz', hnm, hinf, hB, -⟩ := six_facts (methodOpts_robust sixKw)
    ⟨rfl, rfl, rfl, rfl, rfl⟩ rfl H.returned
  obtain ⟨opt', p', tn', constit', m', W', rf', full', o', ind', F'⟩ := solve_facts R' H'.returned
  have htn : tn' = sixTn := by
    have h1 := F'.prep.init.time
    rw [← F'.copt, H'.opt] at h1
    exact Except.ok.inj (h1.symm.trans six_times)
  subst htn
  have href : c'.reftime = c.reftime := by
    rw [F.creftime, F'.creftime]
    obtain ⟨-, -, -, -, h5⟩ := editData_usable _ _ _ (F.samples R).1 _ F.prep.init.edit
    obtain ⟨-, -, -, -, h5'⟩ := editData_usable _ _ _ (F'.samples R').1 _ F'.prep.init.edit
    rw [six_usable _ none (.inl rfl)] at h5 h5'
    exact congrArg Prod.fst (Except.ok.inj (h5'.symm.trans h5))
  have s1 := (six_samples (sixY 1 0) sixSwap).1
  have s2 := (six_samples sixSwap sixSwap).1
  obtain ⟨h1, h2, h3, -⟩ := C148_same_reftime idealEnv idealNum_ok sixT sixT (sixSeries (sixY 1 0)) (sixSeries sixSwap)
    none none (some 45) (methodOpts "robust" sixKw) R R' hnd sixKw ⟨⟨"robust", by decide, rfl⟩, false, rfl⟩
    ⟨by decide, by simp [sixKw]⟩ rfl c c' H.returned H'.returned H.kept H'.kept none (by rw [H.opt]; rfl)
    (by simp) sixTn sixTn (by rw [H.opt]; exact six_times) (by rw [H.opt]; exact six_times) (by
      unfold Shuffled
      have key : ∀ y : Fin 6 → ℝ, sixTn.zip (sampleValues (sixSeries y).data none) =
          [(.fin 0, some (y 0 : ℂ)), (.fin 0, some (y 1 : ℂ)), (.fin 0.5, some (y 2 : ℂ)), (.fin 0.5, some (y 3 : ℂ)),
            (.fin 1, some (y 4 : ℂ)), (.fin 1, some (y 5 : ℂ))] := by
        intro y
        simp [sampleValues, sixSeries, sixTn, Fl.toReal?, Cell.value?]
      rw [Option.map_none, key, key]
      have e0 : sixSwap 0 = sixY 1 0 1 := by simp [sixSwap, sixY]
      have e1 : sixSwap 1 = sixY 1 0 0 := by simp [sixSwap, sixY]
      have e2 : sixSwap 2 = sixY 1 0 3 := by simp [sixSwap, sixY]
      have e3 : sixSwap 3 = sixY 1 0 2 := by simp [sixSwap, sixY]
      have e4 : sixSwap 4 = sixY 1 0 5 := by simp [sixSwap, sixY]
      have e5 : sixSwap 5 = sixY 1 0 4 := by simp [sixSwap, sixY]
      rw [e0, e1, e2, e3, e4, e5]
      exact (List.Perm.swap _ _ _).trans
        (((List.Perm.swap _ _ _).trans (((List.Perm.swap _ _ _).cons _).cons _)).cons _ |>.cons _))
    (by rw [H.name, H'.name]) (F.separated R hnd H.kept hinf (by rw [hnm, hB]; exact six_indep z hz hz')) href
  rw [Option.map_none, s1, s2, F.cweights] at h3
  refine ⟨c, c', H.returned, H'.returned, h1, h2, ?_⟩
  simpa [sixSwap, sixY, Matrix.cons_val] using h3

end

end UTide.Props
