import Verif.Props.ShuffleProps

/-!
# Samples listed several times: C107
-/

namespace UTide.Props

noncomputable section

open Classical

local notation "conj" => starRingEnd ℂ

/-! ## Specification -/

/-- The rows `(time, u, v)` of the second call are those of the first, each `k` times, in any order. -/
def RepeatedRows (k : ℕ) (tn : List Fl) (u : Series) (v : Option Series) (tn' : List Fl) (u' : Series)
    (v' : Option Series) : Prop :=
  (tn'.zip (sampleValues u'.data (v'.map Series.data))).Perm
    (List.replicate k (tn.zip (sampleValues u.data (v.map Series.data)))).flatten

/-! ## Lemmas -/

theorem samples_repeated {k : ℕ} {tn tn' : List Fl} {xs xs' : List (Option ℂ)}
    (h : (tn'.zip xs').Perm (List.replicate k (tn.zip xs)).flatten) :
    (samples tn' xs').Perm (List.replicate k (samples tn xs)).flatten := by
  unfold samples
  refine (h.filterMap _).trans ?_
  rw [List.filterMap_flatten, List.map_replicate]

theorem sum_replicate_flatten {α : Type} (k : ℕ) (l : List α) (f : α → ℝ) :
    ((List.replicate k l).flatten.map f).sum = k * (l.map f).sum := by
  induction k with
  | zero => simp
  | succ k ih =>
    rw [List.replicate_succ, List.flatten_cons, List.map_append, List.sum_append, ih]
    push_cast
    ring

/-- Two analyses, the samples of the second being those of the first `k` times over, whose constituents are the same up to order and whose
basis functions agree. -/
theorem repeat_core {E : Env} {t t' : TimeArg} {u u' : Series} {v v' : Option Series} {lat : Option ℝ}
    {opts : Dict PyVal} {c c' : Coef} {opt : Opt} {p p' : Prep} {tn tn' : List Fl} {constit constit' : Constit}
    {m m' : List ℂ} {W W' : List ℝ} {rf rf' : Option RobOut} {full full' : Coef} {o o' : Order} {ind ind' : List ℕ}
    (F : Facts E t u v lat opts c opt p tn constit m W rf full o ind)
    (F' : Facts E t' u' v' lat opts c' opt p' tn' constit' m' W' rf' full' o' ind')
    (R : Ready E t u v) (R' : Ready E t' u' v') (hnd : opts.keys.Nodup) (hols : opt.method = .ols)
    (hv : v'.isSome = v.isSome) (hinf : p'.infer = p.infer) (hex : approxOf p.infer = false)
    (hk : AllKept c) (hk' : AllKept c') (hn : c'.name.Perm c.name)
    (hh : ∀ n τ, harmonic c' n τ = harmonic c n τ) (k : ℕ) (hk0 : 0 < k)
    (hS : RepeatedRows k tn u v tn' u' v')
    (hsep : Separated c p.infer v.isSome (SampleTime tn u.data (v.map Series.data))) :
    SameTide c c' ∧ (c'.reftime = c.reftime → c'.mean = c.mean) := by
  have hn1 := (F.perm_names R hnd hk).nodup_iff.1 hsep.names
  have hn2 := (F'.perm_names R' hnd hk').nodup_iff.1 (hn.nodup_iff.2 hsep.names)
  have hex' : approxOf p'.infer = false := by rw [hinf]; exact hex
  -- transfer of a curve from one run to the other
  have hcurve : ∀ (P M : String → ℂ) (mean slope : ℂ) (τ : ℝ), rotaryCurve c' P M mean slope τ =
      rotaryCurve c P M (mean + slope * ((c.reftime - c'.reftime : ℝ) : ℂ)) slope τ := by
    intro P M mean slope τ
    unfold rotaryCurve
    simp only [hh]
    rw [(hn.map _).sum_eq]
    push_cast
    ring
  have hsam := samples_repeated hS
  have hcost : ∀ (P M : String → ℂ) (mean slope : ℂ),
      ((samples tn' (sampleValues u'.data (v'.map Series.data))).map fun s =>
        ‖s.2 - rotaryCurve c' P M mean slope s.1‖ ^ 2).sum =
      k * ((samples tn (sampleValues u.data (v.map Series.data))).map fun s =>
        ‖s.2 - rotaryCurve c P M (mean + slope * ((c.reftime - c'.reftime : ℝ) : ℂ)) slope s.1‖ ^ 2).sum := by
    intro P M mean slope
    rw [(hsam.map _).sum_eq, sum_replicate_flatten]
    simp only [hcurve]
  obtain ⟨P, M, mean, slope, hP, hM, hs, hm'⟩ := F'.exists_coef hn2 m' F'.mlen
  have hT := F'.tiedRotary hnd P M hP hM
  rw [hinf, hv] at hT
  obtain ⟨hP1, hM1⟩ := F.tiedBy hnd P M hT
  have a1 := F.minNorm R hols
  have a2 := F'.minNorm R' hols
  have hm : m = nameCoef p.sel (!opt.notrend) P M (mean + slope * ((c.reftime - c'.reftime : ℝ) : ℂ))
      (slope * (p.ed.lor : ℂ)) := by
    refine optimal_unique p.nm p.B (xraw p.ed) _ _ (F.prep.height R.ht R.hu R.hv) (F.indep R hnd hk hex hsep)
      a1.length (F.nameCoef_length _ _ _ _) a1.optimal ?_
    intro y hy
    obtain ⟨Q, N, mn, s, hQ, hN, hs', rfl⟩ := F.exists_coef hn1 y hy
    have hT' := F.tiedRotary hnd Q N hQ hN
    rw [← hinf, ← hv] at hT'
    obtain ⟨hQ1, hN1⟩ := F'.tiedBy hnd Q N hT'
    rw [F.cost_curve R hnd hk hex _ _ _ _ hP1 hM1 hs, F.cost_curve R hnd hk hex _ _ _ _ hQ hN hs']
    have h1 := a2.optimal (nameCoef p'.sel (!opt.notrend) Q N (mn - s * ((c.reftime - c'.reftime : ℝ) : ℂ))
      (s * (p'.ed.lor : ℂ))) (F'.nameCoef_length _ _ _ _)
    rw [hm', F'.cost_curve R' hnd hk' hex' _ _ _ _ hP hM hs, F'.cost_curve R' hnd hk' hex' _ _ _ _ hQ1 hN1 hs',
      hcost, hcost, sub_add_cancel] at h1
    exact le_of_mul_le_mul_left h1 (by exact_mod_cast hk0)
  obtain ⟨e1, e2⟩ := F.read hnd P M _ slope hP1 hM1 hm
  obtain ⟨e3, e4⟩ := F'.read hnd P M mean slope hP hM hm'
  refine ⟨⟨?_, ?_⟩, ?_⟩
  · intro i j n hi hj
    rw [e1, e3, ellipseAt_map, ellipseAt_map, hi, hj, hv]
  · intro τ
    rw [level_meanRec c' _ _ _ _ hs e4 τ, level_meanRec c _ _ _ _ hs e2 τ, hv]
    have : mean + slope * ((τ - c'.reftime : ℝ) : ℂ) = mean + slope * ((c.reftime - c'.reftime : ℝ) : ℂ) +
        slope * ((τ - c.reftime : ℝ) : ℂ) := by push_cast; ring
    rw [this]
  · intro hr
    rw [e4, e2, hv, hr, sub_self, Complex.ofReal_zero, mul_zero, add_zero]

/-! ## C107 -/

/-- **C107.** With `phase="Greenwich"` and `nodal` true or false: if one call gets every row of the other `k` times, in
any order, and analyses the same constituents, which the times separate, then amplitudes, phases and inclinations are the
same, and so are mean and trend as a function of time. -/
theorem C107_repeated (E : Env) (t t' : TimeArg) (u u' : Series) (v v' : Option Series) (lat : Option ℝ)
    (opts : Dict PyVal) (R : Ready E t u v) (R' : Ready E t' u' v') (hnd : opts.keys.Nodup)
    (hm : ∃ x, requested opts "method" = some x ∧ IsStr x "ols") (hv : v'.isSome = v.isSome) (c c' : Coef)
    (h : solve E t u v lat opts = .ok c) (h' : solve E t' u' v' lat opts = .ok c') (hk : AllKept c) (hk' : AllKept c')
    (sp : Option InferSpec) (hi : readInfer c.opt.infer = .ok sp) (hex : ∀ s, sp = some s → s.approximate = false)
    (tn tn' : List Fl) (htn : normalizeTime E.dt64 t.arr c.opt.epoch = .ok tn)
    (htn' : normalizeTime E.dt64 t'.arr c.opt.epoch = .ok tn') (k : ℕ) (hk0 : 0 < k)
    (hS : RepeatedRows k tn u v tn' u' v')
    (hn : c'.name.Perm c.name) (hsep : Separated c sp v.isSome (SampleTime tn u.data (v.map Series.data)))
    (mn : Mode) (hmn : (requested opts "nodal").bind nodalMode = some mn) (hmn' : mn ≠ .atReference)
    (hmp : (requested opts "phase").bind phaseMode = some .exact) : SameTide c c' := by
  obtain ⟨p, constit, m, W, rf, full, o, ind, F, hols, rfl, hex1⟩ := run_facts R hnd hm h sp hi hex tn htn
  have hcc : c'.opt = c.opt := by
    obtain ⟨opt', p', tn1, constit', m', W', rf', full', o', ind', F'⟩ := solve_facts R' h'
    have := F'.hopt
    rw [hv, F.hopt] at this
    rw [F'.copt]; exact (Except.ok.inj this).symm
  obtain ⟨p', constit', m', W', rf', full', o', ind', F', hols', hinf, hex2⟩ := run_facts R' hnd hm h' p.infer
    (by rw [hcc]; exact hi) hex tn' (by rw [hcc]; exact htn')
  rw [hcc] at F' hols'
  obtain ⟨f1, f2⟩ := C20_modes opts hnd _ _ F.hopt
  have f1 := f1 mn hmn
  have f2 := f2 _ hmp
  refine (repeat_core F F' R R' hnd hols hv hinf hex1 hk hk' hn ?_ k hk0 hS hsep).1
  intro n τ
  unfold harmonic
  rw [hcc, F.clat, F'.clat, Option.some.inj (F'.prep.init.hlat.symm.trans F.prep.init.hlat)]
  refine nameBasis_tref _ _ _ _ _ _ ?_ ?_ ?_
  · cases ha : c.opt.flags.gwchlint <;> cases hb : c.opt.flags.gwchnone <;> simp [ha, hb, flagMode] at f2 ⊢
  · cases ha : c.opt.flags.gwchlint <;> cases hb : c.opt.flags.gwchnone <;> simp [ha, hb, flagMode] at f2 ⊢
  · cases ha : c.opt.flags.nodsatlint <;> cases hb : c.opt.flags.nodsatnone <;>
      simp [ha, hb, flagMode] at f1 ⊢
    exact hmn' f1.symm

/-- **C107.** The same for any `nodal` and `phase`, if the two results have the same reference time (as when the record
is given twice in a row, or each sample is listed twice). -/
theorem C107_same_reftime (E : Env) (t t' : TimeArg) (u u' : Series) (v v' : Option Series) (lat : Option ℝ)
    (opts : Dict PyVal) (R : Ready E t u v) (R' : Ready E t' u' v') (hnd : opts.keys.Nodup)
    (hm : ∃ x, requested opts "method" = some x ∧ IsStr x "ols") (hv : v'.isSome = v.isSome) (c c' : Coef)
    (h : solve E t u v lat opts = .ok c) (h' : solve E t' u' v' lat opts = .ok c') (hk : AllKept c) (hk' : AllKept c')
    (sp : Option InferSpec) (hi : readInfer c.opt.infer = .ok sp) (hex : ∀ s, sp = some s → s.approximate = false)
    (tn tn' : List Fl) (htn : normalizeTime E.dt64 t.arr c.opt.epoch = .ok tn)
    (htn' : normalizeTime E.dt64 t'.arr c.opt.epoch = .ok tn') (k : ℕ) (hk0 : 0 < k)
    (hS : RepeatedRows k tn u v tn' u' v')
    (hn : c'.name.Perm c.name) (hsep : Separated c sp v.isSome (SampleTime tn u.data (v.map Series.data)))
    (href : c'.reftime = c.reftime) : SameTide c c' ∧ c'.mean = c.mean := by
  obtain ⟨p, constit, m, W, rf, full, o, ind, F, hols, rfl, hex1⟩ := run_facts R hnd hm h sp hi hex tn htn
  have hcc : c'.opt = c.opt := by
    obtain ⟨opt', p', tn1, constit', m', W', rf', full', o', ind', F'⟩ := solve_facts R' h'
    have := F'.hopt
    rw [hv, F.hopt] at this
    rw [F'.copt]; exact (Except.ok.inj this).symm
  obtain ⟨p', constit', m', W', rf', full', o', ind', F', hols', hinf, hex2⟩ := run_facts R' hnd hm h' p.infer
    (by rw [hcc]; exact hi) hex tn' (by rw [hcc]; exact htn')
  rw [hcc] at F' hols'
  obtain ⟨h1, h2⟩ := repeat_core F F' R R' hnd hols hv hinf hex1 hk hk' hn (by
    intro n τ
    unfold harmonic
    rw [hcc, href, F.clat, F'.clat, Option.some.inj (F'.prep.init.hlat.symm.trans F.prep.init.hlat)]) k hk0 hS hsep
  exact ⟨h1, h2 href⟩

end

end UTide.Props
