import Verif.Props.SuperProps
import Verif.Props.RecProps

/-!
# The order of the samples: C79
-/

namespace UTide.Props

noncomputable section

open Classical

local notation "conj" => starRingEnd ℂ

/-! ## Specification -/

/-- The rows `(time, u, v)` of one call are those of the other in another order. -/
def Shuffled (tn : List Fl) (u : Series) (v : Option Series) (tn' : List Fl) (u' : Series) (v' : Option Series) : Prop :=
  (tn'.zip (sampleValues u'.data (v'.map Series.data))).Perm (tn.zip (sampleValues u.data (v.map Series.data)))

/-- Same ellipse for the same constituent, same mean level and trend at every time. -/
structure SameTide (c c' : Coef) : Prop where
  ellipse : ∀ (i j : ℕ) (n : String), c.name[i]? = some n → c'.name[j]? = some n →
    ellipseAt c'.ell j = ellipseAt c.ell i
  level : ∀ τ, level c' τ = level c τ

/-! ## Lemmas -/

theorem samples_perm {tn tn' : List Fl} {xs xs' : List (Option ℂ)} (h : (tn'.zip xs').Perm (tn.zip xs)) :
    (samples tn' xs').Perm (samples tn xs) := by
  unfold samples
  exact h.filterMap _

theorem level_meanRec (c : Coef) (td nt : Bool) (mean slope : ℂ) (hs : nt = true → slope = 0)
    (h : c.mean = meanRec td nt mean slope) (τ : ℝ) :
    level c τ = if td then mean + slope * ((τ - c.reftime : ℝ) : ℂ)
      else (((mean + slope * ((τ - c.reftime : ℝ) : ℂ)).re : ℝ) : ℂ) := by
  unfold level
  rw [h]
  unfold meanRec
  have hre : (mean + slope * ((τ - c.reftime : ℝ) : ℂ)).re = mean.re + slope.re * (τ - c.reftime) := by
    rw [Complex.add_re, Complex.re_mul_ofReal]
  have him : (mean + slope * ((τ - c.reftime : ℝ) : ℂ)).im = mean.im + slope.im * (τ - c.reftime) := by
    rw [Complex.add_im, Complex.im_mul_ofReal]
  cases td with
  | false =>
    simp only [Bool.false_eq_true, if_false]
    rw [hre]
    cases nt with
    | false => simp
    | true => rw [hs rfl]; simp
  | true =>
    simp only [if_true]
    refine Complex.ext ?_ ?_
    · rw [hre]
      cases nt with
      | false => simp
      | true => rw [hs rfl]; simp
    · rw [him]
      cases nt with
      | false => simp
      | true => rw [hs rfl]; simp

/-- With neither raw nor linearised times the basis functions do not depend on the reference time. -/
theorem nameBasis_tref (fl : Flags) (tref tref' lat τ : ℝ) (n : String) (h1 : fl.gwchlint = false)
    (h2 : fl.gwchnone = false) (h3 : fl.nodsatlint = false) :
    nameBasis fl tref' lat τ n = nameBasis fl tref lat τ n := by
  unfold nameBasis utE nodF nodU gwV
  simp [h1, h2, h3]

section
variable {E : Env} {t : TimeArg} {u : Series} {v : Option Series} {lat : Option ℝ} {opts : Dict PyVal}
  {c : Coef} {opt : Opt} {p : Prep} {tn : List Fl} {constit : Constit} {m : List ℂ} {W : List ℝ}
  {rf : Option RobOut} {full : Coef} {o : Order} {ind : List ℕ}

/-- The misfit of named coefficients. -/
theorem Facts.cost_curve (F : Facts E t u v lat opts c opt p tn constit m W rf full o ind) (R : Ready E t u v)
    (hnd : opts.keys.Nodup) (hk : AllKept c) (hex : approxOf p.infer = false) (P M : String → ℂ) (mean slope : ℂ)
    (hP : TiedBy p.sel InfCon.Rp P) (hM : TiedBy p.sel InfCon.Rm M) (hs : opt.notrend = true → slope = 0) :
    cost p.B (xraw p.ed) (nameCoef p.sel (!opt.notrend) P M mean (slope * (p.ed.lor : ℂ))) =
      ((UTide.Props.samples tn (sampleValues u.data (v.map Series.data))).map fun s =>
        ‖s.2 - rotaryCurve c P M mean slope s.1‖ ^ 2).sum := by
  rw [F.cost_eq R, usable_samples _ _ _ (F.samples R).1]
  congr 1
  refine List.map_congr_left fun s hs' => ?_
  have hτ : s.1 ∈ p.ed.t := by
    rw [(F.samples R).2.1, usable_samples _ _ _ (F.samples R).1]; exact List.mem_map_of_mem hs'
  rw [F.row_curve R hnd hk hex P M mean slope hP hM hs _ hτ]

theorem Facts.nameCoef_length (F : Facts E t u v lat opts c opt p tn constit m W rf full o ind)
    (P M : String → ℂ) (mean slope : ℂ) : (nameCoef p.sel (!opt.notrend) P M mean slope).length = p.nm := by
  rw [F.prep.nm]; exact (nameCoef_blocks F.prep.aligned _ _ _ _ _).length

end

/-- Two analyses whose samples are the same up to order, whose constituents are the same up to order and whose
basis functions agree. -/
theorem shuffle_core {E : Env} {t t' : TimeArg} {u u' : Series} {v v' : Option Series} {lat : Option ℝ}
    {opts : Dict PyVal} {c c' : Coef} {opt : Opt} {p p' : Prep} {tn tn' : List Fl} {constit constit' : Constit}
    {m m' : List ℂ} {W W' : List ℝ} {rf rf' : Option RobOut} {full full' : Coef} {o o' : Order} {ind ind' : List ℕ}
    (F : Facts E t u v lat opts c opt p tn constit m W rf full o ind)
    (F' : Facts E t' u' v' lat opts c' opt p' tn' constit' m' W' rf' full' o' ind')
    (R : Ready E t u v) (R' : Ready E t' u' v') (hnd : opts.keys.Nodup) (hols : opt.method = .ols)
    (hv : v'.isSome = v.isSome) (hinf : p'.infer = p.infer) (hex : approxOf p.infer = false)
    (hk : AllKept c) (hk' : AllKept c') (hn : c'.name.Perm c.name)
    (hh : ∀ n τ, harmonic c' n τ = harmonic c n τ) (hS : Shuffled tn u v tn' u' v')
    (hsep : Separated c p.infer v.isSome (SampleTime tn u.data (v.map Series.data))) :
    SameTide c c' ∧ (c'.reftime = c.reftime → c'.mean = c.mean) := by
  have hn1 := (F.perm_names R hnd hk).nodup_iff.1 hsep.names
  have hn2 := (F'.perm_names R' hnd hk').nodup_iff.1 (hn.nodup_iff.2 hsep.names)
  have hex' : approxOf p'.infer = false := by rw [hinf]; exact hex
  -- transfer of a curve from one run to the other
  have hcurve : ∀ (P M : String → ℂ) (mean slope : ℂ) (τ : ℝ), rotaryCurve c' P M mean slope τ =
      rotaryCurve c P M (mean + slope * ((c.reftime - c'.reftime : ℝ) : ℂ)) slope τ := by
    intro P M mean slope τ
    unfold rotaryCurve
    simp only [hh]
    rw [(hn.map _).sum_eq]
    push_cast
    ring
  have hsam := samples_perm hS
  have hcost : ∀ (P M : String → ℂ) (mean slope : ℂ),
      ((samples tn' (sampleValues u'.data (v'.map Series.data))).map fun s =>
        ‖s.2 - rotaryCurve c' P M mean slope s.1‖ ^ 2).sum =
      ((samples tn (sampleValues u.data (v.map Series.data))).map fun s =>
        ‖s.2 - rotaryCurve c P M (mean + slope * ((c.reftime - c'.reftime : ℝ) : ℂ)) slope s.1‖ ^ 2).sum := by
    intro P M mean slope
    rw [(hsam.map _).sum_eq]
    simp only [hcurve]
  obtain ⟨P, M, mean, slope, hP, hM, hs, hm'⟩ := F'.exists_coef hn2 m' F'.mlen
  have hT := F'.tiedRotary hnd P M hP hM
  rw [hinf, hv] at hT
  obtain ⟨hP1, hM1⟩ := F.tiedBy hnd P M hT
  have a1 := F.minNorm R hols
  have a2 := F'.minNorm R' hols
  have hm : m = nameCoef p.sel (!opt.notrend) P M (mean + slope * ((c.reftime - c'.reftime : ℝ) : ℂ))
      (slope * (p.ed.lor : ℂ)) := by
    refine optimal_unique p.nm p.B (xraw p.ed) _ _ (F.prep.height R.ht R.hu R.hv) (F.indep R hnd hk hex hsep)
      a1.length (F.nameCoef_length _ _ _ _) a1.optimal ?_
    intro y hy
    obtain ⟨Q, N, k, s, hQ, hN, hs', rfl⟩ := F.exists_coef hn1 y hy
    have hT' := F.tiedRotary hnd Q N hQ hN
    rw [← hinf, ← hv] at hT'
    obtain ⟨hQ1, hN1⟩ := F'.tiedBy hnd Q N hT'
    rw [F.cost_curve R hnd hk hex _ _ _ _ hP1 hM1 hs, F.cost_curve R hnd hk hex _ _ _ _ hQ hN hs']
    have h1 := a2.optimal (nameCoef p'.sel (!opt.notrend) Q N (k - s * ((c.reftime - c'.reftime : ℝ) : ℂ))
      (s * (p'.ed.lor : ℂ))) (F'.nameCoef_length _ _ _ _)
    rw [hm', F'.cost_curve R' hnd hk' hex' _ _ _ _ hP hM hs, F'.cost_curve R' hnd hk' hex' _ _ _ _ hQ1 hN1 hs',
      hcost, hcost, sub_add_cancel] at h1
    exact h1
  obtain ⟨e1, e2⟩ := F.read hnd P M _ slope hP1 hM1 hm
  obtain ⟨e3, e4⟩ := F'.read hnd P M mean slope hP hM hm'
  refine ⟨⟨?_, ?_⟩, ?_⟩
  · intro i j n hi hj
    rw [e1, e3, ellipseAt_map, ellipseAt_map, hi, hj, hv]
  · intro τ
    rw [level_meanRec c' _ _ _ _ hs e4 τ, level_meanRec c _ _ _ _ hs e2 τ, hv]
    have : mean + slope * ((τ - c'.reftime : ℝ) : ℂ) = mean + slope * ((c.reftime - c'.reftime : ℝ) : ℂ) +
        slope * ((τ - c.reftime : ℝ) : ℂ) := by push_cast; ring
    rw [this]
  · intro hr
    rw [e4, e2, hv, hr, sub_self, Complex.ofReal_zero, mul_zero, add_zero]

/-! ## C79 -/

/-- C79 for arbitrary `nodal` and `phase`; false, see `C79_false`. -/
def C79_full : Prop :=
  ∀ (E : Env) (t t' : TimeArg) (u u' : Series) (v v' : Option Series) (lat : Option ℝ) (opts : Dict PyVal)
    (_ : Ready E t u v) (_ : Ready E t' u' v') (_ : opts.keys.Nodup)
    (_ : ∃ x, requested opts "method" = some x ∧ IsStr x "ols") (_ : v'.isSome = v.isSome) (c c' : Coef)
    (_ : solve E t u v lat opts = .ok c) (_ : solve E t' u' v' lat opts = .ok c') (_ : AllKept c) (_ : AllKept c')
    (sp : Option InferSpec) (_ : readInfer c.opt.infer = .ok sp) (_ : ∀ s, sp = some s → s.approximate = false)
    (tn tn' : List Fl) (_ : normalizeTime E.dt64 t.arr c.opt.epoch = .ok tn)
    (_ : normalizeTime E.dt64 t'.arr c.opt.epoch = .ok tn') (_ : Shuffled tn u v tn' u' v')
    (_ : c'.name.Perm c.name) (_ : Separated c sp v.isSome (SampleTime tn u.data (v.map Series.data))),
    SameTide c c'

/-- C79 for `phase="Greenwich"` and `nodal` true or false: if two calls get the same rows in different orders and
analyse the same constituents, which the times separate, then amplitudes, phases and inclinations are the same,
and so are mean and trend as a function of time. -/
theorem C79_order_partial (E : Env) (t t' : TimeArg) (u u' : Series) (v v' : Option Series) (lat : Option ℝ)
    (opts : Dict PyVal) (R : Ready E t u v) (R' : Ready E t' u' v') (hnd : opts.keys.Nodup)
    (hm : ∃ x, requested opts "method" = some x ∧ IsStr x "ols") (hv : v'.isSome = v.isSome) (c c' : Coef)
    (h : solve E t u v lat opts = .ok c) (h' : solve E t' u' v' lat opts = .ok c') (hk : AllKept c) (hk' : AllKept c')
    (sp : Option InferSpec) (hi : readInfer c.opt.infer = .ok sp) (hex : ∀ s, sp = some s → s.approximate = false)
    (tn tn' : List Fl) (htn : normalizeTime E.dt64 t.arr c.opt.epoch = .ok tn)
    (htn' : normalizeTime E.dt64 t'.arr c.opt.epoch = .ok tn') (hS : Shuffled tn u v tn' u' v')
    (hn : c'.name.Perm c.name) (hsep : Separated c sp v.isSome (SampleTime tn u.data (v.map Series.data)))
    (mn : Mode) (hmn : (requested opts "nodal").bind nodalMode = some mn) (hmn' : mn ≠ .atReference)
    (hmp : (requested opts "phase").bind phaseMode = some .exact) : SameTide c c' := by
  obtain ⟨p, constit, m, W, rf, full, o, ind, F, hols, rfl, hex1⟩ := run_facts R hnd hm h sp hi hex tn htn
  have hcc : c'.opt = c.opt := by
    obtain ⟨opt', p', tn1, constit', m', W', rf', full', o', ind', F'⟩ := solve_facts R' h'
    have := F'.hopt
    rw [hv, F.hopt] at this
    rw [F'.copt]; exact (Except.ok.inj this).symm
  obtain ⟨p', constit', m', W', rf', full', o', ind', F', hols', hinf, hex2⟩ := run_facts R' hnd hm h' p.infer
    (by rw [hcc]; exact hi) hex tn' (by rw [hcc]; exact htn')
  rw [hcc] at F' hols'
  obtain ⟨f1, f2⟩ := C20_modes opts hnd _ _ F.hopt
  have f1 := f1 mn hmn
  have f2 := f2 _ hmp
  refine (shuffle_core F F' R R' hnd hols hv hinf hex1 hk hk' hn ?_ hS hsep).1
  intro n τ
  unfold harmonic
  rw [hcc, F.clat, F'.clat, Option.some.inj (F'.prep.init.hlat.symm.trans F.prep.init.hlat)]
  refine nameBasis_tref _ _ _ _ _ _ ?_ ?_ ?_
  · cases ha : c.opt.flags.gwchlint <;> cases hb : c.opt.flags.gwchnone <;> simp [ha, hb, flagMode] at f2 ⊢
  · cases ha : c.opt.flags.gwchlint <;> cases hb : c.opt.flags.gwchnone <;> simp [ha, hb, flagMode] at f2 ⊢
  · cases ha : c.opt.flags.nodsatlint <;> cases hb : c.opt.flags.nodsatnone <;>
      simp [ha, hb, flagMode] at f1 ⊢
    exact hmn' f1.symm

/-- C79 for any `nodal` and `phase`, if the two results have the same reference time (as after reversing the record,
or any rearrangement that leaves the first and last sample in place). -/
theorem C79_same_reftime_partial (E : Env) (t t' : TimeArg) (u u' : Series) (v v' : Option Series) (lat : Option ℝ)
    (opts : Dict PyVal) (R : Ready E t u v) (R' : Ready E t' u' v') (hnd : opts.keys.Nodup)
    (hm : ∃ x, requested opts "method" = some x ∧ IsStr x "ols") (hv : v'.isSome = v.isSome) (c c' : Coef)
    (h : solve E t u v lat opts = .ok c) (h' : solve E t' u' v' lat opts = .ok c') (hk : AllKept c) (hk' : AllKept c')
    (sp : Option InferSpec) (hi : readInfer c.opt.infer = .ok sp) (hex : ∀ s, sp = some s → s.approximate = false)
    (tn tn' : List Fl) (htn : normalizeTime E.dt64 t.arr c.opt.epoch = .ok tn)
    (htn' : normalizeTime E.dt64 t'.arr c.opt.epoch = .ok tn') (hS : Shuffled tn u v tn' u' v')
    (hn : c'.name.Perm c.name) (hsep : Separated c sp v.isSome (SampleTime tn u.data (v.map Series.data)))
    (href : c'.reftime = c.reftime) : SameTide c c' ∧ c'.mean = c.mean := by
  obtain ⟨p, constit, m, W, rf, full, o, ind, F, hols, rfl, hex1⟩ := run_facts R hnd hm h sp hi hex tn htn
  have hcc : c'.opt = c.opt := by
    obtain ⟨opt', p', tn1, constit', m', W', rf', full', o', ind', F'⟩ := solve_facts R' h'
    have := F'.hopt
    rw [hv, F.hopt] at this
    rw [F'.copt]; exact (Except.ok.inj this).symm
  obtain ⟨p', constit', m', W', rf', full', o', ind', F', hols', hinf, hex2⟩ := run_facts R' hnd hm h' p.infer
    (by rw [hcc]; exact hi) hex tn' (by rw [hcc]; exact htn')
  rw [hcc] at F' hols'
  obtain ⟨h1, h2⟩ := shuffle_core F F' R R' hnd hols hv hinf hex1 hk hk' hn (by
    intro n τ
    unfold harmonic
    rw [hcc, href, F.clat, F'.clat, Option.some.inj (F'.prep.init.hlat.symm.trans F.prep.init.hlat)]) hS hsep
  exact ⟨h1, h2 href⟩

end

end UTide.Props
