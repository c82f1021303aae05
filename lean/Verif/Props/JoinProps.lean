import Verif.Props.WithheldProps
import Verif.Props.ReduceProps
import Verif.Props.FillExample

/-!
# Joining records: C125
-/

namespace UTide.Props

noncomputable section

open Classical

local notation "conj" => starRingEnd ℂ

/-! ## Specification -/

/-- A successful analysis by ordinary least squares which keeps all constituents; inference, if any, is exact. -/
structure OlsRun (E : Env) (lat : Option ℝ) (opts : Dict PyVal) (sp : Option InferSpec) (t : TimeArg) (u : Series)
    (v : Option Series) (tn : List Fl) (c : Coef) : Prop where
  ready : Ready E t u v
  keys : opts.keys.Nodup
  ols : ∃ x, requested opts "method" = some x ∧ IsStr x "ols"
  returned : solve E t u v lat opts = .ok c
  kept : AllKept c
  infer : readInfer c.opt.infer = .ok sp
  exact : ∀ s, sp = some s → s.approximate = false
  time : normalizeTime E.dt64 t.arr c.opt.epoch = .ok tn
  distinct : c.name.Nodup

/-- The rows `(time, u, v)` of one record are those of two others together, in any order. -/
def Joined (tn : List Fl) (u : Series) (v : Option Series) (tn₁ : List Fl) (u₁ : Series) (v₁ : Option Series)
    (tn₂ : List Fl) (u₂ : Series) (v₂ : Option Series) : Prop :=
  (tn.zip (sampleValues u.data (v.map Series.data))).Perm
    (tn₁.zip (sampleValues u₁.data (v₁.map Series.data)) ++ tn₂.zip (sampleValues u₂.data (v₂.map Series.data)))

/-- The misfit of an analysis to its record: the sum of squares of what the prediction at the sample times leaves. -/
def Residual (E : Env) (t : TimeArg) (u : Series) (v : Option Series) (c : Coef) (x : ℝ) : Prop :=
  ∃ r, reconstruct E t.arr c ⟨c.opt.epoch, false, none, 0, 0⟩ = .ok r ∧ x = misfit u.data (v.map Series.data) r

/-! ## Lemmas -/

/-- The squared distances of a curve to the samples. -/
def away (tn : List Fl) (u : Series) (v : Option Series) (K : ℝ → ℂ) : ℝ :=
  ((samples tn (sampleValues u.data (v.map Series.data))).map fun s => ‖s.2 - K s.1‖ ^ 2).sum

theorem Joined.away {tn tn₁ tn₂ : List Fl} {u u₁ u₂ : Series} {v v₁ v₂ : Option Series}
    (h : Joined tn u v tn₁ u₁ v₁ tn₂ u₂ v₂) (K : ℝ → ℂ) :
    away tn u v K = away tn₁ u₁ v₁ K + away tn₂ u₂ v₂ K := by
  have h1 : (samples tn (sampleValues u.data (v.map Series.data))).Perm
      (samples tn₁ (sampleValues u₁.data (v₁.map Series.data)) ++
        samples tn₂ (sampleValues u₂.data (v₂.map Series.data))) := by
    unfold samples
    rw [← List.filterMap_append]
    exact h.filterMap _
  unfold UTide.Props.away
  rw [(h1.map _).sum_eq, List.map_append, List.sum_append]

/-- What one run amounts to: coefficients by name, a best curve, its misfit. -/
theorem OlsRun.best {E : Env} {lat : Option ℝ} {opts : Dict PyVal} {sp : Option InferSpec} {t : TimeArg} {u : Series}
    {v : Option Series} {tn : List Fl} {c : Coef} (H : OlsRun E lat opts sp t u v tn c) :
    ∃ (P M : String → ℂ) (mean slope : ℂ), TiedRotary sp v.isSome P M ∧ (c.opt.notrend = true → slope = 0) ∧
      (∀ n, n ∉ c.name → P n = 0 ∧ M n = 0) ∧
      (∀ i n, c.name[i]? = some n → ∃ e, ellipseAt c.ell i = some e ∧ ccw e = P n ∧ cw e = M n) ∧
      (∀ τ, level c τ = mean + slope * ((τ - c.reftime : ℝ) : ℂ)) ∧
      Residual E t u v c (away tn u v (rotaryCurve c P M mean slope)) ∧
      ∀ (P' M' : String → ℂ) (mean' slope' : ℂ), TiedRotary sp v.isSome P' M' → (c.opt.notrend = true → slope' = 0) →
        away tn u v (rotaryCurve c P M mean slope) ≤ away tn u v (rotaryCurve c P' M' mean' slope') := by
  obtain ⟨p, constit, m, W, rf, full, o, ind, F, hols, rfl, hex⟩ := run_facts H.ready H.keys H.ols H.returned sp
    H.infer H.exact tn H.time
  obtain ⟨P, M, mean, slope, hT, hs, hz, hell, hlev⟩ := F.components H.ready H.keys H.kept H.distinct
  have ha : RecArgs.Everything ⟨c.opt.epoch, false, none, 0, 0⟩ := ⟨rfl, rfl, rfl⟩
  have e2 := predicted H.ready H.keys H.returned H.kept P M hell _ ha E t.arr
  dsimp only at e2
  rw [H.time] at e2
  have e3 : reconstruct E t.arr c ⟨c.opt.epoch, false, none, 0, 0⟩ =
      .ok (tn.map fun x => x.toReal?.map (rotaryCurve c P M mean slope)) := by
    rw [e2]
    show Except.ok _ = _
    congr 1
    refine List.map_congr_left fun x _ => ?_
    congr 1
    funext τ
    rw [hlev]
    unfold rotaryCurve
    ring
  have e4 := F.reconstruct_all H.ready H.keys H.kept _ ha E t.arr
  dsimp only at e4
  rw [H.time, e3] at e4
  have e4 : (tn.map fun x => x.toReal?.map (rotaryCurve c P M mean slope)) =
      tn.map fun x => x.toReal?.map (curve full (List.range p.sel.lind.length)) := Except.ok.inj e4
  have hsl := (F.samples H.ready).1
  have hus := usable_samples tn u.data (v.map Series.data) hsl
  have e5 : away tn u v (curve full (List.range p.sel.lind.length)) = away tn u v (rotaryCurve c P M mean slope) := by
    unfold away
    rw [← hus, ← misfit_usable _ _ _ hsl, ← misfit_usable _ _ _ hsl, ← e4]
  refine ⟨P, M, mean, slope, hT, hs, hz, hell, hlev, ⟨_, e3, ?_⟩, ?_⟩
  · unfold away
    rw [misfit_usable _ _ _ hsl, hus]
  · intro P' M' mean' slope' hT' hs'
    obtain ⟨hP1, hM1⟩ := F.tiedBy H.keys P' M' hT'
    have h1 := (F.minNorm H.ready hols).optimal _ (F.nameCoef_length P' M' mean' (slope' * (p.ed.lor : ℂ)))
    rw [F.cost_fit H.ready H.keys hols hex, F.cost_curve H.ready H.keys H.kept hex _ _ _ _ hP1 hM1 hs'] at h1
    rw [← e5]
    exact h1

/-- Ellipses and level are in normal form. -/
theorem OlsRun.normal {E : Env} {lat : Option ℝ} {opts : Dict PyVal} {sp : Option InferSpec} {t : TimeArg} {u : Series}
    {v : Option Series} {tn : List Fl} {c : Coef} (H : OlsRun E lat opts sp t u v tn c) :
    (∀ i n e, c.name[i]? = some n → ellipseAt c.ell i = some e →
      e = if v.isSome then ell2 (ccw e) (cw e) else ell1 (ccw e) (cw e)) ∧
    (v.isSome = false → ∀ τ, level c τ = ((level c τ).re : ℂ)) := by
  obtain ⟨p, constit, m, W, rf, full, o, ind, F, hols, rfl, hex⟩ := run_facts H.ready H.keys H.ols H.returned sp
    H.infer H.exact tn H.time
  obtain ⟨P, M, mean, slope, hP, hM, hs, hm⟩ := F.exists_coef
    ((F.perm_names H.ready H.keys H.kept).nodup_iff.1 H.distinct) m F.mlen
  obtain ⟨r1, r2⟩ := F.read H.keys P M mean slope hP hM hm
  constructor
  · intro i n e hi he
    rw [r1, ellipseAt_map, hi] at he
    exact (ell_normal v.isSome (P n) (M n) e (Option.some.inj he).symm).1
  · intro hv τ
    rw [level_meanRec c _ _ _ _ hs r2 τ, hv]
    simp

/-- Two analyses with the same options and constituents, whose basis functions do not depend on the reference time:
the same curves. -/
theorem OlsRun.transfer {E : Env} {lat : Option ℝ} {opts : Dict PyVal} {sp sp' : Option InferSpec} {t t' : TimeArg}
    {u u' : Series} {v v' : Option Series} {tn tn' : List Fl} {c c' : Coef} (H : OlsRun E lat opts sp t u v tn c)
    (H' : OlsRun E lat opts sp' t' u' v' tn' c') (hv : v'.isSome = v.isSome) (hn : c'.name.Perm c.name)
    (hmode : ExactModes opts ∨ c'.reftime = c.reftime) : c'.opt = c.opt ∧ sp' = sp ∧
    ∀ (P M : String → ℂ) (mean slope : ℂ), rotaryCurve c' P M mean slope =
      rotaryCurve c P M (mean + slope * ((c.reftime - c'.reftime : ℝ) : ℂ)) slope := by
  obtain ⟨p, constit, m, W, rf, full, o, ind, F, hols, rfl, hex⟩ := run_facts H.ready H.keys H.ols H.returned sp
    H.infer H.exact tn H.time
  obtain ⟨p', constit', m', W', rf', full', o', ind', F', hols', rfl, hex'⟩ := run_facts H'.ready H'.keys H'.ols
    H'.returned sp' H'.infer H'.exact tn' H'.time
  have hcc : c'.opt = c.opt := by
    have := F'.hopt
    rw [hv, F.hopt] at this
    exact (Except.ok.inj this).symm
  have hinf : p'.infer = p.infer := by
    have := H'.infer
    rw [hcc, H.infer] at this
    exact (Except.ok.inj this).symm
  have hh : ∀ n τ, harmonic c' n τ = harmonic c n τ := by
    intro n τ
    unfold harmonic
    rcases hmode with ⟨hmp, mn, hmn, hmn'⟩ | href
    · obtain ⟨f1, f2⟩ := C20_modes opts H.keys _ _ F.hopt
      have f1 := f1 mn hmn
      have f2 := f2 _ hmp
      rw [hcc, F.clat, F'.clat, Option.some.inj (F'.prep.init.hlat.symm.trans F.prep.init.hlat)]
      refine nameBasis_tref _ _ _ _ _ _ ?_ ?_ ?_
      · cases ha : c.opt.flags.gwchlint <;> cases hb : c.opt.flags.gwchnone <;> simp [ha, hb, flagMode] at f2 ⊢
      · cases ha : c.opt.flags.gwchlint <;> cases hb : c.opt.flags.gwchnone <;> simp [ha, hb, flagMode] at f2 ⊢
      · cases ha : c.opt.flags.nodsatlint <;> cases hb : c.opt.flags.nodsatnone <;>
          simp [ha, hb, flagMode] at f1 ⊢
        exact hmn' f1.symm
    · rw [hcc, href, F.clat, F'.clat, Option.some.inj (F'.prep.init.hlat.symm.trans F.prep.init.hlat)]
  refine ⟨hcc, hinf, fun P M mean slope => ?_⟩
  funext τ
  unfold rotaryCurve
  simp only [hh]
  rw [(hn.map _).sum_eq]
  push_cast
  ring

/-- A run whose samples separate the constituents returns the best curve, whichever way that was found. -/
theorem OlsRun.unique {E : Env} {lat : Option ℝ} {opts : Dict PyVal} {sp : Option InferSpec} {t : TimeArg} {u : Series}
    {v : Option Series} {tn : List Fl} {c : Coef} (H : OlsRun E lat opts sp t u v tn c)
    (hsep : Separated c sp v.isSome (SampleTime tn u.data (v.map Series.data)))
    (P M : String → ℂ) (mean slope : ℂ) (hT : TiedRotary sp v.isSome P M) (hs : c.opt.notrend = true → slope = 0)
    (hbest : ∀ (P' M' : String → ℂ) (mean' slope' : ℂ), TiedRotary sp v.isSome P' M' →
      (c.opt.notrend = true → slope' = 0) →
      away tn u v (rotaryCurve c P M mean slope) ≤ away tn u v (rotaryCurve c P' M' mean' slope')) :
    (∀ i n, c.name[i]? = some n →
      ellipseAt c.ell i = some (if v.isSome then ell2 (P n) (M n) else ell1 (P n) (M n))) ∧
    ∀ τ, level c τ = if v.isSome then mean + slope * ((τ - c.reftime : ℝ) : ℂ)
      else (((mean + slope * ((τ - c.reftime : ℝ) : ℂ)).re : ℝ) : ℂ) := by
  obtain ⟨p, constit, m, W, rf, full, o, ind, F, hols, rfl, hex⟩ := run_facts H.ready H.keys H.ols H.returned sp
    H.infer H.exact tn H.time
  have hn2 := (F.perm_names H.ready H.keys H.kept).nodup_iff.1 H.distinct
  obtain ⟨hP, hM⟩ := F.tiedBy H.keys P M hT
  have a := F.minNorm H.ready hols
  have hm : m = nameCoef p.sel (!c.opt.notrend) P M mean (slope * (p.ed.lor : ℂ)) := by
    refine optimal_unique p.nm p.B (xraw p.ed) _ _ (F.prep.height H.ready.ht H.ready.hu H.ready.hv)
      (F.indep H.ready H.keys H.kept hex hsep) a.length (F.nameCoef_length _ _ _ _) a.optimal ?_
    intro y hy
    obtain ⟨Q, N, k, s, hQ, hN, hs2, rfl⟩ := F.exists_coef hn2 y hy
    rw [F.cost_curve H.ready H.keys H.kept hex _ _ _ _ hP hM hs,
      F.cost_curve H.ready H.keys H.kept hex _ _ _ _ hQ hN hs2]
    exact hbest Q N k s (F.tiedRotary H.keys _ _ hQ hN) hs2
  obtain ⟨r1, r2⟩ := F.read H.keys P M mean slope hP hM hm
  refine ⟨fun i n hi => ?_, fun τ => level_meanRec c _ _ _ _ hs r2 τ⟩
  rw [r1, ellipseAt_map, hi]
  rfl

/-! ## C125 -/

section
variable {E : Env} {lat : Option ℝ} {opts : Dict PyVal} {sp sp₁ sp₂ : Option InferSpec} {t t₁ t₂ : TimeArg}
  {u u₁ u₂ : Series} {v v₁ v₂ : Option Series} {tn tn₁ tn₂ : List Fl} {c c₁ c₂ : Coef}

/-- **C125.** Two records are analysed separately and as one, by ordinary least squares with the same options and
constituents. The common analysis leaves at least as much as the two separate ones together (sums of squares). -/
theorem C125_misfit (H : OlsRun E lat opts sp t u v tn c) (H₁ : OlsRun E lat opts sp₁ t₁ u₁ v₁ tn₁ c₁)
    (H₂ : OlsRun E lat opts sp₂ t₂ u₂ v₂ tn₂ c₂) (hv₁ : v₁.isSome = v.isSome) (hv₂ : v₂.isSome = v.isSome)
    (hJ : Joined tn u v tn₁ u₁ v₁ tn₂ u₂ v₂) (hn₁ : c₁.name.Perm c.name) (hn₂ : c₂.name.Perm c.name)
    (hmode : ExactModes opts ∨ c₁.reftime = c.reftime ∧ c₂.reftime = c.reftime) :
    ∃ x x₁ x₂, Residual E t u v c x ∧ Residual E t₁ u₁ v₁ c₁ x₁ ∧ Residual E t₂ u₂ v₂ c₂ x₂ ∧ x₁ + x₂ ≤ x := by
  obtain ⟨o₁, rfl, tr₁⟩ := H.transfer H₁ hv₁ hn₁ (hmode.imp id And.left)
  obtain ⟨o₂, rfl, tr₂⟩ := H.transfer H₂ hv₂ hn₂ (hmode.imp id And.right)
  obtain ⟨P, M, mean, slope, hT, hs, -, -, -, hres, -⟩ := H.best
  obtain ⟨P₁, M₁, mean₁, slope₁, -, -, -, -, -, hres₁, hb₁⟩ := H₁.best
  obtain ⟨P₂, M₂, mean₂, slope₂, -, -, -, -, -, hres₂, hb₂⟩ := H₂.best
  refine ⟨_, _, _, hres, hres₁, hres₂, ?_⟩
  rw [hJ.away]
  have e₁ := tr₁ P M (mean - slope * ((c.reftime - c₁.reftime : ℝ) : ℂ)) slope
  have e₂ := tr₂ P M (mean - slope * ((c.reftime - c₂.reftime : ℝ) : ℂ)) slope
  rw [sub_add_cancel] at e₁ e₂
  have k₁ := hb₁ P M (mean - slope * ((c.reftime - c₁.reftime : ℝ) : ℂ)) slope (by rw [hv₁]; exact hT)
    (by rw [o₁]; exact hs)
  have k₂ := hb₂ P M (mean - slope * ((c.reftime - c₂.reftime : ℝ) : ℂ)) slope (by rw [hv₂]; exact hT)
    (by rw [o₂]; exact hs)
  rw [e₁] at k₁
  rw [e₂] at k₂
  exact add_le_add k₁ k₂

/-- **C125.** If the two separate analyses agree, and the samples of the joined record separate the constituents, then
the common analysis gives the same ellipses, mean and trend. -/
theorem C125_agree (H : OlsRun E lat opts sp t u v tn c) (H₁ : OlsRun E lat opts sp₁ t₁ u₁ v₁ tn₁ c₁)
    (H₂ : OlsRun E lat opts sp₂ t₂ u₂ v₂ tn₂ c₂) (hv₁ : v₁.isSome = v.isSome) (hv₂ : v₂.isSome = v.isSome)
    (hJ : Joined tn u v tn₁ u₁ v₁ tn₂ u₂ v₂) (hn₁ : c₁.name.Perm c.name) (hn₂ : c₂.name.Perm c.name)
    (hmode : ExactModes opts ∨ c₁.reftime = c.reftime ∧ c₂.reftime = c.reftime)
    (hsep : Separated c sp v.isSome (SampleTime tn u.data (v.map Series.data))) (hsame : SameTide c₁ c₂) :
    SameTide c₁ c := by
  obtain ⟨o₁, rfl, tr₁⟩ := H.transfer H₁ hv₁ hn₁ (hmode.imp id And.left)
  obtain ⟨o₂, rfl, tr₂⟩ := H.transfer H₂ hv₂ hn₂ (hmode.imp id And.right)
  obtain ⟨P₁, M₁, mean₁, slope₁, hT₁, hs₁, hz₁, hell₁, hlev₁, -, hb₁⟩ := H₁.best
  obtain ⟨P₂, M₂, mean₂, slope₂, hT₂, hs₂, hz₂, hell₂, hlev₂, -, hb₂⟩ := H₂.best
  have hPM : ∀ n, P₂ n = P₁ n ∧ M₂ n = M₁ n := by
    intro n
    by_cases h1 : n ∈ c₁.name
    · obtain ⟨i, hi⟩ := List.getElem?_of_mem h1
      obtain ⟨j, hj⟩ := List.getElem?_of_mem (hn₂.mem_iff.2 (hn₁.mem_iff.1 h1))
      obtain ⟨e, he, p1, m1⟩ := hell₁ i n hi
      obtain ⟨e', he', p2, m2⟩ := hell₂ j n hj
      have := hsame.ellipse i j n hi hj
      rw [he, he'] at this
      cases Option.some.inj this
      exact ⟨p2.symm.trans p1, m2.symm.trans m1⟩
    · have h2 : n ∉ c₂.name := fun h => h1 (hn₁.mem_iff.2 (hn₂.mem_iff.1 h))
      rw [(hz₁ n h1).1, (hz₁ n h1).2, (hz₂ n h2).1, (hz₂ n h2).2]
      exact ⟨rfl, rfl⟩
  obtain rfl : P₂ = P₁ := funext fun n => (hPM n).1
  obtain rfl : M₂ = M₁ := funext fun n => (hPM n).2
  have hsl : slope₂ = slope₁ := by
    have h0 := hsame.level c₁.reftime
    have h1 := hsame.level (c₁.reftime + 1)
    rw [hlev₁, hlev₂] at h0 h1
    push_cast at h0 h1
    linear_combination h1 - h0
  subst hsl
  have hme : mean₂ + slope₂ * ((c.reftime - c₂.reftime : ℝ) : ℂ) = mean₁ + slope₂ * ((c.reftime - c₁.reftime : ℝ) : ℂ) := by
    have := hsame.level c.reftime
    rw [hlev₁, hlev₂] at this
    exact this
  have k := H.unique hsep P₂ M₂ (mean₁ + slope₂ * ((c.reftime - c₁.reftime : ℝ) : ℂ)) slope₂ (by rw [← hv₁]; exact hT₁)
    (by rw [← o₁]; exact hs₁) ?_
  · obtain ⟨k1, k2⟩ := k
    constructor
    · intro i j n hi hj
      obtain ⟨e, he, p1, m1⟩ := hell₁ i n hi
      have hnf := H₁.normal.1 i n e hi he
      rw [p1, m1, hv₁] at hnf
      rw [k1 j n hj, he, hnf]
    · intro τ
      have hl : mean₁ + slope₂ * ((c.reftime - c₁.reftime : ℝ) : ℂ) + slope₂ * ((τ - c.reftime : ℝ) : ℂ) = level c₁ τ := by
        rw [hlev₁]; push_cast; ring
      rw [k2, hl]
      cases hv : v.isSome with
      | true => rfl
      | false => exact (H₁.normal.2 (by rw [hv₁, hv]) τ).symm
  · intro P' M' mean' slope' hT' hs'
    rw [hJ.away, hJ.away]
    have e₁ := tr₁ P' M' (mean' - slope' * ((c.reftime - c₁.reftime : ℝ) : ℂ)) slope'
    have e₂ := tr₂ P' M' (mean' - slope' * ((c.reftime - c₂.reftime : ℝ) : ℂ)) slope'
    rw [sub_add_cancel] at e₁ e₂
    have k₁ := hb₁ P' M' (mean' - slope' * ((c.reftime - c₁.reftime : ℝ) : ℂ)) slope' (by rw [hv₁]; exact hT')
      (by rw [o₁]; exact hs')
    have k₂ := hb₂ P' M' (mean' - slope' * ((c.reftime - c₂.reftime : ℝ) : ℂ)) slope' (by rw [hv₂]; exact hT')
      (by rw [o₂]; exact hs')
    rw [e₁, tr₁] at k₁
    rw [e₂, tr₂, hme] at k₂
    exact add_le_add k₁ k₂

end

/-! ## Examples -/

/-- An M2 analysis with Greenwich phases of any samples. -/
theorem gw_olsRun (xs : List Fl) (u : List Cell) (hl : xs.length = u.length) (hne : usable xs u none ≠ []) :
    ∃ c, OlsRun idealEnv (some 45) gwOpts none ⟨[xs.length], .float xs, []⟩ ⟨[u.length], u⟩ none xs c ∧ c.opt = gwOpt ∧
      c.name = ["M2"] := by
  obtain ⟨c, hc, ho, hk, hn⟩ := gw_run xs u hl hne
  refine ⟨c, ⟨idealReady _ _ _ (by simp [TimeArg.WF, TimeArr.length]) (by simp [Series.WF]) (by simp), by decide,
    ⟨_, rfl, .inl rfl⟩, hc, hk, by rw [ho]; rfl, by simp, ?_, by rw [hn]; decide⟩, ho, hn⟩
  rw [ho]
  show (Except.ok (xs.map _) : Except PyErr (List Fl)) = _
  congr 1
  exact List.map_id xs

/-- Samples 1, 5, 3, 2 of day 0 and samples 4, 1, 0, 1 of day 10. -/
example : ∃ c c₁ c₂ x x₁ x₂,
    solve idealEnv ⟨[4], .float [.fin 0, .fin 0.25, .fin 0.5, .fin 1], []⟩
      ⟨[4], [⟨.fin 1, false⟩, ⟨.fin 5, false⟩, ⟨.fin 3, false⟩, ⟨.fin 2, false⟩]⟩ none (some 45) gwOpts = .ok c₁ ∧
    solve idealEnv ⟨[4], .float [.fin 10, .fin 10.25, .fin 10.5, .fin 11], []⟩
      ⟨[4], [⟨.fin 4, false⟩, ⟨.fin 1, false⟩, ⟨.fin 0, false⟩, ⟨.fin 1, false⟩]⟩ none (some 45) gwOpts = .ok c₂ ∧
    solve idealEnv ⟨[8], .float [.fin 0, .fin 0.25, .fin 0.5, .fin 1, .fin 10, .fin 10.25, .fin 10.5, .fin 11], []⟩
      ⟨[8], [⟨.fin 1, false⟩, ⟨.fin 5, false⟩, ⟨.fin 3, false⟩, ⟨.fin 2, false⟩, ⟨.fin 4, false⟩, ⟨.fin 1, false⟩,
        ⟨.fin 0, false⟩, ⟨.fin 1, false⟩]⟩ none (some 45) gwOpts = .ok c ∧
    Residual idealEnv ⟨[8], .float [.fin 0, .fin 0.25, .fin 0.5, .fin 1, .fin 10, .fin 10.25, .fin 10.5, .fin 11], []⟩
      ⟨[8], [⟨.fin 1, false⟩, ⟨.fin 5, false⟩, ⟨.fin 3, false⟩, ⟨.fin 2, false⟩, ⟨.fin 4, false⟩, ⟨.fin 1, false⟩,
        ⟨.fin 0, false⟩, ⟨.fin 1, false⟩]⟩ none c x ∧
    Residual idealEnv ⟨[4], .float [.fin 0, .fin 0.25, .fin 0.5, .fin 1], []⟩
      ⟨[4], [⟨.fin 1, false⟩, ⟨.fin 5, false⟩, ⟨.fin 3, false⟩, ⟨.fin 2, false⟩]⟩ none c₁ x₁ ∧
    Residual idealEnv ⟨[4], .float [.fin 10, .fin 10.25, .fin 10.5, .fin 11], []⟩
      ⟨[4], [⟨.fin 4, false⟩, ⟨.fin 1, false⟩, ⟨.fin 0, false⟩, ⟨.fin 1, false⟩]⟩ none c₂ x₂ ∧ x₁ + x₂ ≤ x := by
  obtain ⟨c₁, H₁, -, n₁⟩ := gw_olsRun [.fin 0, .fin 0.25, .fin 0.5, .fin 1]
    [⟨.fin 1, false⟩, ⟨.fin 5, false⟩, ⟨.fin 3, false⟩, ⟨.fin 2, false⟩] rfl
    (by simp [usable, goodSamples, Fl.toReal?, Cell.value?])
  obtain ⟨c₂, H₂, -, n₂⟩ := gw_olsRun [.fin 10, .fin 10.25, .fin 10.5, .fin 11]
    [⟨.fin 4, false⟩, ⟨.fin 1, false⟩, ⟨.fin 0, false⟩, ⟨.fin 1, false⟩] rfl
    (by simp [usable, goodSamples, Fl.toReal?, Cell.value?])
  obtain ⟨c, H, -, n⟩ := gw_olsRun [.fin 0, .fin 0.25, .fin 0.5, .fin 1, .fin 10, .fin 10.25, .fin 10.5, .fin 11]
    [⟨.fin 1, false⟩, ⟨.fin 5, false⟩, ⟨.fin 3, false⟩, ⟨.fin 2, false⟩, ⟨.fin 4, false⟩, ⟨.fin 1, false⟩,
      ⟨.fin 0, false⟩, ⟨.fin 1, false⟩] rfl (by simp [usable, goodSamples, Fl.toReal?, Cell.value?])
  obtain ⟨x, x₁, x₂, k, k₁, k₂, hle⟩ := C125_misfit H H₁ H₂ rfl rfl (List.Perm.refl _) (by rw [n, n₁]) (by rw [n, n₂])
    (.inl ⟨rfl, .off, rfl, by decide⟩)
  exact ⟨c, c₁, c₂, x, x₁, x₂, H₁.returned, H₂.returned, H.returned, k, k₁, k₂, hle⟩

/-- Twice the same record: the joined record gives the same answer. -/
example : ∃ c c₁,
    solve idealEnv ⟨[3], .float [.fin 0, .fin 0.5, .fin 1], []⟩
      ⟨[3], [⟨.fin 1, false⟩, ⟨.fin 5, false⟩, ⟨.fin 3, false⟩]⟩ none (some 45) gwOpts = .ok c₁ ∧
    solve idealEnv ⟨[6], .float [.fin 0, .fin 0.5, .fin 1, .fin 0, .fin 0.5, .fin 1], []⟩
      ⟨[6], [⟨.fin 1, false⟩, ⟨.fin 5, false⟩, ⟨.fin 3, false⟩, ⟨.fin 1, false⟩, ⟨.fin 5, false⟩, ⟨.fin 3, false⟩]⟩
      none (some 45) gwOpts = .ok c ∧ SameTide c₁ c := by
  obtain ⟨c₁, H₁, -, n₁⟩ := gw_olsRun [.fin 0, .fin 0.5, .fin 1]
    [⟨.fin 1, false⟩, ⟨.fin 5, false⟩, ⟨.fin 3, false⟩] rfl (by simp [usable, goodSamples, Fl.toReal?, Cell.value?])
  obtain ⟨c, H, ho, n⟩ := gw_olsRun [.fin 0, .fin 0.5, .fin 1, .fin 0, .fin 0.5, .fin 1]
    [⟨.fin 1, false⟩, ⟨.fin 5, false⟩, ⟨.fin 3, false⟩, ⟨.fin 1, false⟩, ⟨.fin 5, false⟩, ⟨.fin 3, false⟩] rfl
    (by simp [usable, goodSamples, Fl.toReal?, Cell.value?])
  refine ⟨c, c₁, H₁.returned, H.returned, C125_agree H H₁ H₁ rfl rfl (List.Perm.refl _) (by rw [n, n₁]) (by rw [n, n₁])
    (.inl ⟨rfl, .off, rfl, by decide⟩) (gw_separated ho n _ _ ⟨0, _, rfl, rfl⟩ ⟨1, _, rfl, rfl⟩ ⟨2, _, rfl, rfl⟩)
    ⟨fun i j n hi hj => ?_, fun _ => rfl⟩⟩
  obtain ⟨h1, -⟩ := List.getElem?_eq_some_iff.1 hi
  rw [(List.getElem?_inj h1 H₁.distinct).1 (hi.trans hj.symm)]

end

end UTide.Props
