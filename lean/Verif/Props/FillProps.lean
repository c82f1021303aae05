import Verif.Props.ShuffleProps
import Verif.Props.ComponentProps
import Verif.Props.NestedProps
import Verif.Props.SlvInitProps

/-!
# Filling gaps with the prediction: C103
-/

namespace UTide.Props

noncomputable section

open Classical

local notation "conj" => starRingEnd ℂ

/-! ## Specification -/

/-- The values `xs'` are the values `xs`, except that some missing ones have been replaced by those of `r`. -/
def FilledBy (xs xs' r : List (Option ℂ)) : Prop :=
  ∀ i : ℕ, xs'[i]? = xs[i]? ∨ (xs[i]? = some none ∧ xs'[i]? = r[i]?)

/-- Row `i` is usable: its time is finite and its value is there. -/
def UsableRow (tn : List Fl) (xs : List (Option ℂ)) (i : ℕ) : Prop :=
  ∃ τ x, tn[i]? = some (.fin τ) ∧ xs[i]? = some (some x)

/-- Every changed row has usable rows before and after it. -/
def InGaps (tn : List Fl) (xs xs' : List (Option ℂ)) : Prop :=
  ∀ i : ℕ, xs'[i]? ≠ xs[i]? → (∃ j < i, UsableRow tn xs j) ∧ ∃ k, i < k ∧ UsableRow tn xs k

/-! ## Lemmas -/

theorem filled_samples (f : ℝ → ℂ) (tn : List Fl) (xs xs' : List (Option ℂ)) (hl : tn.length = xs.length)
    (hl' : tn.length = xs'.length) (h : FilledBy xs xs' (tn.map fun x => x.toReal?.map f)) :
    ∃ extra, (samples tn xs').Perm (samples tn xs ++ extra) ∧ ∀ s ∈ extra, s.2 = f s.1 := by
  unfold samples
  induction tn generalizing xs xs' with
  | nil => exact ⟨[], by simp, by simp⟩
  | cons t tn ih =>
    cases xs with
    | nil => simp at hl
    | cons x xs =>
      cases xs' with
      | nil => simp at hl'
      | cons y ys =>
        obtain ⟨ex, h1, h2⟩ := ih xs ys (by simpa using hl) (by simpa using hl') fun i => by simpa using h (i + 1)
        have h0 := h 0
        simp only [List.getElem?_cons_zero, Option.some.injEq, List.map_cons] at h0
        simp only [List.zip_cons_cons, List.filterMap_cons]
        cases ht : t.toReal? with
        | none => exact ⟨ex, by simpa using h1, h2⟩
        | some τ =>
          rw [ht] at h0
          rcases h0 with rfl | ⟨rfl, rfl⟩
          · cases y with
            | none => exact ⟨ex, by simpa using h1, h2⟩
            | some y => exact ⟨ex, by simpa using h1, h2⟩
          · refine ⟨(τ, f τ) :: ex, ?_, ?_⟩
            · simp only [Option.map_some, Option.bind_some, Option.map_none]
              exact (h1.cons _).trans List.perm_middle.symm
            · intro s hs
              rcases List.mem_cons.1 hs with rfl | hs
              · rfl
              · exact h2 s hs

theorem findSome_filled {α β : Type} (f : α → Option β) (l l' : List α) (hl : l.length = l'.length)
    (h : ∀ (i : ℕ) (a b : α), l[i]? = some a → l'[i]? = some b → f b ≠ f a →
      f a = none ∧ ∃ j < i, ∃ a', l[j]? = some a' ∧ f a' ≠ none) : l'.findSome? f = l.findSome? f := by
  induction l generalizing l' with
  | nil => cases l' with
    | nil => rfl
    | cons b l' => simp at hl
  | cons a l ih =>
    cases l' with
    | nil => simp at hl
    | cons b l' =>
      have h0 : f b = f a := by
        by_contra hne
        obtain ⟨-, j, hj, -⟩ := h 0 a b rfl rfl hne
        omega
      simp only [List.findSome?_cons, h0]
      cases ha : f a with
      | some y => rfl
      | none =>
        refine ih l' (by simpa using hl) fun i a1 b1 h1 h2 hne => ?_
        obtain ⟨g1, j, hj, a', g2, g3⟩ := h (i + 1) a1 b1 (by simpa using h1) (by simpa using h2) hne
        refine ⟨g1, ?_⟩
        cases j with
        | zero =>
          simp only [List.getElem?_cons_zero, Option.some.injEq] at g2
          subst g2
          exact absurd ha g3
        | succ j => exact ⟨j, by omega, a', by simpa using g2, g3⟩

section
variable {E : Env} {t : TimeArg} {u : Series} {v : Option Series} {lat : Option ℝ} {opts : Dict PyVal}
  {c : Coef} {opt : Opt} {p : Prep} {tn : List Fl} {constit : Constit} {m : List ℂ} {W : List ℝ}
  {rf : Option RobOut} {full : Coef} {o : Order} {ind : List ℕ}

/-- The predicted curve is one of the curves that could have been fitted. -/
theorem Facts.fitted_rotary (F : Facts E t u v lat opts c opt p tn constit m W rf full o ind) (R : Ready E t u v)
    (hnd : opts.keys.Nodup) (h : solve E t u v lat opts = .ok c) (hk : AllKept c) (hn : c.name.Nodup) :
    ∃ (P M : String → ℂ) (mean slope : ℂ), TiedRotary p.infer v.isSome P M ∧ (opt.notrend = true → slope = 0) ∧
      ∀ τ, curve full (List.range p.sel.lind.length) τ = rotaryCurve c P M mean slope τ := by
  obtain ⟨P, M, mean, slope, h1, h2, -, h3, h4⟩ := F.components R hnd hk hn
  refine ⟨P, M, mean, slope, h1, h2, fun τ => ?_⟩
  have ha : RecArgs.Everything { epoch := .str "python", constit := none, minSNR := 0, minPE := 0, verbose := false } :=
    ⟨rfl, rfl, rfl⟩
  have e1 := F.reconstruct_all R hnd hk _ ha E (.float [.fin τ])
  have e2 := predicted R hnd h hk P M h3 _ ha E (.float [.fin τ])
  have ht : normalizeTime E.dt64 (.float [.fin τ]) (.str "python") = .ok [.fin τ] := by
    rfl
  rw [e1] at e2
  dsimp only at e2
  rw [ht] at e2
  have := Except.ok.inj e2
  simp only [List.map_cons, List.map_nil, Fl.toReal?, Option.map_some, List.cons.injEq, Option.some.injEq, and_true] at this
  rw [this, h4]
  unfold rotaryCurve
  ring

end

/-- Two analyses of the same constituents, the second with further samples that lie on the curve fitted by the first. -/
theorem fill_core {E : Env} {t t' : TimeArg} {u u' : Series} {v v' : Option Series} {lat : Option ℝ}
    {opts : Dict PyVal} {c c' : Coef} {opt : Opt} {p p' : Prep} {tn tn' : List Fl} {constit constit' : Constit}
    {m m' : List ℂ} {W W' : List ℝ} {rf rf' : Option RobOut} {full full' : Coef} {o o' : Order} {ind ind' : List ℕ}
    (F : Facts E t u v lat opts c opt p tn constit m W rf full o ind)
    (F' : Facts E t' u' v' lat opts c' opt p' tn' constit' m' W' rf' full' o' ind')
    (R : Ready E t u v) (R' : Ready E t' u' v') (hnd : opts.keys.Nodup) (h : solve E t u v lat opts = .ok c)
    (hols : opt.method = .ols)
    (hv : v'.isSome = v.isSome) (hinf : p'.infer = p.infer) (hex : approxOf p.infer = false)
    (hk : AllKept c) (hk' : AllKept c') (hn : c'.name.Perm c.name)
    (hh : ∀ n τ, harmonic c' n τ = harmonic c n τ)
    (hS : ∃ extra, (samples tn' (sampleValues u'.data (v'.map Series.data))).Perm
        (samples tn (sampleValues u.data (v.map Series.data)) ++ extra) ∧
      ∀ s ∈ extra, s.2 = curve full (List.range p.sel.lind.length) s.1)
    (hsep : Separated c p.infer v.isSome (SampleTime tn u.data (v.map Series.data))) :
    SameTide c c' ∧ (c'.reftime = c.reftime → c'.mean = c.mean) := by
  have hn1 := (F.perm_names R hnd hk).nodup_iff.1 hsep.names
  have hn2 := (F'.perm_names R' hnd hk').nodup_iff.1 (hn.nodup_iff.2 hsep.names)
  have hex' : approxOf p'.infer = false := by rw [hinf]; exact hex
  have hcurve : ∀ (P M : String → ℂ) (mean slope : ℂ) (τ : ℝ), rotaryCurve c' P M mean slope τ =
      rotaryCurve c P M (mean + slope * ((c.reftime - c'.reftime : ℝ) : ℂ)) slope τ := by
    intro P M mean slope τ
    unfold rotaryCurve
    simp only [hh]
    rw [(hn.map _).sum_eq]
    push_cast
    ring
  obtain ⟨extra, hsam, hon⟩ := hS
  have hcost : ∀ (P M : String → ℂ) (mean slope : ℂ),
      ((samples tn' (sampleValues u'.data (v'.map Series.data))).map fun s =>
        ‖s.2 - rotaryCurve c' P M mean slope s.1‖ ^ 2).sum =
      ((samples tn (sampleValues u.data (v.map Series.data))).map fun s =>
        ‖s.2 - rotaryCurve c P M (mean + slope * ((c.reftime - c'.reftime : ℝ) : ℂ)) slope s.1‖ ^ 2).sum +
      (extra.map fun s =>
        ‖s.2 - rotaryCurve c P M (mean + slope * ((c.reftime - c'.reftime : ℝ) : ℂ)) slope s.1‖ ^ 2).sum := by
    intro P M mean slope
    rw [(hsam.map _).sum_eq, List.map_append, List.sum_append]
    simp only [hcurve]
  -- the curve predicted by the first analysis
  obtain ⟨P0, M0, mean0, slope0, hT0, hs0, hfit⟩ := F.fitted_rotary R hnd h hk hsep.names
  have hT0' := hT0
  rw [← hinf, ← hv] at hT0'
  obtain ⟨hP0, hM0⟩ := F'.tiedBy hnd P0 M0 hT0'
  obtain ⟨P, M, mean, slope, hP, hM, hs, hm'⟩ := F'.exists_coef hn2 m' F'.mlen
  have hT := F'.tiedRotary hnd P M hP hM
  rw [hinf, hv] at hT
  obtain ⟨hP1, hM1⟩ := F.tiedBy hnd P M hT
  have a1 := F.minNorm R hols
  have a2 := F'.minNorm R' hols
  have hfirst : cost p.B (xraw p.ed) m = ((samples tn (sampleValues u.data (v.map Series.data))).map fun s =>
      ‖s.2 - rotaryCurve c P0 M0 mean0 slope0 s.1‖ ^ 2).sum := by
    rw [F.cost_eq R, usable_samples _ _ _ (F.samples R).1]
    congr 1
    refine List.map_congr_left fun s hs' => ?_
    have hτ : s.1 ∈ p.ed.t := by
      rw [(F.samples R).2.1, usable_samples _ _ _ (F.samples R).1]; exact List.mem_map_of_mem hs'
    rw [← hfit, F.curve_eq R hnd hols hex _ hτ]
  have hm : m = nameCoef p.sel (!opt.notrend) P M (mean + slope * ((c.reftime - c'.reftime : ℝ) : ℂ))
      (slope * (p.ed.lor : ℂ)) := by
    refine optimal_unique p.nm p.B (xraw p.ed) _ _ (F.prep.height R.ht R.hu R.hv) (F.indep R hnd hk hex hsep)
      a1.length (F.nameCoef_length _ _ _ _) a1.optimal ?_
    intro y hy
    refine le_trans ?_ (a1.optimal y hy)
    rw [F.cost_curve R hnd hk hex _ _ _ _ hP1 hM1 hs, hfirst]
    have h1 := a2.optimal (nameCoef p'.sel (!opt.notrend) P0 M0 (mean0 - slope0 * ((c.reftime - c'.reftime : ℝ) : ℂ))
      (slope0 * (p'.ed.lor : ℂ))) (F'.nameCoef_length _ _ _ _)
    rw [hm', F'.cost_curve R' hnd hk' hex' _ _ _ _ hP hM hs, F'.cost_curve R' hnd hk' hex' _ _ _ _ hP0 hM0 hs0,
      hcost, hcost, sub_add_cancel] at h1
    have h2 : (extra.map fun s => ‖s.2 - rotaryCurve c P0 M0 mean0 slope0 s.1‖ ^ 2).sum = 0 := by
      refine List.sum_eq_zero fun x hx => ?_
      obtain ⟨s, hs', rfl⟩ := List.mem_map.1 hx
      rw [hon s hs', hfit]
      simp
    have h3 : 0 ≤ (extra.map fun s =>
        ‖s.2 - rotaryCurve c P M (mean + slope * ((c.reftime - c'.reftime : ℝ) : ℂ)) slope s.1‖ ^ 2).sum := by
      refine List.sum_nonneg fun x hx => ?_
      obtain ⟨s, -, rfl⟩ := List.mem_map.1 hx
      positivity
    linarith
  obtain ⟨e1, e2⟩ := F.read hnd P M _ slope hP1 hM1 hm
  obtain ⟨e3, e4⟩ := F'.read hnd P M mean slope hP hM hm'
  refine ⟨⟨?_, ?_⟩, ?_⟩
  · intro i j n hi hj
    rw [e1, e3, ellipseAt_map, ellipseAt_map, hi, hj, hv]
  · intro τ
    rw [level_meanRec c' _ _ _ _ hs e4 τ, level_meanRec c _ _ _ _ hs e2 τ, hv]
    have : mean + slope * ((τ - c'.reftime : ℝ) : ℂ) = mean + slope * ((c.reftime - c'.reftime : ℝ) : ℂ) +
        slope * ((τ - c.reftime : ℝ) : ℂ) := by push_cast; ring
    rw [this]
  · intro hr
    rw [e4, e2, hv, hr, sub_self, Complex.ofReal_zero, mul_zero, add_zero]

/-! ## C103 -/

/-- C103 for `phase="Greenwich"` and `nodal` true or false: values missing anywhere in the record may be replaced by
`reconstruct` at the same times; if the same constituents are analysed again (and the original samples separate them),
every amplitude, phase and inclination, and mean and trend as a function of time, are the same as before. -/
theorem C103_filled (E : Env) (t : TimeArg) (u u' : Series) (v v' : Option Series) (lat : Option ℝ)
    (opts : Dict PyVal) (R : Ready E t u v) (R' : Ready E t u' v') (hnd : opts.keys.Nodup)
    (hm : ∃ x, requested opts "method" = some x ∧ IsStr x "ols") (hv : v'.isSome = v.isSome) (c c' : Coef)
    (h : solve E t u v lat opts = .ok c) (h' : solve E t u' v' lat opts = .ok c') (hk : AllKept c) (hk' : AllKept c')
    (sp : Option InferSpec) (hi : readInfer c.opt.infer = .ok sp) (hex : ∀ s, sp = some s → s.approximate = false)
    (tn : List Fl) (htn : normalizeTime E.dt64 t.arr c.opt.epoch = .ok tn)
    (a : RecArgs) (hae : a.epoch = c.opt.epoch) (hall : RecArgs.Everything a) (r : List (Option ℂ))
    (hr : reconstruct E t.arr c a = .ok r)
    (hf : FilledBy (sampleValues u.data (v.map Series.data)) (sampleValues u'.data (v'.map Series.data)) r)
    (hn : c'.name.Perm c.name) (hsep : Separated c sp v.isSome (SampleTime tn u.data (v.map Series.data)))
    (mn : Mode) (hmn : (requested opts "nodal").bind nodalMode = some mn) (hmn' : mn ≠ .atReference)
    (hmp : (requested opts "phase").bind phaseMode = some .exact) : SameTide c c' := by
  obtain ⟨p, constit, m, W, rf, full, o, ind, F, hols, rfl, hex1⟩ := run_facts R hnd hm h sp hi hex tn htn
  have hcc : c'.opt = c.opt := by
    obtain ⟨opt', p', tn1, constit', m', W', rf', full', o', ind', F'⟩ := solve_facts R' h'
    have := F'.hopt
    rw [hv, F.hopt] at this
    rw [F'.copt]; exact (Except.ok.inj this).symm
  obtain ⟨p', constit', m', W', rf', full', o', ind', F', hols', hinf, hex2⟩ := run_facts R' hnd hm h' p.infer
    (by rw [hcc]; exact hi) hex tn (by rw [hcc]; exact htn)
  rw [hcc] at F' hols'
  obtain ⟨f1, f2⟩ := C20_modes opts hnd _ _ F.hopt
  have f1 := f1 mn hmn
  have f2 := f2 _ hmp
  have hr' := F.reconstructed R hnd hk a hae hall r hr
  rw [hr'] at hf
  refine (fill_core F F' R R' hnd h hols hv hinf hex1 hk hk' hn ?_
    (filled_samples _ tn _ _ (sampleValues_length tn _ _ (F.samples R).1)
      (sampleValues_length tn _ _ (F'.samples R').1) hf) hsep).1
  intro n τ
  unfold harmonic
  rw [hcc, F.clat, F'.clat, Option.some.inj (F'.prep.init.hlat.symm.trans F.prep.init.hlat)]
  refine nameBasis_tref _ _ _ _ _ _ ?_ ?_ ?_
  · cases ha : c.opt.flags.gwchlint <;> cases hb : c.opt.flags.gwchnone <;> simp [ha, hb, flagMode] at f2 ⊢
  · cases ha : c.opt.flags.gwchlint <;> cases hb : c.opt.flags.gwchnone <;> simp [ha, hb, flagMode] at f2 ⊢
  · cases ha : c.opt.flags.nodsatlint <;> cases hb : c.opt.flags.nodsatnone <;>
      simp [ha, hb, flagMode] at f1 ⊢
    exact hmn' f1.symm

/-- The reference time does not change when only gaps are filled. -/
theorem gaps_reftime (E : Env) (t : TimeArg) (u u' : Series) (v v' : Option Series) (lat : Option ℝ)
    (opts : Dict PyVal) (R : Ready E t u v) (R' : Ready E t u' v') (c c' : Coef)
    (h : solve E t u v lat opts = .ok c) (h' : solve E t u' v' lat opts = .ok c') (hcc : c'.opt = c.opt)
    (tn : List Fl) (htn : normalizeTime E.dt64 t.arr c.opt.epoch = .ok tn) (r : List (Option ℂ))
    (hl : SameLength tn u.data (v.map Series.data)) (hl' : SameLength tn u'.data (v'.map Series.data))
    (hf : FilledBy (sampleValues u.data (v.map Series.data)) (sampleValues u'.data (v'.map Series.data)) r)
    (hg : InGaps tn (sampleValues u.data (v.map Series.data)) (sampleValues u'.data (v'.map Series.data))) :
    c'.reftime = c.reftime := by
  obtain ⟨tn1, e1, e2, e3⟩ := C68_reftime E t u v lat opts R.ht R.hu R.hv c h
  obtain ⟨tn2, g1, g2, g3⟩ := C68_reftime E t u' v' lat opts R'.ht R'.hu R'.hv c' h'
  cases Except.ok.inj (htn.symm.trans e1)
  rw [hcc] at g1
  cases Except.ok.inj (htn.symm.trans g1)
  have uniq : ∀ (x x' : List ℝ) (m m' : ℝ), x'.head? = x.head? → x'.getLast? = x.getLast? → IsMidpoint x m →
      IsMidpoint x' m' → m' = m := by
    rintro x x' m m' k1 k2 ⟨a, b, k3, k4, rfl⟩ ⟨a', b', k5, k6, rfl⟩
    cases Option.some.inj (k3.symm.trans (k1.symm.trans k5))
    cases Option.some.inj (k4.symm.trans (k2.symm.trans k6))
    rfl
  cases hq : isEqui (finiteTimes tn) with
  | true => exact uniq _ _ _ _ rfl rfl (e2 hq) (g2 hq)
  | false =>
    have i1 := e3 hq
    have i2 := g3 hq
    rw [usable_samples _ _ _ hl] at i1
    rw [usable_samples _ _ _ hl'] at i2
    have n1 := sampleValues_length tn _ _ hl
    have n2 := sampleValues_length tn _ _ hl'
    generalize sampleValues u.data (v.map Series.data) = xs at *
    generalize sampleValues u'.data (v'.map Series.data) = ys at *
    have hz : ∀ (i : ℕ) (a b : Fl × Option ℂ), (tn.zip xs)[i]? = some a → (tn.zip ys)[i]? = some b → b ≠ a →
        a.2 = none ∧ (∃ j < i, UsableRow tn xs j) ∧ ∃ k, i < k ∧ UsableRow tn xs k := by
      intro i a b h1 h2 hne
      rw [List.getElem?_zip_eq_some] at h1 h2
      have h3 : ys[i]? ≠ xs[i]? := by
        rw [h1.2, h2.2]
        intro e
        exact hne (Prod.ext (Option.some.inj (h2.1.symm.trans h1.1)) (Option.some.inj e))
      rcases hf i with h4 | ⟨h4, -⟩
      · exact absurd h4 h3
      · refine ⟨?_, hg i h3⟩
        rw [h1.2] at h4
        exact Option.some.inj h4
    set f : Fl × Option ℂ → Option (ℝ × ℂ) := fun p => p.1.toReal?.bind fun τ => p.2.map fun x => (τ, x) with hfdef
    have fnone : ∀ a : Fl × Option ℂ, a.2 = none → f a = none := by
      intro a ha
      simp only [hfdef, ha, Option.map_none]
      cases a.1.toReal? <;> rfl
    have fsome : ∀ j, UsableRow tn xs j → ∃ a, (tn.zip xs)[j]? = some a ∧ f a ≠ none := by
      rintro j ⟨τ, x, k1, k2⟩
      exact ⟨(.fin τ, some x), List.getElem?_zip_eq_some.2 ⟨k1, k2⟩, by simp [hfdef, Fl.toReal?]⟩
    have hlz : (tn.zip xs).length = (tn.zip ys).length := by simp [← n1, ← n2]
    have hhead : (samples tn ys).head? = (samples tn xs).head? := by
      unfold samples
      rw [List.head?_filterMap, List.head?_filterMap]
      refine findSome_filled f _ _ hlz fun i a b h1 h2 hne => ?_
      obtain ⟨k1, ⟨j, k2, k3⟩, -⟩ := hz i a b h1 h2 fun e => hne (by rw [e])
      exact ⟨fnone a k1, j, k2, fsome j k3⟩
    have hlast : (samples tn ys).getLast? = (samples tn xs).getLast? := by
      unfold samples
      rw [← List.head?_reverse, ← List.head?_reverse, ← List.filterMap_reverse, ← List.filterMap_reverse,
        List.head?_filterMap, List.head?_filterMap]
      refine findSome_filled f _ _ (by simpa using hlz) fun i a b h1 h2 hne => ?_
      have hi : i < (tn.zip xs).length := by simpa using (List.getElem?_eq_some_iff.1 h1).1
      rw [List.getElem?_reverse hi] at h1
      rw [List.getElem?_reverse (hlz ▸ hi), ← hlz] at h2
      obtain ⟨k1, -, k, k2, k3⟩ := hz _ a b h1 h2 fun e => hne (by rw [e])
      obtain ⟨a', k4, k5⟩ := fsome k k3
      have hk : k < (tn.zip xs).length := (List.getElem?_eq_some_iff.1 k4).1
      refine ⟨fnone a k1, (tn.zip xs).length - 1 - k, by omega, a', ?_, k5⟩
      rw [List.getElem?_reverse (by omega), ← k4]
      congr 1
      omega
    refine uniq _ _ _ _ ?_ ?_ i1 i2
    · rw [List.head?_map, List.head?_map, hhead]
    · rw [List.getLast?_map, List.getLast?_map, hlast]

/-- C103 for any `nodal` and `phase`: filling gaps, i.e. missing values with usable samples before and after them. -/
theorem C103_gaps (E : Env) (t : TimeArg) (u u' : Series) (v v' : Option Series) (lat : Option ℝ)
    (opts : Dict PyVal) (R : Ready E t u v) (R' : Ready E t u' v') (hnd : opts.keys.Nodup)
    (hm : ∃ x, requested opts "method" = some x ∧ IsStr x "ols") (hv : v'.isSome = v.isSome) (c c' : Coef)
    (h : solve E t u v lat opts = .ok c) (h' : solve E t u' v' lat opts = .ok c') (hk : AllKept c) (hk' : AllKept c')
    (sp : Option InferSpec) (hi : readInfer c.opt.infer = .ok sp) (hex : ∀ s, sp = some s → s.approximate = false)
    (tn : List Fl) (htn : normalizeTime E.dt64 t.arr c.opt.epoch = .ok tn)
    (a : RecArgs) (hae : a.epoch = c.opt.epoch) (hall : RecArgs.Everything a) (r : List (Option ℂ))
    (hr : reconstruct E t.arr c a = .ok r)
    (hf : FilledBy (sampleValues u.data (v.map Series.data)) (sampleValues u'.data (v'.map Series.data)) r)
    (hg : InGaps tn (sampleValues u.data (v.map Series.data)) (sampleValues u'.data (v'.map Series.data)))
    (hn : c'.name.Perm c.name) (hsep : Separated c sp v.isSome (SampleTime tn u.data (v.map Series.data))) :
    SameTide c c' ∧ c'.mean = c.mean ∧ c'.reftime = c.reftime := by
  obtain ⟨p, constit, m, W, rf, full, o, ind, F, hols, rfl, hex1⟩ := run_facts R hnd hm h sp hi hex tn htn
  have hcc : c'.opt = c.opt := by
    obtain ⟨opt', p', tn1, constit', m', W', rf', full', o', ind', F'⟩ := solve_facts R' h'
    have := F'.hopt
    rw [hv, F.hopt] at this
    rw [F'.copt]; exact (Except.ok.inj this).symm
  obtain ⟨p', constit', m', W', rf', full', o', ind', F', hols', hinf, hex2⟩ := run_facts R' hnd hm h' p.infer
    (by rw [hcc]; exact hi) hex tn (by rw [hcc]; exact htn)
  rw [hcc] at F' hols'
  have href := gaps_reftime E t u u' v v' lat opts R R' c c' h h' hcc tn htn r (F.samples R).1 (F'.samples R').1 hf hg
  have hr' := F.reconstructed R hnd hk a hae hall r hr
  rw [hr'] at hf
  obtain ⟨h1, h2⟩ := fill_core F F' R R' hnd h hols hv hinf hex1 hk hk' hn (by
    intro n τ
    unfold harmonic
    rw [hcc, href, F.clat, F'.clat, Option.some.inj (F'.prep.init.hlat.symm.trans F.prep.init.hlat)])
    (filled_samples _ tn _ _ (sampleValues_length tn _ _ (F.samples R).1)
      (sampleValues_length tn _ _ (F'.samples R').1) hf) hsep
  exact ⟨h1, h2 href, href⟩

end

end UTide.Props
