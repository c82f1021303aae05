import Verif.Props.StableProps

/-!
# Predicting samples that were withheld: C122
-/

namespace UTide.Props

noncomputable section

open Classical

local notation "conj" => starRingEnd ℂ

/-! ## Specification -/

/-- The values `xs` are the values `xs'`, except that some have been removed. -/
def Withheld (xs xs' : List (Option ℂ)) : Prop := ∀ i : ℕ, xs[i]? = xs'[i]? ∨ (xs[i]? = some none ∧ i < xs'.length)

/-- The rows that are usable in `xs'` but not in `xs`. -/
def withheldRows (tn : List Fl) (xs xs' : List (Option ℂ)) : Finset ℕ := usableRows tn xs' \ usableRows tn xs

/-- The basis functions do not depend on the reference time: `nodal` true or false and `phase="Greenwich"`. -/
def ExactModes (opts : Dict PyVal) : Prop :=
  (requested opts "phase").bind phaseMode = some .exact ∧
    ∃ mn, (requested opts "nodal").bind nodalMode = some mn ∧ mn ≠ .atReference

/-! ## Lemmas -/

theorem mem_usableRows (tn : List Fl) (xs : List (Option ℂ)) (i : ℕ) : i ∈ usableRows tn xs ↔ UsableRow tn xs i := by
  unfold usableRows
  rw [Finset.mem_filter, Finset.mem_range]
  exact ⟨fun h => h.2, fun h => ⟨by obtain ⟨τ, x, h1, -⟩ := h; exact (List.getElem?_eq_some_iff.1 h1).1, h⟩⟩

/-- A sum over the samples as a sum over the usable rows. -/
theorem sampleSum_rows {α : Type} [AddCommMonoid α] (tn : List Fl) (xs : List (Option ℂ)) (hl : tn.length = xs.length)
    (f : ℝ → ℂ) (g : ℝ → ℂ → ℂ → α) (k : ℕ → α)
    (hk : ∀ i τ x, tn[i]? = some (.fin τ) → xs[i]? = some (some x) → k i = g τ x (f τ)) :
    sampleSum tn xs (tn.map fun x => x.toReal?.map f) g = ∑ i ∈ usableRows tn xs, k i := by
  obtain ⟨l, h1, -, h3⟩ := samples_pair tn xs xs hl hl fun _ => Iff.rfl
  rw [sampleSum_samples, h1, List.map_map, h3 k (fun s => g s.1 s.2.1 (f s.1))]
  · rfl
  · intro i τ x y e1 e2 _
    exact hk i τ x e1 e2

theorem rotaryCurve_sub (c : Coef) (P M P' M' : String → ℂ) (mean slope mean' slope' : ℂ) (τ : ℝ) :
    rotaryCurve c P M mean slope τ - rotaryCurve c P' M' mean' slope' τ =
      rotaryCurve c (fun n => P n - P' n) (fun n => M n - M' n) (mean - mean') (slope - slope') τ := by
  unfold rotaryCurve
  have : (c.name.map fun n => harmonic c n τ * (P n - P' n) + conj (harmonic c n τ) * (M n - M' n)) =
      c.name.map fun n => (harmonic c n τ * P n + conj (harmonic c n τ) * M n) -
        (harmonic c n τ * P' n + conj (harmonic c n τ) * M' n) := by
    refine List.map_congr_left fun n _ => ?_
    ring
  rw [this, sum_map_sub']
  ring

theorem TiedRotary.diff {sp : Option InferSpec} {td : Bool} {P M P' M' : String → ℂ} (h : TiedRotary sp td P M)
    (h' : TiedRotary sp td P' M') : TiedRotary sp td (fun n => P n - P' n) (fun n => M n - M' n) := by
  constructor
  · intro s hs j n r a φ e1 e2 e3 e4
    rw [h.plus s hs j n r a φ e1 e2 e3 e4, h'.plus s hs j n r a φ e1 e2 e3 e4]
    ring
  · intro s hs j k n r a φ e1 e2 e3 e4 e5
    rw [h.minus s hs j k n r a φ e1 e2 e3 e4 e5, h'.minus s hs j k n r a φ e1 e2 e3 e4 e5]
    ring

/-- What orthogonality in both analyses says about the withheld rows. -/
theorem withheld_of_orthogonal (U U' : Finset ℕ) (hU : U ⊆ U') (x f g : ℕ → ℂ)
    (h1 : ∑ i ∈ U, conj (f i - g i) * (x i - g i) = 0) (h2 : ∑ i ∈ U', conj (f i - g i) * (x i - f i) = 0) :
    ∑ i ∈ U' \ U, conj (f i - g i) * (x i - f i) = ((∑ i ∈ U, ‖f i - g i‖ ^ 2 : ℝ) : ℂ) := by
  rw [← Finset.sum_sdiff hU] at h2
  have h3 : ∑ i ∈ U, conj (f i - g i) * (x i - f i) = ∑ i ∈ U, conj (f i - g i) * (x i - g i) -
      ((∑ i ∈ U, ‖f i - g i‖ ^ 2 : ℝ) : ℂ) := by
    push_cast
    rw [← Finset.sum_sub_distrib]
    refine Finset.sum_congr rfl fun i _ => ?_
    have : ((‖f i - g i‖ : ℝ) : ℂ) ^ 2 = conj (f i - g i) * (f i - g i) := by
      rw [mul_comm, Complex.mul_conj, Complex.normSq_eq_norm_sq]; push_cast; rfl
    rw [this]
    ring
  rw [h3, h1, zero_sub] at h2
  exact add_neg_eq_zero.1 h2

theorem identity_of_orthogonal (U U' : Finset ℕ) (x f g : ℕ → ℂ)
    (h : ∑ i ∈ U' \ U, conj (f i - g i) * (x i - f i) = ((∑ i ∈ U, ‖f i - g i‖ ^ 2 : ℝ) : ℂ)) :
    ∑ i ∈ U' \ U, ‖x i - g i‖ ^ 2 = ∑ i ∈ U' \ U, ‖x i - f i‖ ^ 2 + ∑ i ∈ U' \ U, ‖f i - g i‖ ^ 2 +
      2 * ∑ i ∈ U, ‖f i - g i‖ ^ 2 := by
  have key : ∀ i, ‖x i - g i‖ ^ 2 = ‖x i - f i‖ ^ 2 + ‖f i - g i‖ ^ 2 + 2 * (conj (f i - g i) * (x i - f i)).re := by
    intro i
    simp only [← Complex.normSq_eq_norm_sq, Complex.normSq_apply, Complex.mul_re, Complex.conj_re, Complex.conj_im,
      Complex.sub_re, Complex.sub_im]
    ring
  have hre := congrArg Complex.re h
  rw [Complex.re_sum, Complex.ofReal_re] at hre
  simp only [key]
  rw [Finset.sum_add_distrib, Finset.sum_add_distrib, ← Finset.mul_sum, hre]

theorem between_of_orthogonal (U U' : Finset ℕ) (x f g : ℕ → ℂ) (k : ℕ) (hk : U' \ U = {k})
    (h : ∑ i ∈ U' \ U, conj (f i - g i) * (x i - f i) = ((∑ i ∈ U, ‖f i - g i‖ ^ 2 : ℝ) : ℂ)) :
    ∃ q : ℝ, 0 ≤ q ∧ q ≤ 1 ∧ f k - g k = q * (x k - g k) := by
  rw [hk, Finset.sum_singleton] at h
  have hS : 0 ≤ ∑ i ∈ U, ‖f i - g i‖ ^ 2 := Finset.sum_nonneg fun i _ => by positivity
  generalize ∑ i ∈ U, ‖f i - g i‖ ^ 2 = S at h hS
  by_cases h0 : f k - g k = 0
  · exact ⟨0, le_refl _, zero_le_one, by rw [h0]; simp⟩
  have hp : 0 < ‖f k - g k‖ ^ 2 := by positivity
  have hd : 0 < ‖f k - g k‖ ^ 2 + S := by linarith
  have e : conj (f k - g k) * (x k - g k) = ((‖f k - g k‖ ^ 2 + S : ℝ) : ℂ) := by
    have e1 : conj (f k - g k) * (f k - g k) = ((‖f k - g k‖ ^ 2 : ℝ) : ℂ) := by
      rw [mul_comm, Complex.mul_conj, Complex.normSq_eq_norm_sq]
    have : x k - g k = (x k - f k) + (f k - g k) := by ring
    rw [this, mul_add, h, e1]
    push_cast
    ring
  refine ⟨‖f k - g k‖ ^ 2 / (‖f k - g k‖ ^ 2 + S), by positivity, (div_le_one hd).2 (by linarith), ?_⟩
  have hc : conj (f k - g k) ≠ 0 := (map_ne_zero _).2 h0
  apply mul_left_cancel₀ hc
  rw [mul_left_comm, e, ← Complex.ofReal_mul, div_mul_cancel₀ _ hd.ne', mul_comm, Complex.mul_conj,
    Complex.normSq_eq_norm_sq]

/-- Both analyses, and what their least-squares conditions say about the withheld rows. -/
theorem withheld_core (E : Env) (t : TimeArg) (u u' : Series) (v v' : Option Series) (lat : Option ℝ)
    (opts : Dict PyVal) (R : Ready E t u v) (R' : Ready E t u' v') (hnd : opts.keys.Nodup)
    (hm : ∃ x, requested opts "method" = some x ∧ IsStr x "ols") (hv : v'.isSome = v.isSome) (c c' : Coef)
    (h : solve E t u v lat opts = .ok c) (h' : solve E t u' v' lat opts = .ok c') (hk : AllKept c) (hk' : AllKept c')
    (sp : Option InferSpec) (hi : readInfer c.opt.infer = .ok sp) (hex : ∀ s, sp = some s → s.approximate = false)
    (tn : List Fl) (htn : normalizeTime E.dt64 t.arr c.opt.epoch = .ok tn)
    (a : RecArgs) (hae : a.epoch = c.opt.epoch) (hall : RecArgs.Everything a) (r r' : List (Option ℂ))
    (hr : reconstruct E t.arr c a = .ok r) (hr' : reconstruct E t.arr c' a = .ok r')
    (hw : Withheld (sampleValues u.data (v.map Series.data)) (sampleValues u'.data (v'.map Series.data)))
    (hn : c'.name.Perm c.name) (hnames : c.name.Nodup) (hmode : ExactModes opts ∨ c'.reftime = c.reftime) :
    ∑ i ∈ withheldRows tn (sampleValues u.data (v.map Series.data)) (sampleValues u'.data (v'.map Series.data)),
        conj (entry r' i - entry r i) * (entry (sampleValues u'.data (v'.map Series.data)) i - entry r' i) =
      ((∑ i ∈ usableRows tn (sampleValues u.data (v.map Series.data)), ‖entry r' i - entry r i‖ ^ 2 : ℝ) : ℂ) := by
  obtain ⟨p, constit, m, W, rf, full, o, ind, F, hols, rfl, hex1⟩ := run_facts R hnd hm h sp hi hex tn htn
  have hcc : c'.opt = c.opt := by
    obtain ⟨opt', p', tn1, constit', m', W', rf', full', o', ind', F'⟩ := solve_facts R' h'
    have := F'.hopt
    rw [hv, F.hopt] at this
    rw [F'.copt]; exact (Except.ok.inj this).symm
  have hi' : readInfer c'.opt.infer = .ok p.infer := by rw [hcc]; exact hi
  have htn' : normalizeTime E.dt64 t.arr c'.opt.epoch = .ok tn := by rw [hcc]; exact htn
  obtain ⟨p', constit', m', W', rf', full', o', ind', F', hols', hinf, hex2⟩ := run_facts R' hnd hm h' p.infer
    hi' hex tn htn'
  have k1 := fun P M mean slope hT hs => C78_orthogonal E t u v lat opts R hnd hm c h hk p.infer hi hex tn htn a hae hall
    r hr P M mean slope hT hs
  have k2 := fun P M mean slope hT hs => C78_orthogonal E t u' v' lat opts R' hnd hm c' h' hk' p.infer hi' hex tn htn' a
    (by rw [hcc]; exact hae) hall r' hr' P M mean slope hT hs
  have hh : ∀ n τ, harmonic c' n τ = harmonic c n τ := by
    intro n τ
    unfold harmonic
    rcases hmode with ⟨hmp, mn, hmn, hmn'⟩ | href
    · obtain ⟨f1, f2⟩ := C20_modes opts hnd _ _ F.hopt
      have f1 := f1 mn hmn
      have f2 := f2 _ hmp
      rw [hcc, F.clat, F'.clat, Option.some.inj (F'.prep.init.hlat.symm.trans F.prep.init.hlat)]
      refine nameBasis_tref _ _ _ _ _ _ ?_ ?_ ?_
      · cases ha : c.opt.flags.gwchlint <;> cases hb : c.opt.flags.gwchnone <;> simp [ha, hb, flagMode] at f2 ⊢
      · cases ha : c.opt.flags.gwchlint <;> cases hb : c.opt.flags.gwchnone <;> simp [ha, hb, flagMode] at f2 ⊢
      · cases ha : c.opt.flags.nodsatlint <;> cases hb : c.opt.flags.nodsatnone <;>
          simp [ha, hb, flagMode] at f1 ⊢
        exact hmn' f1.symm
    · rw [hcc, href, F.clat, F'.clat, Option.some.inj (F'.prep.init.hlat.symm.trans F.prep.init.hlat)]
  have hcurve : ∀ (P M : String → ℂ) (mean slope : ℂ) (τ : ℝ), rotaryCurve c' P M mean slope τ =
      rotaryCurve c P M (mean + slope * ((c.reftime - c'.reftime : ℝ) : ℂ)) slope τ := by
    intro P M mean slope τ
    unfold rotaryCurve
    simp only [hh]
    rw [(hn.map _).sum_eq]
    push_cast
    ring
  have hrr := F.reconstructed R hnd hk a hae hall r hr
  have hrr' := F'.reconstructed R' hnd hk' a (by rw [hcc]; exact hae) hall r' hr'
  obtain ⟨P0, M0, mean0, slope0, hT0, hs0, hfit0⟩ := F.fitted_rotary R hnd h hk hnames
  obtain ⟨P1, M1, mean1, slope1, hT1, hs1, hfit1⟩ := F'.fitted_rotary R' hnd h' hk' (hn.nodup_iff.2 hnames)
  rw [hinf, hv] at hT1
  rw [hcc] at hs1
  have l1 := sampleValues_length tn _ _ (F.samples R).1
  have l2 := sampleValues_length tn _ _ (F'.samples R').1
  -- the difference of the two curves
  have d1 : ∀ τ, curve full' (List.range p'.sel.lind.length) τ - curve full (List.range p.sel.lind.length) τ =
      rotaryCurve c (fun n => P1 n - P0 n) (fun n => M1 n - M0 n)
        (mean1 + slope1 * ((c.reftime - c'.reftime : ℝ) : ℂ) - mean0) (slope1 - slope0) τ := by
    intro τ
    rw [hfit1, hfit0, hcurve, rotaryCurve_sub]
  have d2 : ∀ τ, curve full' (List.range p'.sel.lind.length) τ - curve full (List.range p.sel.lind.length) τ =
      rotaryCurve c' (fun n => P1 n - P0 n) (fun n => M1 n - M0 n)
        (mean1 + slope0 * ((c.reftime - c'.reftime : ℝ) : ℂ) - mean0) (slope1 - slope0) τ := by
    intro τ
    rw [d1, hcurve]
    congr 1
    ring
  have k1 := k1 (fun n => P1 n - P0 n) (fun n => M1 n - M0 n)
    (mean1 + slope1 * ((c.reftime - c'.reftime : ℝ) : ℂ) - mean0) (slope1 - slope0) (hT1.diff hT0)
    (fun hb => by rw [hs1 hb, hs0 hb, sub_zero])
  have k2 := k2 (fun n => P1 n - P0 n) (fun n => M1 n - M0 n)
    (mean1 + slope0 * ((c.reftime - c'.reftime : ℝ) : ℂ) - mean0) (slope1 - slope0)
    (by rw [hv]; exact hT1.diff hT0) (fun hb => by rw [hcc] at hb; rw [hs1 hb, hs0 hb, sub_zero])
  have en : ∀ (i : ℕ) (τ : ℝ), tn[i]? = some (.fin τ) → entry r i = curve full (List.range p.sel.lind.length) τ ∧
      entry r' i = curve full' (List.range p'.sel.lind.length) τ := by
    intro i τ e1
    unfold entry
    rw [hrr, hrr', List.getElem?_map, List.getElem?_map, e1]
    exact ⟨rfl, rfl⟩
  have ev : ∀ (xs : List (Option ℂ)) (i : ℕ) (x : ℂ), xs[i]? = some (some x) → entry xs i = x := by
    intro xs i x e; simp [entry, e]
  have hsub : usableRows tn (sampleValues u.data (v.map Series.data)) ⊆
      usableRows tn (sampleValues u'.data (v'.map Series.data)) := by
    intro i hi
    rw [mem_usableRows] at hi ⊢
    obtain ⟨τ, x, e1, e2⟩ := hi
    refine ⟨τ, x, e1, ?_⟩
    rcases hw i with e3 | ⟨e3, -⟩
    · rw [← e3, e2]
    · rw [e2] at e3; simp at e3
  refine withheld_of_orthogonal _ _ hsub _ (entry r') (entry r) ?_ ?_
  · rw [hrr, sampleSum_rows tn _ l1 _ _ (fun i => conj (entry r' i - entry r i) *
      (entry (sampleValues u'.data (v'.map Series.data)) i - entry r i))] at k1
    · rw [hrr]
      rw [hrr] at k1
      exact k1
    · intro i τ x e1 e2
      obtain ⟨e3, e4⟩ := en i τ e1
      rw [e3, e4, ← d1, ev _ i x (by
        rcases hw i with e5 | ⟨e5, -⟩
        · rw [← e5, e2]
        · rw [e2] at e5; simp at e5)]
  · rw [hrr', sampleSum_rows tn _ l2 _ _ (fun i => conj (entry r' i - entry r i) *
      (entry (sampleValues u'.data (v'.map Series.data)) i - entry r' i))] at k2
    · rw [hrr']
      rw [hrr'] at k2
      exact k2
    · intro i τ x e1 e2
      obtain ⟨e3, e4⟩ := en i τ e1
      rw [e3, e4, ← d2, ev _ i x e2]

/-! ## C122 -/

/-- **C122.** With `method='ols'`: withholding some samples from the analysis makes the misfit at these samples larger (or
leaves it the same), in sum of squares.  The difference is the sum of squares of the change of the curve at the withheld
samples, plus twice that at the others. -/
theorem C122_withheld (E : Env) (t : TimeArg) (u u' : Series) (v v' : Option Series) (lat : Option ℝ)
    (opts : Dict PyVal) (R : Ready E t u v) (R' : Ready E t u' v') (hnd : opts.keys.Nodup)
    (hm : ∃ x, requested opts "method" = some x ∧ IsStr x "ols") (hv : v'.isSome = v.isSome) (c c' : Coef)
    (h : solve E t u v lat opts = .ok c) (h' : solve E t u' v' lat opts = .ok c') (hk : AllKept c) (hk' : AllKept c')
    (sp : Option InferSpec) (hi : readInfer c.opt.infer = .ok sp) (hex : ∀ s, sp = some s → s.approximate = false)
    (tn : List Fl) (htn : normalizeTime E.dt64 t.arr c.opt.epoch = .ok tn)
    (a : RecArgs) (hae : a.epoch = c.opt.epoch) (hall : RecArgs.Everything a) (r r' : List (Option ℂ))
    (hr : reconstruct E t.arr c a = .ok r) (hr' : reconstruct E t.arr c' a = .ok r')
    (hw : Withheld (sampleValues u.data (v.map Series.data)) (sampleValues u'.data (v'.map Series.data)))
    (hn : c'.name.Perm c.name) (hnames : c.name.Nodup) (hmode : ExactModes opts ∨ c'.reftime = c.reftime) :
    let xs := sampleValues u.data (v.map Series.data)
    let xs' := sampleValues u'.data (v'.map Series.data)
    ∑ i ∈ withheldRows tn xs xs', ‖entry xs' i - entry r' i‖ ^ 2 ≤
        ∑ i ∈ withheldRows tn xs xs', ‖entry xs' i - entry r i‖ ^ 2 ∧
      ∑ i ∈ withheldRows tn xs xs', ‖entry xs' i - entry r i‖ ^ 2 =
        ∑ i ∈ withheldRows tn xs xs', ‖entry xs' i - entry r' i‖ ^ 2 +
          ∑ i ∈ withheldRows tn xs xs', ‖entry r' i - entry r i‖ ^ 2 +
          2 * ∑ i ∈ usableRows tn xs, ‖entry r' i - entry r i‖ ^ 2 := by
  have key := withheld_core E t u u' v v' lat opts R R' hnd hm hv c c' h h' hk hk' sp hi hex tn htn a hae hall r r' hr hr'
    hw hn hnames hmode
  intro xs xs'
  have e := identity_of_orthogonal _ _ _ _ _ key
  refine ⟨?_, e⟩
  have e' : ∑ i ∈ withheldRows tn xs xs', ‖entry xs' i - entry r i‖ ^ 2 =
        ∑ i ∈ withheldRows tn xs xs', ‖entry xs' i - entry r' i‖ ^ 2 +
          ∑ i ∈ withheldRows tn xs xs', ‖entry r' i - entry r i‖ ^ 2 +
          2 * ∑ i ∈ usableRows tn xs, ‖entry r' i - entry r i‖ ^ 2 := e
  rw [e']
  have p1 : 0 ≤ ∑ i ∈ withheldRows tn xs xs', ‖entry r' i - entry r i‖ ^ 2 := Finset.sum_nonneg fun i _ => by positivity
  have p2 : 0 ≤ ∑ i ∈ usableRows tn xs, ‖entry r' i - entry r i‖ ^ 2 := Finset.sum_nonneg fun i _ => by positivity
  linarith

/-- **C122.** With `method='ols'`: if a single sample is withheld, the curve fitted with it lies, at its time, between the
curve fitted without it and the sample. -/
theorem C122_single (E : Env) (t : TimeArg) (u u' : Series) (v v' : Option Series) (lat : Option ℝ)
    (opts : Dict PyVal) (R : Ready E t u v) (R' : Ready E t u' v') (hnd : opts.keys.Nodup)
    (hm : ∃ x, requested opts "method" = some x ∧ IsStr x "ols") (hv : v'.isSome = v.isSome) (c c' : Coef)
    (h : solve E t u v lat opts = .ok c) (h' : solve E t u' v' lat opts = .ok c') (hk : AllKept c) (hk' : AllKept c')
    (sp : Option InferSpec) (hi : readInfer c.opt.infer = .ok sp) (hex : ∀ s, sp = some s → s.approximate = false)
    (tn : List Fl) (htn : normalizeTime E.dt64 t.arr c.opt.epoch = .ok tn)
    (a : RecArgs) (hae : a.epoch = c.opt.epoch) (hall : RecArgs.Everything a) (r r' : List (Option ℂ))
    (hr : reconstruct E t.arr c a = .ok r) (hr' : reconstruct E t.arr c' a = .ok r')
    (hw : Withheld (sampleValues u.data (v.map Series.data)) (sampleValues u'.data (v'.map Series.data)))
    (hn : c'.name.Perm c.name) (hnames : c.name.Nodup) (hmode : ExactModes opts ∨ c'.reftime = c.reftime)
    (k : ℕ) (hone : withheldRows tn (sampleValues u.data (v.map Series.data))
      (sampleValues u'.data (v'.map Series.data)) = {k}) :
    ∃ q : ℝ, 0 ≤ q ∧ q ≤ 1 ∧
      entry r' k - entry r k = q * (entry (sampleValues u'.data (v'.map Series.data)) k - entry r k) :=
  between_of_orthogonal _ _ _ _ _ k hone (withheld_core E t u u' v v' lat opts R R' hnd hm hv c c' h h' hk hk' sp hi hex tn
    htn a hae hall r r' hr hr' hw hn hnames hmode)

end

end UTide.Props
