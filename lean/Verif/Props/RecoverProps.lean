import Verif.Props.Twin

/-!
# Recovery of a known tide (C04) and inferred constituents (C11)
-/

namespace UTide.Props

noncomputable section

open Classical

local notation "conj" => starRingEnd ℂ

/-! ## Specification -/

/-- The parameters of the constituent at position `i`; a scalar amplitude and phase is an ellipse with no minor axis and
orientation 0. -/
def ellipseAt : EllArr → ℕ → Option Ell
  | .one A g, i => A[i]?.bind fun a => g[i]?.map fun b => ⟨a, 0, 0, b⟩
  | .two M m th g, i => M[i]?.bind fun a => m[i]?.bind fun b => th[i]?.bind fun c => g[i]?.map fun d => ⟨a, b, c, d⟩

/-- Mean and slope as stored: real parts for a scalar series, no slope without trend. -/
def meanRec (twodim notrend : Bool) (mean slope : ℂ) : MeanSlope :=
  if twodim then .two mean.re mean.im (if notrend then none else some (slope.re, slope.im))
  else .one mean.re (if notrend then none else some slope.re)

/-- A curve of the constituents of `coef` with rotary coefficients `P n`, `M n`. -/
def rotaryCurve (c : Coef) (P M : String → ℂ) (mean slope : ℂ) (τ : ℝ) : ℂ :=
  (c.name.map fun n => harmonic c n τ * P n + conj (harmonic c n τ) * M n).sum + mean +
    slope * ((τ - c.reftime : ℝ) : ℂ)

/-- The times separate the constituents of `coef`: the only combination that vanishes at all of them has all its
coefficients zero. (Coefficients of inferred constituents are tied to those of their references.) -/
structure Separated (c : Coef) (sp : Option InferSpec) (twodim : Bool) (times : ℝ → Prop) : Prop where
  names : c.name.Nodup
  indep : ∀ (P M : String → ℂ) (mean slope : ℂ), TiedRotary sp twodim P M → (c.opt.notrend = true → slope = 0) →
    (∀ τ, times τ → rotaryCurve c P M mean slope τ = 0) →
    mean = 0 ∧ slope = 0 ∧ ∀ n ∈ c.name, P n = 0 ∧ M n = 0

/-! ## Ellipses -/

theorem ellipseAt_map {α : Type} (td : Bool) (l : List α) (P M : α → ℂ) (i : ℕ) :
    ellipseAt (ellOf td (l.map P) (l.map M)) i = l[i]?.map fun n => if td then ell2 (P n) (M n) else ell1 (P n) (M n) := by
  rw [ellOf_map]
  cases td with
  | true =>
    simp only [if_true, ellipseAt, List.getElem?_map]
    cases l[i]? <;> rfl
  | false =>
    simp only [Bool.false_eq_true, if_false, ellipseAt, List.getElem?_map]
    cases l[i]? with
    | none => rfl
    | some n => simp [ell1_eq]

theorem cisd_eq_of_mul {x y a : ℝ} (ha : a ≠ 0) (h : ((a : ℝ) : ℂ) * cisd x = ((a : ℝ) : ℂ) * cisd y) :
    ∃ n : ℤ, x - y = 360 * n := by
  have : ((a : ℝ) : ℂ) ≠ 0 := by exact_mod_cast ha
  exact (cisd_eq_iff x y).1 (mul_left_cancel₀ this h)

theorem ell1_polar (ap am : ℂ) (A g : ℝ) (hA : 0 ≤ A) (h : ap + conj am = (A : ℂ) * cisd (-g)) :
    (ell1 ap am).Lsmaj = A ∧ (0 < A → ∃ k : ℤ, (ell1 ap am).g = g + 360 * k) := by
  have hn : ‖ap + conj am‖ = A := by rw [h, norm_mul, norm_cisd, mul_one, Complex.norm_real, Real.norm_of_nonneg hA]
  rw [ell1_eq]
  refine ⟨hn, fun hpos => ?_⟩
  dsimp only
  have h1 := norm_mul_cisd_angle (ap + conj am)
  rw [hn] at h1
  obtain ⟨n, h2⟩ := cisd_eq_of_mul hpos.ne' (h1.trans h)
  obtain ⟨j, hj⟩ := pymod_eq_sub (-angleDeg (ap + conj am)) 360
  exact ⟨-n - j, by rw [hj]; push_cast; linarith⟩

/-- Two ellipses with the same rotating parts and the same axes: orientation and phase up to turns. -/
theorem same_angles (e e' : Ell) (h1 : e'.Lsmaj = e.Lsmaj) (h2 : e'.Lsmin = e.Lsmin) (hp : ccw e' = ccw e)
    (hm : cw e' = cw e) :
    (e.Lsmaj + e.Lsmin ≠ 0 → ∃ k : ℤ, e'.theta - e'.g = e.theta - e.g + 360 * k) ∧
    (e.Lsmaj - e.Lsmin ≠ 0 → ∃ k : ℤ, e'.theta + e'.g = e.theta + e.g + 360 * k) := by
  unfold ccw at hp
  unfold cw at hm
  rw [h1, h2] at hp hm
  constructor
  · intro h
    obtain ⟨n, hn⟩ := cisd_eq_of_mul (by intro h0; apply h; linarith) hp
    exact ⟨n, by linarith⟩
  · intro h
    obtain ⟨n, hn⟩ := cisd_eq_of_mul (by intro h0; apply h; linarith) hm
    exact ⟨n, by linarith⟩

theorem same_angles180 {e e' : Ell} (h : ∃ k : ℤ, e'.theta - e'.g = e.theta - e.g + 360 * k)
    (h' : ∃ k : ℤ, e'.theta + e'.g = e.theta + e.g + 360 * k) :
    ∃ a b : ℤ, e'.theta = e.theta + 180 * a ∧ e'.g = e.g + 180 * b ∧ Even (a - b) := by
  obtain ⟨k, hk⟩ := h
  obtain ⟨l, hl⟩ := h'
  exact ⟨k + l, l - k, by push_cast; linarith, by push_cast; linarith, ⟨k, by ring⟩⟩

theorem ccw_ell2 (ap am : ℂ) : ccw (ell2 ap am) = ap := by
  have := recAp2_ell2 ap am
  rwa [recAp2_cisd] at this

theorem cw_ell2 (ap am : ℂ) : cw (ell2 ap am) = am := by
  have := recAm2_ell2 ap am
  rwa [recAm2_cisd] at this

theorem ell2_axes (e : Ell) (h : |e.Lsmin| ≤ e.Lsmaj) :
    (ell2 (ccw e) (cw e)).Lsmaj = e.Lsmaj ∧ (ell2 (ccw e) (cw e)).Lsmin = e.Lsmin := by
  have := abs_le.1 h
  have h1 : ‖ccw e‖ = (e.Lsmaj + e.Lsmin) / 2 := by
    unfold ccw; rw [norm_mul, norm_cisd, mul_one, Complex.norm_real, Real.norm_of_nonneg (by linarith)]
  have h2 : ‖cw e‖ = (e.Lsmaj - e.Lsmin) / 2 := by
    unfold cw; rw [norm_mul, norm_cisd, mul_one, Complex.norm_real, Real.norm_of_nonneg (by linarith)]
  rw [ell2_eq, h1, h2]
  constructor <;> dsimp only <;> ring

/-! ## The solution for separated constituents -/

section
variable {E : Env} {t : TimeArg} {u : Series} {v : Option Series} {lat : Option ℝ} {opts : Dict PyVal}
  {c : Coef} {opt : Opt} {p : Prep} {tn : List Fl} {constit : Constit} {m : List ℂ} {W : List ℝ}
  {rf : Option RobOut} {full : Coef} {o : Order} {ind : List ℕ}

theorem Facts.mem_times (F : Facts E t u v lat opts c opt p tn constit m W rf full o ind) (R : Ready E t u v) (τ : ℝ) :
    τ ∈ p.ed.t ↔ SampleTime tn u.data (v.map Series.data) τ := by
  obtain ⟨h1, h2, -⟩ := F.samples R
  rw [h2, usable_samples _ _ _ h1, List.mem_map]
  constructor
  · rintro ⟨s, hs, rfl⟩
    obtain ⟨i, h3, h4⟩ := (mem_samples _ _ _).1 hs
    exact ⟨i, s.2, h3, h4⟩
  · rintro ⟨i, x, h3, h4⟩
    exact ⟨(τ, x), (mem_samples _ _ _).2 ⟨i, h3, h4⟩, rfl⟩

/-- A row times named coefficients. -/
theorem Facts.row_curve (F : Facts E t u v lat opts c opt p tn constit m W rf full o ind) (R : Ready E t u v)
    (hnd : opts.keys.Nodup) (hk : AllKept c) (hex : approxOf p.infer = false) (P M : String → ℂ) (mean slope : ℂ)
    (hP : TiedBy p.sel InfCon.Rp P) (hM : TiedBy p.sel InfCon.Rm M) (hs : opt.notrend = true → slope = 0)
    (τ : ℝ) (hτ : τ ∈ p.ed.t) :
    dot (rowAt p τ) (nameCoef p.sel (!opt.notrend) P M mean (slope * (p.ed.lor : ℂ))) =
      rotaryCurve c P M mean slope τ := by
  unfold rowAt
  rw [hex, F.prep.hopt, row_nameCoef F.prep.aligned _ _ _ _ _ (F.refNonzero hex _ hτ) P M mean slope hP hM
    (fun h => F.lorNonzero (by simpa using h)) (fun h => hs (by simpa using h))]
  unfold rotaryCurve
  rw [F.creftime]
  congr 2
  refine (List.Perm.sum_eq ?_).symm
  simp only [F.harmonic_eq]
  exact (F.perm_names R hnd hk).map _

/-- Every coefficient vector, with the slope in the units of the result. -/
theorem Facts.exists_coef (F : Facts E t u v lat opts c opt p tn constit m W rf full o ind)
    (hn : p.sel.name.Nodup) (x : List ℂ) (hx : x.length = p.nm) :
    ∃ (P M : String → ℂ) (mean slope : ℂ), TiedBy p.sel InfCon.Rp P ∧ TiedBy p.sel InfCon.Rm M ∧
      (opt.notrend = true → slope = 0) ∧
      x = nameCoef p.sel (!opt.notrend) P M mean (slope * (p.ed.lor : ℂ)) := by
  obtain ⟨P, M, mean, slope, h1, h2, h3⟩ := exists_nameCoef F.prep.aligned hn (!opt.notrend) x (by rw [hx, F.prep.nm])
  cases hnt : opt.notrend with
  | true =>
    refine ⟨P, M, mean, 0, h1, h2, fun _ => rfl, ?_⟩
    rw [h3, hnt]; rfl
  | false =>
    refine ⟨P, M, mean, slope / p.ed.lor, h1, h2, by simp, ?_⟩
    have := F.lorNonzero hnt
    have h0 : (p.ed.lor : ℂ) ≠ 0 := by exact_mod_cast this
    rw [div_mul_cancel₀ _ h0, h3, hnt]

/-- Separated constituents have independent columns. -/
theorem Facts.indep (F : Facts E t u v lat opts c opt p tn constit m W rf full o ind) (R : Ready E t u v)
    (hnd : opts.keys.Nodup) (hk : AllKept c) (hex : approxOf p.infer = false)
    (hsep : Separated c p.infer v.isSome (SampleTime tn u.data (v.map Series.data))) : IndepColumns p.nm p.B := by
  have hn : p.sel.name.Nodup := (F.perm_names R hnd hk).nodup_iff.1 hsep.names
  intro x hx hz
  obtain ⟨P, M, mean, slope, h1, h2, h3, rfl⟩ := F.exists_coef hn x hx
  obtain ⟨z1, z2, z3⟩ := hsep.indep P M mean slope (F.tiedRotary hnd P M h1 h2) (by rw [F.copt]; exact h3) (by
    intro τ hτ
    rw [← F.mem_times R] at hτ
    rw [← F.row_curve R hnd hk hex P M mean slope h1 h2 h3 τ hτ]
    refine hz _ ?_
    rw [F.prep.B]
    unfold rowAt
    rw [F.prep.hopt]
    exact List.mem_map_of_mem hτ)
  have z4 : ∀ n ∈ p.sel.name, P n = 0 ∧ M n = 0 := fun n hn => z3 n ((F.perm_names R hnd hk).mem_iff.2 hn)
  have hnames := F.prep.aligned.names
  intro y hy
  unfold nameCoef at hy
  simp only [List.mem_append, List.mem_map, List.mem_singleton] at hy
  rcases hy with ((((⟨n, hn, rfl⟩ | ⟨n, hn, rfl⟩) | ⟨r, hr, rfl⟩) | ⟨r, hr, rfl⟩) | rfl) | hy
  · exact (z4 n (by rw [hnames]; simp [hn])).1
  · exact (z4 n (by rw [hnames]; simp [hn])).2
  · exact (z4 r.name (by rw [hnames]; simp only [List.mem_append, List.mem_map]; exact .inl (.inr ⟨r, hr, rfl⟩))).1
  · exact (z4 r.name (by rw [hnames]; simp only [List.mem_append, List.mem_map]; exact .inl (.inr ⟨r, hr, rfl⟩))).2
  · exact z1
  · split at hy
    · rw [List.mem_singleton] at hy
      rw [hy, z2, zero_mul]
    · simp at hy

/-- The result for given rotary coefficients, with the slope in the units of the result. -/
theorem Facts.read (F : Facts E t u v lat opts c opt p tn constit m W rf full o ind) (hnd : opts.keys.Nodup)
    (P M : String → ℂ) (mean slope : ℂ) (hP : TiedBy p.sel InfCon.Rp P) (hM : TiedBy p.sel InfCon.Rm M)
    (hm : m = nameCoef p.sel (!opt.notrend) P M mean (slope * (p.ed.lor : ℂ))) :
    c.ell = ellOf v.isSome (c.name.map P) (c.name.map M) ∧ c.mean = meanRec v.isSome opt.notrend mean slope := by
  obtain ⟨h1, h2⟩ := F.named hnd P M mean _ hP hM hm
  refine ⟨h1, h2.trans ?_⟩
  unfold meanRec
  cases hnt : opt.notrend with
  | true => rfl
  | false =>
    have h0 := F.lorNonzero hnt
    simp only [Bool.false_eq_true, if_false]
    rw [mul_comm slope, Complex.re_ofReal_mul, Complex.im_ofReal_mul, mul_div_cancel_left₀ _ h0,
      mul_div_cancel_left₀ _ h0]

/-- A series that is a curve of separated constituents determines the coefficients. -/
theorem Facts.recover (F : Facts E t u v lat opts c opt p tn constit m W rf full o ind) (R : Ready E t u v)
    (hnd : opts.keys.Nodup) (hols : opt.method = .ols) (hk : AllKept c) (hex : approxOf p.infer = false)
    (hsep : Separated c p.infer v.isSome (SampleTime tn u.data (v.map Series.data)))
    (P M : String → ℂ) (mean slope : ℂ) (hT : TiedRotary p.infer v.isSome P M)
    (hs : opt.notrend = true → slope = 0)
    (hx : ∀ (i : ℕ) (x : ℂ) (τ : ℝ), (sampleValues u.data (v.map Series.data))[i]? = some (some x) →
      tn[i]? = some (.fin τ) → x = rotaryCurve c P M mean slope τ) :
    m = nameCoef p.sel (!opt.notrend) P M mean (slope * (p.ed.lor : ℂ)) := by
  obtain ⟨hP, hM⟩ := F.tiedBy hnd P M hT
  have hmin := F.minNorm R hols
  have hl : (nameCoef p.sel (!opt.notrend) P M mean (slope * (p.ed.lor : ℂ))).length = p.nm := by
    rw [F.prep.nm]; exact (nameCoef_blocks F.prep.aligned _ _ _ _ _).length
  refine optimal_unique p.nm p.B (xraw p.ed) _ _ (F.prep.height R.ht R.hu R.hv) (F.indep R hnd hk hex hsep)
    hmin.length hl hmin.optimal ?_
  intro y _
  have h0 : cost p.B (xraw p.ed) (nameCoef p.sel (!opt.notrend) P M mean (slope * (p.ed.lor : ℂ))) = 0 := by
    rw [F.cost_eq R]
    refine List.sum_eq_zero fun z hz => ?_
    obtain ⟨s, hs', rfl⟩ := List.mem_map.1 hz
    have hτ : s.1 ∈ p.ed.t := by rw [(F.samples R).2.1]; exact List.mem_map_of_mem hs'
    rw [usable_samples _ _ _ (F.samples R).1, mem_samples] at hs'
    obtain ⟨i, h1, h2⟩ := hs'
    rw [F.row_curve R hnd hk hex P M mean slope hP hM hs _ hτ, hx i s.2 s.1 h2 h1]
    simp
  rw [h0]
  exact cost_nonneg _ _ _

end

theorem vector_curve_rotary (c : Coef) (e : String → Ell) (mean slope : ℂ) (τ : ℝ) :
    vectorCurve c e mean slope τ = rotaryCurve c (fun n => ccw (e n)) (fun n => cw (e n)) mean slope τ := by
  unfold vectorCurve rotaryCurve
  simp only [vector_rotary]
  ring

theorem scalar_curve_rotary (c : Coef) (A g : String → ℝ) (mean slope τ : ℝ) :
    ((scalarCurve c A g mean slope τ : ℝ) : ℂ) = rotaryCurve c (fun n => ((A n / 2 : ℝ) : ℂ) * cisd (-(g n)))
      (fun n => conj (((A n / 2 : ℝ) : ℂ) * cisd (-(g n)))) mean slope τ := by
  unfold scalarCurve rotaryCurve
  simp only [scalar_rotary]
  push_cast
  rw [ofReal_sum_map]
  push_cast
  ring

/-- Conditions on a run that several properties share: distinct keyword names, `method="ols"`, an inference
specification that is not `approximate`. -/
theorem run_facts {E : Env} {t : TimeArg} {u : Series} {v : Option Series} {lat : Option ℝ} {opts : Dict PyVal}
    (R : Ready E t u v) (hnd : opts.keys.Nodup) (hm : ∃ x, requested opts "method" = some x ∧ IsStr x "ols")
    {c : Coef} (h : solve E t u v lat opts = .ok c)
    (sp : Option InferSpec) (hi : readInfer c.opt.infer = .ok sp) (hex : ∀ s, sp = some s → s.approximate = false)
    (tn : List Fl) (htn : normalizeTime E.dt64 t.arr c.opt.epoch = .ok tn) :
    ∃ p constit m W rf full o ind, Facts E t u v lat opts c c.opt p tn constit m W rf full o ind ∧
      c.opt.method = .ols ∧ p.infer = sp ∧ approxOf p.infer = false := by
  obtain ⟨opt, p, tn', constit, m, W, rf, full, o, ind, F⟩ := solve_facts R h
  have hq := getOpt_requests _ hnd _ _ F.hopt
  have hc := F.copt
  subst hc
  have hinf : p.infer = sp := Except.ok.inj (F.prep.hinfer.symm.trans hi)
  cases Except.ok.inj (F.prep.init.time.symm.trans htn)
  refine ⟨p, constit, m, W, rf, full, o, ind, F, ?_, hinf, ?_⟩
  · obtain ⟨x, hx, hs⟩ := hm
    exact hq.ols x hx (by rcases hs with rfl | rfl <;> simp [PyVal.eqStr])
  · rw [hinf]
    cases hsp : sp with
    | none => rfl
    | some s => exact hex s hsp

/-! ## C04 -/

/-- A tidal elevation record of separated constituents: amplitudes, phases, mean and slope are recovered. -/
theorem C04_scalar (E : Env) (t : TimeArg) (u : Series) (lat : Option ℝ) (opts : Dict PyVal)
    (R : Ready E t u none) (hnd : opts.keys.Nodup) (hm : ∃ x, requested opts "method" = some x ∧ IsStr x "ols")
    (c : Coef) (h : solve E t u none lat opts = .ok c) (hk : AllKept c)
    (sp : Option InferSpec) (hi : readInfer c.opt.infer = .ok sp) (hex : ∀ s, sp = some s → s.approximate = false)
    (tn : List Fl) (htn : normalizeTime E.dt64 t.arr c.opt.epoch = .ok tn)
    (hsep : Separated c sp false (SampleTime tn u.data none))
    (A g : String → ℝ) (mean slope : ℝ) (hA : ∀ n ∈ c.name, 0 ≤ A n) (hT : TiedScalar sp A g)
    (hs : c.opt.notrend = true → slope = 0)
    (hu : ∀ (i : ℕ) (x τ : ℝ), (u.data[i]?.bind Cell.value?) = some x → tn[i]? = some (.fin τ) →
      x = scalarCurve c A g mean slope τ) :
    (∀ (i : ℕ) (n : String), c.name[i]? = some n → ∃ e, ellipseAt c.ell i = some e ∧ e.Lsmaj = A n ∧
      e.Lsmin = 0 ∧ e.theta = 0 ∧ (0 < A n → ∃ k : ℤ, e.g = g n + 360 * k)) ∧
    c.mean = .one mean (if c.opt.notrend then none else some slope) := by
  obtain ⟨p, constit, m, W, rf, full, o, ind, F, hols, rfl, hex'⟩ := run_facts R hnd hm h sp hi hex tn htn
  have hT' := tiedScalar_rotary hT
  have hrec := F.recover R hnd hols hk hex' hsep _ _ mean slope hT' (fun hh => by rw [hs hh]; simp) (by
    intro i x τ hx hτ
    simp only [Option.map_none, sampleValues, List.getElem?_map, Option.map_eq_some_iff] at hx
    obtain ⟨y, hy, w, hw, rfl⟩ := hx
    rw [hu i w τ (by rw [hy]; exact hw) hτ, scalar_curve_rotary])
  obtain ⟨hP, hM⟩ := F.tiedBy hnd _ _ hT'
  obtain ⟨h1, h2⟩ := F.read hnd _ _ _ _ hP hM hrec
  constructor
  · intro i n hn
    have hmem := List.mem_of_getElem? hn
    refine ⟨_, by rw [h1, ellipseAt_map, hn]; rfl, ?_⟩
    simp only [Option.isSome_none, Bool.false_eq_true, if_false]
    obtain ⟨k1, k2⟩ := ell1_polar (((A n / 2 : ℝ) : ℂ) * cisd (-(g n))) (conj (((A n / 2 : ℝ) : ℂ) * cisd (-(g n))))
      (A n) (g n) (hA n hmem) (by rw [Complex.conj_conj]; push_cast; ring)
    refine ⟨k1, ?_, ?_, k2⟩ <;> rw [ell1_eq]
  · rw [h2]; simp [meanRec]

/-- A tidal current record of separated constituents: axes, mean and slope are recovered, orientation and phase up to
whole turns of their sum and difference (of whichever is defined), that is up to half turns of both. -/
theorem C04_vector (E : Env) (t : TimeArg) (u w : Series) (lat : Option ℝ) (opts : Dict PyVal)
    (R : Ready E t u (some w)) (hnd : opts.keys.Nodup)
    (hm : ∃ x, requested opts "method" = some x ∧ IsStr x "ols")
    (c : Coef) (h : solve E t u (some w) lat opts = .ok c) (hk : AllKept c)
    (sp : Option InferSpec) (hi : readInfer c.opt.infer = .ok sp) (hex : ∀ s, sp = some s → s.approximate = false)
    (tn : List Fl) (htn : normalizeTime E.dt64 t.arr c.opt.epoch = .ok tn)
    (hsep : Separated c sp true (SampleTime tn u.data (some w.data)))
    (e : String → Ell) (mean slope : ℂ) (he : ∀ n ∈ c.name, |(e n).Lsmin| ≤ (e n).Lsmaj) (hT : TiedVector sp e)
    (hs : c.opt.notrend = true → slope = 0)
    (hu : ∀ (i : ℕ) (x y τ : ℝ), (u.data[i]?.bind Cell.value?) = some x → (w.data[i]?.bind Cell.value?) = some y →
      tn[i]? = some (.fin τ) → (⟨x, y⟩ : ℂ) = vectorCurve c e mean slope τ) :
    (∀ (i : ℕ) (n : String), c.name[i]? = some n → ∃ e', ellipseAt c.ell i = some e' ∧ e'.Lsmaj = (e n).Lsmaj ∧
      e'.Lsmin = (e n).Lsmin ∧
      ((e n).Lsmaj + (e n).Lsmin ≠ 0 → ∃ k : ℤ, e'.theta - e'.g = (e n).theta - (e n).g + 360 * k) ∧
      ((e n).Lsmaj - (e n).Lsmin ≠ 0 → ∃ k : ℤ, e'.theta + e'.g = (e n).theta + (e n).g + 360 * k) ∧
      (|(e n).Lsmin| < (e n).Lsmaj → ∃ a b : ℤ, e'.theta = (e n).theta + 180 * a ∧ e'.g = (e n).g + 180 * b ∧
        Even (a - b))) ∧
    c.mean = .two mean.re mean.im (if c.opt.notrend then none else some (slope.re, slope.im)) := by
  obtain ⟨p, constit, m, W, rf, full, o, ind, F, hols, rfl, hex'⟩ := run_facts R hnd hm h sp hi hex tn htn
  have hT' : TiedRotary p.infer true (fun n => ccw (e n)) (fun n => cw (e n)) := by
    constructor
    · intro s hs j n r a φ e1 e2 e3 e4
      obtain ⟨-, l2, l3⟩ := F.inferLengths hnd s hs
      simp only [Option.isSome_some, if_true] at l2 l3
      have hj : j < s.inferred.length := (List.getElem?_eq_some_iff.1 e1).1
      exact (hT s hs j n r a φ _ _ e1 e2 e3 e4 (List.getElem?_eq_getElem (by omega))
        (List.getElem?_eq_getElem (by omega))).1
    · intro s hs j k n r a φ e1 e2 e3 e4 e5
      obtain ⟨-, l2, l3⟩ := F.inferLengths hnd s hs
      simp only [Option.isSome_some, if_true] at l2 l3 e3
      subst e3
      have hj : j < s.inferred.length := (List.getElem?_eq_some_iff.1 e1).1
      exact (hT s hs j n r _ _ a φ e1 e2 (List.getElem?_eq_getElem (by omega))
        (List.getElem?_eq_getElem (by omega)) e4 e5).2
  have hrec := F.recover R hnd hols hk hex' hsep _ _ mean slope hT' hs (by
    intro i z τ hz hτ
    rw [← vector_curve_rotary]
    simp only [Option.map_some, sampleValues, List.getElem?_zipWith] at hz
    cases ha : u.data[i]? with
    | none => simp [ha] at hz
    | some a =>
      cases hb : w.data[i]? with
      | none => simp [ha, hb] at hz
      | some b =>
        simp only [ha, hb, Option.some.injEq, Option.bind_eq_some_iff, Option.map_eq_some_iff] at hz
        obtain ⟨x, hx, y, hy, rfl⟩ := hz
        exact hu i x y τ (by rw [ha]; exact hx) (by rw [hb]; exact hy) hτ)
  obtain ⟨hP, hM⟩ := F.tiedBy hnd _ _ hT'
  obtain ⟨h1, h2⟩ := F.read hnd _ _ _ _ hP hM hrec
  constructor
  · intro i n hn
    have hmem := List.mem_of_getElem? hn
    refine ⟨_, by rw [h1, ellipseAt_map, hn]; rfl, ?_⟩
    simp only [Option.isSome_some, if_true]
    obtain ⟨k1, k2⟩ := ell2_axes (e n) (he n hmem)
    obtain ⟨k3, k4⟩ := same_angles (e n) _ k1 k2 (ccw_ell2 _ _) (cw_ell2 _ _)
    refine ⟨k1, k2, k3, k4, fun hlt => same_angles180 (k3 ?_) (k4 ?_)⟩
    · have := abs_lt.1 hlt
      linarith
    · have := abs_lt.1 hlt
      linarith
  · rw [h2]; simp [meanRec]

/-! ## C11 -/

/-- Inferred constituents of a scalar series, whatever the method, exact or approximate. -/
theorem C11_scalar (E : Env) (t : TimeArg) (u : Series) (lat : Option ℝ) (opts : Dict PyVal)
    (R : Ready E t u none) (hnd : opts.keys.Nodup)
    (c : Coef) (h : solve E t u none lat opts = .ok c) (hk : AllKept c) (hn : c.name.Nodup)
    (s : InferSpec) (hi : readInfer c.opt.infer = .ok (some s))
    (j : ℕ) (n r : String) (a φ : ℚ) (h1 : s.inferred[j]? = some n) (h2 : s.reference[j]? = some r)
    (h3 : s.amp[j]? = some a) (h4 : s.phase[j]? = some φ)
    (i k : ℕ) (hin : c.name[i]? = some n) (hkr : c.name[k]? = some r) :
    ∃ e eR, ellipseAt c.ell i = some e ∧ ellipseAt c.ell k = some eR ∧
      e.Lsmaj = |(a : ℝ)| * eR.Lsmaj ∧
      (0 < a → 0 < eR.Lsmaj → ∃ z : ℤ, e.g = eR.g - φ + 360 * z) := by
  obtain ⟨opt, p, tn, constit, m, W, rf, full, o, ind, F⟩ := solve_facts R h
  have hc := F.copt
  subst hc
  have hinf : p.infer = some s := Except.ok.inj (F.prep.hinfer.symm.trans hi)
  have hn' : p.sel.name.Nodup := (F.perm_names R hnd hk).nodup_iff.1 hn
  obtain ⟨P, M, mean, slope, hP, hM, -, hmm⟩ := F.exists_coef hn' m F.mlen
  obtain ⟨hell, -⟩ := F.read hnd P M mean slope hP hM hmm
  have hT := F.tiedRotary hnd P M hP hM
  have t1 := hT.plus s hinf j n r a φ h1 h2 h3 h4
  have t2 := hT.minus s hinf j j n r a φ h1 h2 rfl h3 h4
  refine ⟨_, _, by rw [hell, ellipseAt_map, hin]; rfl, by rw [hell, ellipseAt_map, hkr]; rfl, ?_⟩
  simp only [Option.isSome_none, Bool.false_eq_true, if_false]
  have hz : P n + conj (M n) = ((a : ℝ) : ℂ) * cisd φ * (P r + conj (M r)) := by
    rw [t1, t2]
    simp only [map_mul, conj_cisd, neg_neg]
    rw [show conj (a : ℂ) = (a : ℂ) from by rw [← Complex.ofReal_ratCast, Complex.conj_ofReal]]
    push_cast; ring
  constructor
  · rw [ell1_eq, ell1_eq]
    dsimp only
    rw [hz, norm_mul, norm_mul, norm_cisd, Complex.norm_real, Real.norm_eq_abs, mul_one]
  · intro ha hpos
    have ha' : (0 : ℝ) < a := by exact_mod_cast ha
    have hr : (ell1 (P r) (M r)).Lsmaj = ‖P r + conj (M r)‖ := by rw [ell1_eq]
    have h5 := recAp1_ell1 (P r) (M r)
    rw [recAp1_cisd] at h5
    refine (ell1_polar (P n) (M n) (a * (ell1 (P r) (M r)).Lsmaj) ((ell1 (P r) (M r)).g - φ) (by positivity) ?_).2
      (by positivity)
    rw [hz, neg_sub, show (φ : ℝ) - (ell1 (P r) (M r)).g = φ + -(ell1 (P r) (M r)).g by ring, cisd_add]
    have h6 : P r + conj (M r) = (((ell1 (P r) (M r)).Lsmaj : ℝ) : ℂ) * cisd (-(ell1 (P r) (M r)).g) := by
      have h7 : P r + conj (M r) = 2 * ((P r + conj (M r)) / 2) := by ring
      rw [h7, ← h5]
      push_cast; ring
    rw [h6]
    push_cast; ring

/-- Inferred constituents of a vector series: the counter-clockwise and the clockwise parts are those of the reference
times the prescribed factors. -/
theorem C11_vector (E : Env) (t : TimeArg) (u w : Series) (lat : Option ℝ) (opts : Dict PyVal)
    (R : Ready E t u (some w)) (hnd : opts.keys.Nodup)
    (c : Coef) (h : solve E t u (some w) lat opts = .ok c) (hk : AllKept c) (hn : c.name.Nodup)
    (s : InferSpec) (hi : readInfer c.opt.infer = .ok (some s))
    (j : ℕ) (n r : String) (a φ a' φ' : ℚ) (h1 : s.inferred[j]? = some n) (h2 : s.reference[j]? = some r)
    (h3 : s.amp[j]? = some a) (h4 : s.phase[j]? = some φ)
    (h5 : s.amp[j + s.inferred.length]? = some a') (h6 : s.phase[j + s.inferred.length]? = some φ')
    (i k : ℕ) (hin : c.name[i]? = some n) (hkr : c.name[k]? = some r) :
    ∃ e eR, ellipseAt c.ell i = some e ∧ ellipseAt c.ell k = some eR ∧
      ccw e = a * cisd φ * ccw eR ∧ cw e = a' * cisd (-φ') * cw eR := by
  obtain ⟨opt, p, tn, constit, m, W, rf, full, o, ind, F⟩ := solve_facts R h
  have hc := F.copt
  subst hc
  have hinf : p.infer = some s := Except.ok.inj (F.prep.hinfer.symm.trans hi)
  have hn' : p.sel.name.Nodup := (F.perm_names R hnd hk).nodup_iff.1 hn
  obtain ⟨P, M, mean, slope, hP, hM, -, hmm⟩ := F.exists_coef hn' m F.mlen
  obtain ⟨hell, -⟩ := F.read hnd P M mean slope hP hM hmm
  have hT := F.tiedRotary hnd P M hP hM
  have t1 := hT.plus s hinf j n r a φ h1 h2 h3 h4
  have t2 := hT.minus s hinf j _ n r a' φ' h1 h2 rfl h5 h6
  refine ⟨_, _, by rw [hell, ellipseAt_map, hin]; rfl, by rw [hell, ellipseAt_map, hkr]; rfl, ?_⟩
  simp only [Option.isSome_some, if_true, ccw_ell2, cw_ell2]
  exact ⟨t1, t2⟩

end

end UTide.Props
