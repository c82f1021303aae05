import Verif.Props.OctRun

/-!
# Intervals of directly fitted constituents when others are inferred: C91
-/

namespace UTide.Props

noncomputable section

open Classical

local notation "conj" => starRingEnd ℂ

/-! ## Specification -/

/-- The coefficients of inferred constituents are tied to those of their references: amplitude times the ratio, phase
minus the offset. -/
def TiedPar (sp : Option InferSpec) (q : CurvePar) : Prop :=
  ∀ s, sp = some s → ∀ (j : ℕ) (n r : String) (a φ : ℚ), s.inferred[j]? = some n → s.reference[j]? = some r →
    s.amp[j]? = some a → s.phase[j]? = some φ →
    (⟨q.X n, -q.Y n⟩ : ℂ) = (a : ℂ) * Complex.exp (Complex.I * (φ : ℂ) * Real.pi / 180) * ⟨q.X r, -q.Y r⟩

/-- The curves among which the fit is made. -/
def TiedCurve (c : Coef) (sp : Option InferSpec) (q : CurvePar) : Prop := Admissible c q ∧ TiedPar sp q

/-- Best linear unbiased estimator under the ties, cf. `Blue`. -/
structure TiedBlue (c : Coef) (sp : Option InferSpec) (τ : List ℝ) (par : CurvePar → ℝ) (a : List ℝ) : Prop where
  length : a.length = τ.length
  unbiased : ∀ q, TiedCurve c sp q → combine a (τ.map (linCurve c q)) = par q
  best : ∀ a' : List ℝ, a'.length = τ.length →
    (∀ q, TiedCurve c sp q → combine a' (τ.map (linCurve c q)) = par q) → sumSq a ≤ sumSq a'

/-- Inferred constituents have no parameters of their own. -/
def tiedNumPar (c : Coef) (sp : Option InferSpec) : ℕ :=
  2 * (c.name.length - (match sp with | some s => s.inferred.length | none => 0)) + 1 + if c.opt.notrend then 0 else 1

/-- The usual estimate of the noise variance, cf. `NoiseVariance`. -/
def TiedNoise (c : Coef) (sp : Option InferSpec) (τ y : List ℝ) (s2 : ℝ) : Prop :=
  tiedNumPar c sp < τ.length ∧ ∃ rss : ℝ,
    IsLeast {r | ∃ q, TiedCurve c sp q ∧ r = sumSq (List.zipWith (fun a b => a - b) y (τ.map (linCurve c q)))} rss ∧
    s2 = rss / ((τ.length : ℝ) - tiedNumPar c sp)

/-- A run of ordinary least squares with linearised intervals and a white noise floor, possibly with inference. -/
structure TiedRun (E : Env) (t : TimeArg) (u : Series) (lat : Option ℝ) (opts : Dict PyVal) (c : Coef) (tn : List Fl)
    (sp : Option InferSpec) (ci : CiArr) : Prop where
  returned : solve E t u none lat opts = .ok c
  keys : opts.keys.Nodup
  ols : ∃ x, requested opts "method" = some x ∧ IsStr x "ols"
  infer : readInfer c.opt.infer = .ok sp
  exact : ∀ s, sp = some s → s.approximate = false
  linear : c.opt.linci = true
  white : c.opt.white = true
  kept : AllKept c
  distinct : c.name.Nodup
  time : normalizeTime E.dt64 t.arr c.opt.epoch = .ok tn
  intervals : c.ci = some ci

/-- What the interval at position `i`, of constituent `n`, should be: 1.96 standard errors of amplitude and phase,
propagated to first order from the best linear unbiased estimates of the two coefficients of `n`. -/
def Textbook (c : Coef) (sp : Option InferSpec) (τ y : List ℝ) (ci : CiArr) (i : ℕ) (n : String) : Prop :=
  ∀ (a b : List ℝ) (s2 : ℝ), TiedBlue c sp τ (fun q => q.X n) a → TiedBlue c sp τ (fun q => q.Y n) b →
    TiedNoise c sp τ y s2 → (![combine a y, combine b y] : Fin 2 → ℝ) ≠ 0 → ∀ da dg : ℝ,
    Propagated 0 ampOf ![combine a y, combine b y] ![Real.sqrt (s2 * sumSq a), Real.sqrt (s2 * sumSq b)] da →
    Propagated 360 phaseOf ![combine a y, combine b y] ![Real.sqrt (s2 * sumSq a), Real.sqrt (s2 * sumSq b)] dg →
    intervalAt ci i = some ⟨.fin (1.96 * da), .fin 0, .fin 0, .fin (1.96 * dg)⟩

/-- **C91** in full. -/
def C91_full : Prop := ∀ (E : Env) (t : TimeArg) (u : Series) (lat : Option ℝ) (opts : Dict PyVal) (c : Coef) (tn : List Fl)
  (sp : Option InferSpec) (ci : CiArr), Ready E t u none → NumOk E.num → TiedRun E t u lat opts c tn sp ci →
  ∀ (i : ℕ) (n : String), c.name[i]? = some n → (∀ s, sp = some s → n ∉ s.inferred) →
    Textbook c sp (sampleTimes tn u none) (sampleU tn u none) ci i n

/-! ## What holds -/

theorem combine_mid (a a' y : List ℝ) (h : a.length = a'.length) :
    combine (List.zipWith (fun p q => (p + q) / 2) a a') y = (combine a y + combine a' y) / 2 := by
  induction a generalizing a' y with
  | nil =>
    cases a' with
    | nil => simp [combine]
    | cons => simp at h
  | cons p a ih =>
    cases a' with
    | nil => simp at h
    | cons q a' =>
      cases y with
      | nil => simp [combine]
      | cons z y =>
        have := ih a' y (by simpa using h)
        unfold combine at this ⊢
        simp only [List.zipWith_cons_cons, List.sum_cons, this]
        ring

theorem sumSq_mid (a a' : List ℝ) (h : a.length = a'.length) :
    4 * sumSq (List.zipWith (fun p q => (p + q) / 2) a a') + sumSq (List.zipWith (fun p q => p - q) a a') =
      2 * sumSq a + 2 * sumSq a' := by
  induction a generalizing a' with
  | nil =>
    cases a' with
    | nil => simp [sumSq]
    | cons => simp at h
  | cons p a ih =>
    cases a' with
    | nil => simp at h
    | cons q a' =>
      have := ih a' (by simpa using h)
      unfold sumSq at this ⊢
      simp only [List.zipWith_cons_cons, List.map_cons, List.sum_cons]
      linear_combination this

theorem sumSq_sub_zero (a a' : List ℝ) (h : a.length = a'.length)
    (h0 : sumSq (List.zipWith (fun p q => p - q) a a') ≤ 0) : a = a' := by
  induction a generalizing a' with
  | nil =>
    cases a' with
    | nil => rfl
    | cons => simp at h
  | cons p a ih =>
    cases a' with
    | nil => simp at h
    | cons q a' =>
      have e : sumSq (List.zipWith (fun p q => p - q) (p :: a) (q :: a')) =
          (p - q) ^ 2 + sumSq (List.zipWith (fun p q => p - q) a a') := by simp [sumSq]
      rw [e] at h0
      have h1 := sumSq_nonneg (List.zipWith (fun p q => p - q) a a')
      have h2 := sq_nonneg (p - q)
      have h3 : p - q = 0 := by
        have : (p - q) ^ 2 = 0 := by linarith
        exact pow_eq_zero_iff (by norm_num) |>.1 this
      rw [sub_eq_zero.1 h3, ih a' (by simpa using h) (by linarith)]

/-- There is at most one best linear unbiased estimator. -/
theorem TiedBlue.unique {c : Coef} {sp : Option InferSpec} {τ : List ℝ} {par : CurvePar → ℝ} {a a' : List ℝ}
    (h : TiedBlue c sp τ par a) (h' : TiedBlue c sp τ par a') : a = a' := by
  have hl : a.length = a'.length := h.length.trans h'.length.symm
  have h1 := h.best a' h'.length h'.unbiased
  have h2 := h'.best a h.length h.unbiased
  have h3 := h.best (List.zipWith (fun p q => (p + q) / 2) a a') (by simp [hl, h'.length]) (fun q hq => by
    rw [combine_mid _ _ _ hl, h.unbiased q hq, h'.unbiased q hq]; ring)
  have h4 := sumSq_mid a a' hl
  exact sumSq_sub_zero a a' hl (by linarith)

theorem tied_none (c : Coef) (q : CurvePar) : TiedCurve c none q ↔ Admissible c q :=
  ⟨fun h => h.1, fun h => ⟨h, fun s hs => by cases hs⟩⟩

theorem tiedBlue_none {c : Coef} {τ : List ℝ} {par : CurvePar → ℝ} {a : List ℝ} (h : Blue c τ par a) :
    TiedBlue c none τ par a :=
  ⟨h.length, fun q hq => h.unbiased q hq.1, fun a' h1 h2 => h.best a' h1 fun q hq => h2 q ((tied_none c q).2 hq)⟩

theorem tiedNoise_none {c : Coef} {τ y : List ℝ} {s2 : ℝ} : TiedNoise c none τ y s2 ↔ NoiseVariance c τ y s2 := by
  unfold TiedNoise NoiseVariance
  simp only [tied_none]
  rfl

theorem TiedNoise.unique {c : Coef} {sp : Option InferSpec} {τ y : List ℝ} {s s' : ℝ} (h : TiedNoise c sp τ y s)
    (h' : TiedNoise c sp τ y s') : s = s' := by
  obtain ⟨-, r, h1, rfl⟩ := h
  obtain ⟨-, r', h1', rfl⟩ := h'
  rw [h1.unique h1']

/-- **C91**, what holds: the intervals are right when nothing is inferred. -/
theorem C91_noinference_partial {E : Env} {t : TimeArg} {u : Series} {lat : Option ℝ} {opts : Dict PyVal} {c : Coef}
    {tn : List Fl} {ci : CiArr} (R : Ready E t u none) (hN : NumOk E.num) (H : TiedRun E t u lat opts c tn none ci)
    (i : ℕ) (n : String) (hi : c.name[i]? = some n) :
    Textbook c none (sampleTimes tn u none) (sampleU tn u none) ci i n := by
  intro a b s2 ha hb hs hne da dg h1 h2
  have hconf : c.opt.confInt = true := by
    by_contra hc
    obtain ⟨opt, p, tn, constit, m, W, rf, full, o, ind, F⟩ := solve_facts R H.returned
    rcases F.solved.ci with ⟨-, h2⟩ | ⟨h1, -⟩
    · have := H.intervals
      rw [F.solved.result] at this
      have h3 : full.ci.map (CiArr.permute ind) = some ci := this
      rw [h2] at h3
      cases h3
    · exact hc (by rw [F.copt, ← F.prep.hopt]; exact h1)
  obtain ⟨ci', q, hci, -, hall⟩ := C70_scalar R hN.inv
    ⟨H.returned, H.keys, H.ols, H.infer, hconf, H.linear, H.white, H.kept, H.time⟩
  have e : ci' = ci := Option.some.inj (hci.symm.trans H.intervals)
  subst e
  obtain ⟨a', b', s', -, -, k1, k2, k3, -, k4⟩ := hall i n hi
  obtain rfl := ha.unique (tiedBlue_none k1)
  obtain rfl := hb.unique (tiedBlue_none k2)
  obtain rfl := TiedNoise.unique hs (tiedNoise_none.2 k3)
  obtain ⟨da', dg', g1, g2, g3⟩ := k4 hne
  rw [g3, h1.unique g1, h2.unique g2]

/-- Non-vacuity: a run with a residual, for which all that `Textbook` asks about exists. -/
example : ∃ c ci a b s2, TiedRun idealEnv quadT (quadSeries 1 0 2 5) (some 45) (ciOpts "linear" true) c quadTn none ci ∧
    c.name = ["M2"] ∧
    TiedBlue c none (sampleTimes quadTn (quadSeries 1 0 2 5) none) (fun q => q.X "M2") a ∧
    TiedBlue c none (sampleTimes quadTn (quadSeries 1 0 2 5) none) (fun q => q.Y "M2") b ∧
    TiedNoise c none (sampleTimes quadTn (quadSeries 1 0 2 5) none) (sampleU quadTn (quadSeries 1 0 2 5) none) s2 := by
  obtain ⟨c, Q, -⟩ := quad_ci 1 0 2 5 none (.inl rfl) true
  have H : WhiteRun idealEnv quadT (quadSeries 1 0 2 5) none (some 45) (ciOpts "linear" true) c quadTn :=
    ⟨Q.returned, by decide, ⟨.str "ols", rfl, .inl rfl⟩, by rw [Q.opt]; rfl, by rw [Q.opt]; rfl,
    by rw [Q.opt]; rfl, by rw [Q.opt]; rfl, Q.kept, by rw [Q.opt]; exact quad_times⟩
  obtain ⟨ci, q, hci, -, hall⟩ := C70_scalar (quad_ready 1 0 2 5 none (.inl rfl)) idealNum_ok.inv H
  obtain ⟨a, b, s, -, -, k1, k2, k3, -⟩ := hall 0 "M2" (by rw [Q.name]; rfl)
  exact ⟨c, ci, a, b, s, ⟨H.returned, H.keys, H.ols, H.infer, (fun s hs => by cases hs), H.linear, H.white, H.kept,
    by rw [Q.name]; simp, H.time, hci⟩, Q.name, tiedBlue_none k1, tiedBlue_none k2, tiedNoise_none.2 k3⟩

/-! ## C91 is false -/

/-- Values of a curve with S6 tied to S2, at the eight times. -/
def octVals (m x4 y4 x2 y2 : ℝ) : List ℝ :=
  octQ.map fun q => m + (x4 * q.1 + y4 * q.2.1 + x2 * q.2.2.1 + y2 * q.2.2.2)

theorem oct_curve {c : Coef} {ci : CiArr} (O : OctRun c ci) (q : CurvePar) (hq : TiedCurve c (some octSpec) q) :
    octTimes.map (linCurve c q) = octVals q.mean (q.X "S4") (q.Y "S4") (q.X "S2") (q.Y "S2") := by
  have hs : q.slope = 0 := hq.1 (by rw [O.opt]; rfl)
  have ht : (⟨q.X "S6", -q.Y "S6"⟩ : ℂ) = ⟨q.X "S2", -q.Y "S2"⟩ := by
    have := hq.2 octSpec rfl 0 "S6" "S2" 1 0 rfl rfl rfl rfl
    simpa using this
  have hX : q.X "S6" = q.X "S2" := congrArg Complex.re ht
  have hY : q.Y "S6" = q.Y "S2" := neg_inj.1 (congrArg Complex.im ht)
  have hfl : c.opt.flags.nodsatnone = true ∧ c.opt.flags.gwchnone = true := by rw [O.opt]; exact ⟨rfl, rfl⟩
  have i2 : constitNames.idxOf "S2" = 56 := by decide +kernel
  have i4 : constitNames.idxOf "S4" = 88 := by decide +kernel
  have i6 : constitNames.idxOf "S6" = 114 := by decide +kernel
  have hrow : ∀ τ, linCurve c q τ = (fun r : List ℂ => q.mean + (q.X "S4" * (r.getD 0 0).re + q.Y "S4" * (r.getD 0 0).im +
      q.X "S2" * (r.getD 2 0).re + q.Y "S2" * (r.getD 2 0).im))
        (modelRow c.opt.flags (7 / 32) 45 0 false false (octSel (7 / 32)) τ) := by
    intro τ
    have h2 := oct_utE c.opt.flags hfl 45 τ 56 1 (by rw [freq_S2]; norm_num)
    have h4 := oct_utE c.opt.flags hfl 45 τ 88 2 (by rw [freq_S4]; norm_num)
    have h6 := oct_utE c.opt.flags hfl 45 τ 114 3 (by rw [freq_S6]; norm_num)
    simp only [Nat.cast_one, one_mul, Nat.cast_ofNat] at h2 h4 h6
    rw [oct_row _ hfl]
    unfold linCurve
    rw [hs, (O.names.map _).sum_eq]
    simp only [harmonic, nameBasis, O.reftime, O.lat, List.map_cons, List.map_nil, i2, i4, i6, h2, h4, h6, hX, hY]
    simp
    ring
  have hB := congrArg (List.map fun r : List ℂ => q.mean + (q.X "S4" * (r.getD 0 0).re + q.Y "S4" * (r.getD 0 0).im +
      q.X "S2" * (r.getD 2 0).re + q.Y "S2" * (r.getD 2 0).im)) (oct_B c.opt.flags hfl 45 0)
  rw [List.map_map] at hB
  rw [show linCurve c q = _ from funext hrow]
  refine hB.trans ?_
  simp [octB, octVals]

theorem oct_sampleTimes : sampleTimes octTn octU none = octTimes := by
  show (usable octTn octU.data none).map Prod.fst = _
  rw [oct_usable]; simp [octTimes, octY, octQ, octR]

theorem oct_sampleU : sampleU octTn octU none = octY := by
  show (usable octTn octU.data none).map (fun s => s.2.re) = _
  rw [oct_usable]; simp [octTimes, octY, octQ, octR]

/-- The parameters of a curve, S6 tied to S2. -/
def octPar (m x4 y4 x2 y2 : ℝ) : CurvePar :=
  ⟨fun n => if n = "S4" then x4 else x2, fun n => if n = "S4" then y4 else y2, m, 0⟩

theorem octPar_tied (c : Coef) (m x4 y4 x2 y2 : ℝ) : TiedCurve c (some octSpec) (octPar m x4 y4 x2 y2) := by
  refine ⟨fun _ => rfl, fun s hs j n r a φ h1 h2 h3 h4 => ?_⟩
  obtain rfl := Option.some.inj hs
  rcases j with _ | j
  · obtain rfl := Option.some.inj h1
    obtain rfl := Option.some.inj h2
    obtain rfl := Option.some.inj h3
    obtain rfl := Option.some.inj h4
    simp [octPar]
  · simp [octSpec] at h1

theorem eight (a : List ℝ) (h : a.length = 8) : ∃ a0 a1 a2 a3 a4 a5 a6 a7, a = [a0, a1, a2, a3, a4, a5, a6, a7] := by
  match a, h with
  | [a0, a1, a2, a3, a4, a5, a6, a7], _ => exact ⟨_, _, _, _, _, _, _, _, rfl⟩

theorem combine_symm_sq (a : List ℝ) : combine a a = sumSq a := by
  unfold combine sumSq
  induction a with
  | nil => rfl
  | cons x a ih => simp only [List.zipWith_cons_cons, List.sum_cons, List.map_cons, ih]; ring

/-- An unbiased estimator whose coefficients are themselves values of a curve is the best one. -/
theorem blue_of_curve {c : Coef} {sp : Option InferSpec} {τ : List ℝ} {par : CurvePar → ℝ} (q0 : CurvePar)
    (h0 : TiedCurve c sp q0)
    (hu : ∀ q, TiedCurve c sp q → combine (τ.map (linCurve c q0)) (τ.map (linCurve c q)) = par q) :
    TiedBlue c sp τ par (τ.map (linCurve c q0)) := by
  refine ⟨by simp, hu, fun a' hl hu' => ?_⟩
  have h1 : combine a' (τ.map (linCurve c q0)) = sumSq (τ.map (linCurve c q0)) := by
    rw [hu' q0 h0, ← hu q0 h0, combine_symm_sq]
  have key : ∀ (a b : List ℝ), a.length = b.length →
      sumSq (List.zipWith (fun p q => p - q) a b) = sumSq a - 2 * combine a b + sumSq b := by
    intro a
    induction a with
    | nil => intro b hb; cases b with
      | nil => simp [sumSq, combine]
      | cons => simp at hb
    | cons p a ih => intro b hb; cases b with
      | nil => simp at hb
      | cons q b =>
        have := ih b (by simpa using hb)
        unfold sumSq combine at this ⊢
        simp only [List.zipWith_cons_cons, List.map_cons, List.sum_cons, this]
        ring
  have h2 := key a' (τ.map (linCurve c q0)) (by simpa using hl)
  have h3 := sumSq_nonneg (List.zipWith (fun p q => p - q) a' (τ.map (linCurve c q0)))
  rw [h1] at h2
  linarith

theorem oct_tiedRun {c : Coef} {ci : CiArr} (O : OctRun c ci) :
    TiedRun idealEnv octT octU (some 45) (octOpts "linear") c octTn (some octSpec) ci where
  returned := O.returned
  keys := by decide
  ols := ⟨.str "ols", rfl, .inl rfl⟩
  infer := by rw [O.opt]; exact oct_read true
  exact := fun s hs => by obtain rfl := Option.some.inj hs; rfl
  linear := by rw [O.opt]; rfl
  white := by rw [O.opt]; rfl
  kept := O.kept
  distinct := O.names.nodup_iff.2 (by decide)
  time := by rw [O.opt]; exact oct_times
  intervals := O.hci

theorem oct_noise {c : Coef} {ci : CiArr} (O : OctRun c ci) : TiedNoise c (some octSpec) octTimes octY (8 / 3) := by
  have hn : tiedNumPar c (some octSpec) = 5 := by
    unfold tiedNumPar
    rw [O.names.length_eq, O.opt]; rfl
  refine ⟨by rw [hn]; simp [octTimes], 8, ⟨⟨octPar 0 1 0 1 0, octPar_tied c _ _ _ _ _, ?_⟩, ?_⟩, ?_⟩
  · rw [oct_curve O _ (octPar_tied c _ _ _ _ _)]
    simp [octPar, octVals, octY, octQ, octR, sumSq]
    norm_num
  · rintro r ⟨q, hq, rfl⟩
    rw [oct_curve O q hq]
    have h : ∀ m x4 y4 x2 y2 : ℝ, sumSq (List.zipWith (fun a b => a - b) octY (octVals m x4 y4 x2 y2)) =
        8 + sumSq (octVals (-m) (1 - x4) (-y4) (1 - x2) (-y2)) := by
      intro m x4 y4 x2 y2
      simp [octVals, octY, octQ, octR, sumSq]
      ring
    rw [h]
    have := sumSq_nonneg (octVals (-q.mean) (1 - q.X "S4") (-q.Y "S4") (1 - q.X "S2") (-q.Y "S2"))
    linarith
  · rw [hn]; simp [octTimes]; norm_num

theorem oct_inner (m x4 y4 x2 y2 m' x4' y4' x2' y2' : ℝ) :
    combine (octVals m x4 y4 x2 y2) (octVals m' x4' y4' x2' y2') =
      8 * m * m' + 4 * (x4 * x4' + y4 * y4') + 8 * (x2 * x2' + y2 * y2') := by
  have h1 := oAB
  have h2 := oK_sq
  simp [octVals, octQ, combine]
  linear_combination (8 * (x4 * x4' + y4 * y4')) * h2 + 4 * (x2 * x2' + y2 * y2') * h1

theorem oct_blue {c : Coef} {ci : CiArr} (O : OctRun c ci) (x y : ℝ) (par : CurvePar → ℝ)
    (hp : ∀ q, 4 * (x * q.X "S4" + y * q.Y "S4") = par q) :
    TiedBlue c (some octSpec) octTimes par (octVals 0 x y 0 0) := by
  have e := oct_curve O _ (octPar_tied c 0 x y 0 0)
  have e' : octTimes.map (linCurve c (octPar 0 x y 0 0)) = octVals 0 x y 0 0 := by rw [e]; simp [octPar]
  rw [← e']
  refine blue_of_curve _ (octPar_tied c 0 x y 0 0) fun q hq => ?_
  rw [e', oct_curve O q hq, oct_inner, ← hp q]
  ring

/-- The interval of S4, fitted directly, comes out as 0.98, where it should be `1.96·√(2/3)`: the variance is taken
from the wrong columns, those of S2 among them. -/
theorem C91_false : ¬ C91_full := by
  intro h
  obtain ⟨c, ci, O⟩ := oct_run
  obtain ⟨i, hi⟩ := oct_position O "S4" (by simp)
  have T := h _ _ _ _ _ c octTn _ ci oct_ready idealNum_ok (oct_tiedRun O) i "S4" hi (by
    intro s hs
    obtain rfl := Option.some.inj hs
    simp [octSpec])
  rw [oct_sampleTimes, oct_sampleU] at T
  have ha := oct_blue O (1 / 4) 0 (fun q => q.X "S4") (fun q => by ring)
  have hb := oct_blue O 0 (1 / 4) (fun q => q.Y "S4") (fun q => by ring)
  have hA : sumSq (octVals 0 (1 / 4) 0 0 0) = 1 / 4 := by rw [← combine_symm_sq, oct_inner]; norm_num
  have hB : sumSq (octVals 0 0 (1 / 4) 0 0) = 1 / 4 := by rw [← combine_symm_sq, oct_inner]; norm_num
  have hy : ∀ x y : ℝ, combine (octVals 0 x y 0 0) octY = 4 * x := by
    intro x y
    have h2 := oK_sq
    simp [octVals, octY, octQ, octR, combine]
    linear_combination (8 * x) * h2
  have T1 := T _ _ _ ha hb (oct_noise O)
  rw [hy, hy, hA, hB] at T1
  have e1 : (8 / 3 : ℝ) * (1 / 4) = Real.sqrt (2 / 3) ^ 2 := by rw [Real.sq_sqrt (by norm_num)]; norm_num
  rw [e1, Real.sqrt_sq (Real.sqrt_nonneg _)] at T1
  have e2 : (4 : ℝ) * (1 / 4) = 1 := by norm_num
  have e3 : (4 : ℝ) * 0 = 0 := by norm_num
  rw [e2, e3] at T1
  have hne : (![1, 0] : Fin 2 → ℝ) ≠ 0 := fun h => by have := congrFun h 0; simp at this
  obtain ⟨da, dg, k1, k2, k3⟩ := C50_scalar none ![1, 0] ![Real.sqrt (2 / 3), Real.sqrt (2 / 3)]
    ![Real.sqrt (2 / 3) ^ 2, Real.sqrt (2 / 3) ^ 2] hne (fun i => by fin_cases i <;> exact Real.sqrt_nonneg _)
    (by simp [linear1])
  have k4 : (linear1 none 1 0 (Real.sqrt (2 / 3) ^ 2) (Real.sqrt (2 / 3) ^ 2)).1 =
    ⟨.fin (1.96 * da), .fin 0, .fin 0, .fin (1.96 * dg)⟩ := k3
  rw [linear1_unit _ (Real.sqrt_nonneg _)] at k4
  have T2 := T1 hne da dg k1 k2
  rw [← k4, O.intervals i (.inl hi)] at T2
  have T3 : (1.96 : ℝ) * (1 / 2) = 1.96 * Real.sqrt (2 / 3) := Fl.fin.inj (Ci1.mk.inj (Option.some.inj T2)).1
  have T4 : Real.sqrt (2 / 3) = 1 / 2 := by linarith
  have T5 := Real.sq_sqrt (show (0 : ℝ) ≤ 2 / 3 by norm_num)
  rw [T4] at T5
  norm_num at T5

end

end UTide.Props
