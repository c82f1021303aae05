import Verif.Props.SwapProps
import Verif.Props.RepeatCi
import Verif.Props.AxesProps

/-!
# Confidence intervals of a current and the direction of the axes: C146
-/

namespace UTide.Props

noncomputable section

open Classical Matrix

local notation "conj" => starRingEnd ℂ

/-! ## Specification -/

/-- C146 in full: turning the axes of a current does not change the intervals of its major axes. -/
def C146_full : Prop :=
  ∀ (E : Env) (t : TimeArg) (u v u' v' : Series) (lat : Option ℝ) (opts : Dict PyVal) (c c' : Coef) (tn : List Fl)
    (ci ci' : CiArr) (φ : ℝ), Ready E t u (some v) → Ready E t u' (some v') → NumOk E.num →
    WhiteRun E t u (some v) lat opts c tn → WhiteRun E t u' (some v') lat opts c' tn →
    Transformed (fun _ x => cisd φ * x) tn u (some v) u' (some v') → c.ci = some ci → c'.ci = some ci' →
    ∀ (i j : ℕ) (n : String) (r r' : Ci1), c.name[i]? = some n → c'.name[j]? = some n → intervalAt ci i = some r →
      intervalAt ci' j = some r' → r'.maj = r.maj

/-! ## The propagation formula -/

/-- A row of coefficients in axes turned by the angle with cosine `k` and sine `s`. -/
def turnRow (k s : ℝ) (x : Fin 4 → ℝ) : Fin 4 → ℝ :=
  ![k * x 0 - s * x 2, k * x 1 - s * x 3, s * x 0 + k * x 2, s * x 1 + k * x 3]

theorem posC_turn (k s : ℝ) (x : Fin 4 → ℝ) : posC (turnRow k s x) = ⟨k, s⟩ * posC x := by
  apply Complex.ext
  · rw [posC_re, Complex.mul_re, posC_re, posC_im]
    show (k * x 0 - s * x 2 + (s * x 1 + k * x 3)) / 2 = _
    ring
  · rw [posC_im, Complex.mul_im, posC_re, posC_im]
    show (s * x 0 + k * x 2 - (k * x 1 - s * x 3)) / 2 = _
    ring

theorem negC_turn (k s : ℝ) (x : Fin 4 → ℝ) : negC (turnRow k s x) = ⟨k, s⟩ * negC x := by
  apply Complex.ext
  · rw [negC_re, Complex.mul_re, negC_re, negC_im]
    show (k * x 0 - s * x 2 - (s * x 1 + k * x 3)) / 2 = _
    ring
  · rw [negC_im, Complex.mul_im, negC_re, negC_im]
    show (s * x 0 + k * x 2 + (k * x 1 - s * x 3)) / 2 = _
    ring

/-- The four sums under the roots do not change when the axes are turned, if the components are equally uncertain. -/
theorem sums_turn (k s : ℝ) (h : k ^ 2 + s ^ 2 = 1) (x : Fin 4 → ℝ) (a b : ℝ) :
    let σ : Fin 4 → ℝ := ![a, b, a, b]
    let y := turnRow k s x
    (∑ i, ((dNorm (posC y) (dirP i) + dNorm (negC y) (dirM i)) * σ i) ^ 2 =
      ∑ i, ((dNorm (posC x) (dirP i) + dNorm (negC x) (dirM i)) * σ i) ^ 2) ∧
    (∑ i, ((dNorm (posC y) (dirP i) - dNorm (negC y) (dirM i)) * σ i) ^ 2 =
      ∑ i, ((dNorm (posC x) (dirP i) - dNorm (negC x) (dirM i)) * σ i) ^ 2) ∧
    (∑ i, (((dAngle (negC y) (dirM i) - dAngle (posC y) (dirP i)) / 2) * σ i) ^ 2 =
      ∑ i, (((dAngle (negC x) (dirM i) - dAngle (posC x) (dirP i)) / 2) * σ i) ^ 2) ∧
    (∑ i, (((dAngle (posC y) (dirP i) + dAngle (negC y) (dirM i)) / 2) * σ i) ^ 2 =
      ∑ i, (((dAngle (posC x) (dirP i) + dAngle (negC x) (dirM i)) / 2) * σ i) ^ 2) := by
  intro σ y
  have hw : ‖(⟨k, s⟩ : ℂ)‖ = 1 := by
    have : ‖(⟨k, s⟩ : ℂ)‖ ^ 2 = 1 := by rw [norm_sq']; exact h
    nlinarith [norm_nonneg (⟨k, s⟩ : ℂ)]
  have hp : ‖posC y‖ = ‖posC x‖ := by rw [posC_turn, norm_mul, hw, one_mul]
  have hm : ‖negC y‖ = ‖negC x‖ := by rw [negC_turn, norm_mul, hw, one_mul]
  have p1 : (posC y).re = k * (posC x).re - s * (posC x).im := by rw [posC_turn]; simp [Complex.mul_re]
  have p2 : (posC y).im = k * (posC x).im + s * (posC x).re := by rw [posC_turn]; simp [Complex.mul_im]
  have m1 : (negC y).re = k * (negC x).re - s * (negC x).im := by rw [negC_turn]; simp [Complex.mul_re]
  have m2 : (negC y).im = k * (negC x).im + s * (negC x).re := by rw [negC_turn]; simp [Complex.mul_im]
  obtain ⟨v1, v2, v3, v4, v5, v6, v7, v8, v9, v10, v11, v12, v13, v14, v15, v16⟩ := dir_values
  have s0 : σ 0 = a := rfl
  have s1 : σ 1 = b := rfl
  have s2 : σ 2 = a := rfl
  have s3 : σ 3 = b := rfl
  simp only [Fin.sum_univ_four, dNorm, dAngle, v1, v2, v3, v4, v5, v6, v7, v8, v9, v10, v11, v12, v13, v14, v15, v16,
    s0, s1, s2, s3, hp, hm, p1, p2, m1, m2, div_eq_mul_inv]
  generalize (posC x).re = P1
  generalize (posC x).im = P2
  generalize (negC x).re = M1
  generalize (negC x).im = M2
  generalize ‖posC x‖⁻¹ = N
  generalize ‖negC x‖⁻¹ = K
  generalize (‖posC x‖ ^ 2)⁻¹ = N'
  generalize (‖negC x‖ ^ 2)⁻¹ = K'
  generalize (180 * Real.pi⁻¹ : ℝ) = d
  refine ⟨?_, ?_, ?_, ?_⟩
  · linear_combination (a ^ 2 / 4 * ((P1 * N + M1 * K) ^ 2 + (P2 * N + M2 * K) ^ 2) +
      b ^ 2 / 4 * ((P1 * N - M1 * K) ^ 2 + (P2 * N - M2 * K) ^ 2)) * h
  · linear_combination (a ^ 2 / 4 * ((P1 * N - M1 * K) ^ 2 + (P2 * N - M2 * K) ^ 2) +
      b ^ 2 / 4 * ((P1 * N + M1 * K) ^ 2 + (P2 * N + M2 * K) ^ 2)) * h
  · linear_combination d ^ 2 * (a ^ 2 / 16 * ((P1 * N' - M1 * K') ^ 2 + (P2 * N' - M2 * K') ^ 2) +
      b ^ 2 / 16 * ((P1 * N' + M1 * K') ^ 2 + (P2 * N' + M2 * K') ^ 2)) * h
  · linear_combination d ^ 2 * (a ^ 2 / 16 * ((P1 * N' + M1 * K') ^ 2 + (P2 * N' + M2 * K') ^ 2) +
      b ^ 2 / 16 * ((P1 * N' - M1 * K') ^ 2 + (P2 * N' - M2 * K') ^ 2)) * h

/-- The intervals in turned axes, equal variances of the components. -/
theorem linear2_turn (k s : ℝ) (h : k ^ 2 + s ^ 2 = 1) (x : Fin 4 → ℝ) (a b : ℝ) (ha : 0 ≤ a) (hb : 0 ≤ b)
    (hp : posC x ≠ 0) (hm : negC x ≠ 0) :
    let y := turnRow k s x
    let r := (linear2 none (x 0) (x 1) (x 2) (x 3) a b a b).1
    let r' := (linear2 none (y 0) (y 1) (y 2) (y 3) a b a b).1
    r'.maj = r.maj ∧ r'.g = r.g ∧ (x 2 ≠ 0 → y 2 ≠ 0 → r'.min = r.min ∧ r'.theta = r.theta) := by
  intro y r r'
  have hn : (⟨k, s⟩ : ℂ) ≠ 0 := by
    intro h0
    have h1 : k = 0 := congrArg Complex.re h0
    have h2 : s = 0 := congrArg Complex.im h0
    rw [h1, h2] at h; norm_num at h
  have hp' : posC y ≠ 0 := by rw [posC_turn]; exact mul_ne_zero hn hp
  have hm' : negC y ≠ 0 := by rw [negC_turn]; exact mul_ne_zero hn hm
  have e1 : r = _ := linear2_eq none x ![Real.sqrt a, Real.sqrt b, Real.sqrt a, Real.sqrt b] ![a, b, a, b]
    (fun i => by fin_cases i <;> exact Real.sqrt_nonneg _) (by simp [linear2, Real.sq_sqrt ha, Real.sq_sqrt hb])
  have e2 : r' = _ := linear2_eq none y ![Real.sqrt a, Real.sqrt b, Real.sqrt a, Real.sqrt b] ![a, b, a, b]
    (fun i => by fin_cases i <;> exact Real.sqrt_nonneg _) (by simp [linear2, Real.sq_sqrt ha, Real.sq_sqrt hb])
  obtain ⟨h1, h2, h3, h4⟩ := sums_turn k s h x (Real.sqrt a) (Real.sqrt b)
  rw [utLinci_eq x _ hp hm] at e1
  rw [utLinci_eq y _ hp' hm', h1, h2, h3, h4] at e2
  rw [e1, e2]
  refine ⟨rfl, rfl, fun n1 n2 => ?_⟩
  dsimp only
  rw [if_neg n1, if_neg n2, if_neg n1, if_neg n2]
  exact ⟨rfl, rfl⟩

/-! ## Turning the record -/

/-- Two curves of least squares have the same values. -/
theorem BestFit.curve_unique {c : Coef} {τ y : List ℝ} {q q' : CurvePar} (h : BestFit c τ y q) (h' : BestFit c τ y q')
    (hl : y.length = τ.length) : τ.map (linCurve c q) = τ.map (linCurve c q') := by
  have hs := le_antisymm (h.best q' h'.adm) (h'.best q h.adm)
  have hm := h.best _ (h.adm.comb h'.adm (1 / 2) (1 / 2))
  unfold residuals at hs hm
  have hc : τ.map (linCurve c ⟨fun n => 1 / 2 * q.X n + 1 / 2 * q'.X n, fun n => 1 / 2 * q.Y n + 1 / 2 * q'.Y n,
      1 / 2 * q.mean + 1 / 2 * q'.mean, 1 / 2 * q.slope + 1 / 2 * q'.slope⟩) =
      List.zipWith (fun a b => 1 / 2 * a + 1 / 2 * b) (τ.map (linCurve c q)) (τ.map (linCurve c q')) := by
    rw [List.zipWith_map, List.zipWith_self]
    exact List.map_congr_left fun t _ => linCurve_comb c q q' _ _ t
  rw [hc] at hm
  obtain ⟨f, hf⟩ := exists_ofFn (τ.map (linCurve c q)) τ.length (by simp)
  obtain ⟨g, hg⟩ := exists_ofFn (τ.map (linCurve c q')) τ.length (by simp)
  obtain ⟨w, rfl⟩ := exists_ofFn y τ.length hl
  rw [hf, hg] at hs hm ⊢
  have hz : List.zipWith (fun a b => 1 / 2 * a + 1 / 2 * b) (List.ofFn f) (List.ofFn g) =
      List.ofFn fun j => 1 / 2 * f j + 1 / 2 * g j := by
    apply List.ext_getElem
    · simp
    · intro i _ _; simp
  rw [hz] at hm
  rw [sub_fin, sub_fin, sumSq_fin, sumSq_fin] at hs hm
  have h0 : ∑ j, (f j - g j) ^ 2 ≤ 0 := by
    have : ∑ j, (f j - g j) ^ 2 = 2 * ∑ j, (w j - f j) ^ 2 + 2 * ∑ j, (w j - g j) ^ 2 -
        4 * ∑ j, (w j - (1 / 2 * f j + 1 / 2 * g j)) ^ 2 := by
      rw [Finset.mul_sum, Finset.mul_sum, Finset.mul_sum, ← Finset.sum_add_distrib, ← Finset.sum_sub_distrib]
      exact Finset.sum_congr rfl fun j _ => by ring
    rw [this]; linarith
  have h1 := (Finset.sum_eq_zero_iff_of_nonneg fun j _ => sq_nonneg (f j - g j)).1
    (le_antisymm h0 (Finset.sum_nonneg fun j _ => sq_nonneg _))
  congr 1
  funext j
  have := pow_eq_zero_iff (two_ne_zero) |>.1 (h1 j (Finset.mem_univ j))
  linarith

theorem gramRes_turn {n k : ℕ} (D : Matrix (Fin n) (Fin k) ℂ) (a b : ℝ) (x y : Fin n → ℝ) (j : Fin n) :
    gramRes D (fun j => a * x j + b * y j) j = a * gramRes D x j + b * gramRes D y j := by
  unfold gramRes fitted
  have : ∑ l, hatR D j l * (a * x l + b * y l) = a * ∑ l, hatR D j l * x l + b * ∑ l, hatR D j l * y l := by
    rw [Finset.mul_sum, Finset.mul_sum, ← Finset.sum_add_distrib]
    exact Finset.sum_congr rfl fun l _ => by ring
  rw [this]
  ring

theorem cisd_eq (φ : ℝ) : cisd φ = ⟨Real.cos (φ * (Real.pi / 180)), Real.sin (φ * (Real.pi / 180))⟩ := by
  unfold cisd
  rw [show Complex.I * (φ : ℂ) * ((Real.pi / 180 : ℝ) : ℂ) = ((φ * (Real.pi / 180) : ℝ) : ℂ) * Complex.I by push_cast; ring]
  apply Complex.ext
  · exact Complex.exp_ofReal_mul_I_re _
  · exact Complex.exp_ofReal_mul_I_im _

/-- **C146**, what holds: with a white noise floor and without inference, if the residuals of the two components have the
same sum of squares and are uncorrelated, turning the axes leaves the intervals of major axis and phase unchanged, and
those of minor axis and orientation too, unless the cosine coefficient of the second component is exactly zero before or
after. Missing: all other residuals (`C146_false`): the correlation of the components is never used. -/
theorem C146_isotropic_partial {E : Env} {t : TimeArg} {u v u' v' : Series} {lat : Option ℝ} {opts : Dict PyVal}
    {c c' : Coef} {tn : List Fl} (R : Ready E t u (some v)) (R' : Ready E t u' (some v')) (hI : InvOk E.num.inv)
    (H : WhiteRun E t u (some v) lat opts c tn) (H' : WhiteRun E t u' (some v') lat opts c' tn) (φ : ℝ)
    (hu : Transformed (fun _ x => cisd φ * x) tn u (some v) u' (some v')) :
    ∃ ci ci' qu qv, c.ci = some ci ∧ c'.ci = some ci' ∧
      BestFit c (sampleTimes tn u (some v)) (sampleU tn u (some v)) qu ∧
      BestFit c (sampleTimes tn u (some v)) (sampleV tn u (some v)) qv ∧ c'.name.Perm c.name ∧
      (sumSq (residuals c (sampleTimes tn u (some v)) (sampleU tn u (some v)) qu) =
        sumSq (residuals c (sampleTimes tn u (some v)) (sampleV tn u (some v)) qv) →
      combine (residuals c (sampleTimes tn u (some v)) (sampleU tn u (some v)) qu)
        (residuals c (sampleTimes tn u (some v)) (sampleV tn u (some v)) qv) = 0 →
      ∀ (i j : ℕ) (n : String), c.name[i]? = some n → c'.name[j]? = some n →
        NotCircular ![qu.X n, qu.Y n, qv.X n, qv.Y n] →
        ∃ r r', intervalAt ci i = some r ∧ intervalAt ci' j = some r' ∧ r'.maj = r.maj ∧ r'.g = r.g ∧
          (qv.X n ≠ 0 → Real.sin (φ * (Real.pi / 180)) * qu.X n + Real.cos (φ * (Real.pi / 180)) * qv.X n ≠ 0 →
            r'.min = r.min ∧ r'.theta = r.theta)) := by
  obtain ⟨p, constit, m, W, rf, full, o, ind, F, hols, hinf, -⟩ :=
    run_facts R H.keys H.ols H.returned none H.infer (fun s hs => by cases hs) tn H.time
  obtain ⟨p', constit', m', W', rf', full', o', ind', F', hols', hinf', -⟩ :=
    run_facts R' H'.keys H'.ols H'.returned none H'.infer (fun s hs => by cases hs) tn H'.time
  obtain ⟨h1, h2, -, -, T⟩ := twin' F F' R R' rfl _ hu
  have S : SameCurves c c' := ⟨by rw [h1], by rw [h1], by rw [F.creftime, F'.creftime, T.tref], by rw [F.clat, F'.clat, T.lat],
    same_names F F' R R' H.keys T.sel H.kept h2⟩
  obtain ⟨hi, hlt⟩ := F.full_rank R hI hols H.ci
  obtain ⟨x, hx⟩ := F.data R
  obtain ⟨-, hts, hxs⟩ := F.samples R
  obtain ⟨-, hts', hxs'⟩ := F'.samples R'
  obtain ⟨us, -, hus, hus'⟩ := T.x
  have hU : sampleU tn u (some v) = List.ofFn fun j => (x j).re := by
    have : sampleU tn u (some v) = (xraw p.ed).map Complex.re := by rw [hxs, List.map_map]; rfl
    rw [this, hx, List.map_ofFn]; rfl
  have hV : sampleV tn u (some v) = List.ofFn fun j => (x j).im := by
    have : sampleV tn u (some v) = (xraw p.ed).map Complex.im := by rw [hxs, List.map_map]; rfl
    rw [this, hx, List.map_ofFn]; rfl
  have hx' : xraw p'.ed = List.ofFn fun j => cisd φ * x j := by
    have : xraw p'.ed = (xraw p.ed).map fun z => cisd φ * z := by rw [hus', hus, List.map_map]; rfl
    rw [this, hx, List.map_ofFn]; rfl
  obtain ⟨k, hk⟩ : ∃ k, k = Real.cos (φ * (Real.pi / 180)) := ⟨_, rfl⟩
  obtain ⟨s, hs⟩ : ∃ s, s = Real.sin (φ * (Real.pi / 180)) := ⟨_, rfl⟩
  have hks : k ^ 2 + s ^ 2 = 1 := by rw [hk, hs]; exact Real.cos_sq_add_sin_sq _
  have hcis : cisd φ = ⟨k, s⟩ := by rw [cisd_eq, hk, hs]
  have hU' : sampleU tn u' (some v') = List.ofFn fun j => k * (x j).re + -s * (x j).im := by
    have : sampleU tn u' (some v') = (xraw p'.ed).map Complex.re := by rw [hxs', List.map_map]; rfl
    rw [this, hx', List.map_ofFn, hcis]
    congr 1
    funext j
    simp [Complex.mul_re, sub_eq_add_neg]
  have hV' : sampleV tn u' (some v') = List.ofFn fun j => s * (x j).re + k * (x j).im := by
    have : sampleV tn u' (some v') = (xraw p'.ed).map Complex.im := by rw [hxs', List.map_map]; rfl
    rw [this, hx', List.map_ofFn, hcis]
    congr 1
    funext j
    simp [Complex.mul_im, add_comm]
  have hT : sampleTimes tn u (some v) = p.ed.t := hts.symm
  have hT' : sampleTimes tn u' (some v') = p.ed.t := by rw [← T.t]; exact hts'.symm
  obtain ⟨ci, qu0, qv0, hci, hqu0, hqv0, hall⟩ := white_facts R hI H
  obtain ⟨ci', _, _, hci', _, _, hall'⟩ := white_facts R' hI H'
  obtain ⟨qu, hqu, hqur, -⟩ := F.bestFit R H.keys H.kept hinf hi fun j => (x j).re
  obtain ⟨qv, hqv, hqvr, -⟩ := F.bestFit R H.keys H.kept hinf hi fun j => (x j).im
  have hlu : (sampleU tn u (some v)).length = (sampleTimes tn u (some v)).length := by
    rw [hU, hT, List.length_ofFn, F.t_length]
  have hlv : (sampleV tn u (some v)).length = (sampleTimes tn u (some v)).length := by
    rw [hV, hT, List.length_ofFn, F.t_length]
  rw [← hT, ← hU] at hqu
  rw [← hT, ← hV] at hqv
  refine ⟨ci, ci', qu, qv, hci, hci', hqu, hqv, S.name, fun hsq hcr i j n hin hjn hnc => ?_⟩
  obtain ⟨a, b, su, sv, ⟨e1, e2, e3, e4⟩, k1, k2, k3, k4, k5, k6, -, k8⟩ := hall i n hin
  obtain ⟨a', b', su', sv', -, k1', k2', k3', k4', -, -, -, k8'⟩ := hall' j n hjn
  have cu := hqu0.curve_unique hqu hlu
  have cv := hqv0.curve_unique hqv hlv
  have f1 : qu0.X n = qu.X n := by rw [← k1.unbiased _ hqu0.adm, cu, k1.unbiased _ hqu.adm]
  have f2 : qu0.Y n = qu.Y n := by rw [← k2.unbiased _ hqu0.adm, cu, k2.unbiased _ hqu.adm]
  have f3 : qv0.X n = qv.X n := by rw [← k1.unbiased _ hqv0.adm, cv, k1.unbiased _ hqv.adm]
  have f4 : qv0.Y n = qv.Y n := by rw [← k2.unbiased _ hqv0.adm, cv, k2.unbiased _ hqv.adm]
  rw [f1] at e1
  rw [f2] at e2
  rw [f3] at e3
  rw [f4] at e4
  rw [hT'] at k1' k2' k3' k4'
  rw [hT] at k1 k2 k3 k4 hsq hcr
  cases (S.blue k1').unique k1
  cases (S.blue k2').unique k2
  rw [hU] at k3 hsq hcr
  rw [hV] at k4 hsq hcr
  rw [hU'] at k3'
  rw [hV'] at k4'
  rw [hqur, hqvr] at hsq hcr
  rw [sumSq_fin, sumSq_fin] at hsq
  rw [combine_fin] at hcr
  have n1 := noise_unique k3 (F.noise R H.keys H.kept hinf hi hlt _)
  have n2 := noise_unique k4 (F.noise R H.keys H.kept hinf hi hlt _)
  have n3 := noise_unique (S.noise k3') (F.noise R H.keys H.kept hinf hi hlt _)
  have n4 := noise_unique (S.noise k4') (F.noise R H.keys H.kept hinf hi hlt _)
  have hsum : ∀ α β : ℝ, α ^ 2 + β ^ 2 = 1 →
      ∑ j, gramRes (designM p.nm p.B) (fun j => α * (x j).re + β * (x j).im) j ^ 2 =
        ∑ j, gramRes (designM p.nm p.B) (fun j => (x j).re) j ^ 2 := by
    intro α β hab
    have : ∑ j, gramRes (designM p.nm p.B) (fun j => α * (x j).re + β * (x j).im) j ^ 2 =
        α ^ 2 * ∑ j, gramRes (designM p.nm p.B) (fun j => (x j).re) j ^ 2 +
        β ^ 2 * ∑ j, gramRes (designM p.nm p.B) (fun j => (x j).im) j ^ 2 + 2 * α * β *
        ∑ j, gramRes (designM p.nm p.B) (fun j => (x j).re) j * gramRes (designM p.nm p.B) (fun j => (x j).im) j := by
      rw [Finset.mul_sum, Finset.mul_sum, Finset.mul_sum, ← Finset.sum_add_distrib, ← Finset.sum_add_distrib]
      refine Finset.sum_congr rfl fun j _ => ?_
      rw [gramRes_turn]
      ring
    rw [this, hcr, ← hsq]
    linear_combination (∑ j, gramRes (designM p.nm p.B) (fun j => (x j).re) j ^ 2) * hab
  have hsv : sv = su := by rw [n1, n2, hsq]
  have hsu' : su' = su := by rw [n3, n1, hsum k (-s) (by rw [neg_sq]; exact hks)]
  have hsv' : sv' = su := by rw [n4, n1, hsum s k (by rw [add_comm]; exact hks)]
  rw [hsv] at k8
  rw [hsu', hsv'] at k8'
  refine ⟨_, _, k8, k8', ?_⟩
  simp only [Option.isSome_some, if_true]
  have hcomb : ∀ (l : List ℝ), l.length = p.ed.t.length → ∀ α β : ℝ,
      combine l (List.ofFn fun j => α * (x j).re + β * (x j).im) =
        α * combine l (List.ofFn fun j => (x j).re) + β * combine l (List.ofFn fun j => (x j).im) := by
    intro l hl α β
    obtain ⟨f, rfl⟩ := exists_ofFn l p.B.length (by rw [hl, F.t_length])
    rw [combine_fin, combine_fin, combine_fin, Finset.mul_sum, Finset.mul_sum, ← Finset.sum_add_distrib]
    exact Finset.sum_congr rfl fun j _ => by ring
  rw [hU] at e1 e2
  rw [hV] at e3 e4
  rw [hU, hV, hU', hV', hcomb a k1.length, hcomb b k2.length, hcomb a k1.length, hcomb b k2.length, e1, e2, e3, e4, ← hk, ← hs]
  have := linear2_turn k s hks ![qu.X n, qu.Y n, qv.X n, qv.Y n] _ _ (mul_nonneg k5 (sumSq_nonneg a))
    (mul_nonneg k5 (sumSq_nonneg b)) hnc.1 hnc.2
  simp only [neg_mul, ← sub_eq_add_neg]
  exact this


/-! ## The general statement is false -/

/-- The interval of the major axis of a current along a line through the origin, whose phase is zero. -/
theorem linear2_line (k s p q p' q' : ℝ) (h : k ^ 2 + s ^ 2 = 1) (hp0 : 0 ≤ p) (hq0 : 0 ≤ q) (hp1 : 0 ≤ p') (hq1 : 0 ≤ q') :
    (linear2 none k 0 s 0 p q p' q').1.maj = .fin (1.96 * Real.sqrt (k ^ 2 * p + s ^ 2 * p')) := by
  obtain ⟨v1, v2, v3, v4, v5, v6, v7, v8, v9, v10, v11, v12, v13, v14, v15, v16⟩ := dir_values
  obtain ⟨x, hx⟩ : ∃ x : Fin 4 → ℝ, x = ![k, 0, s, 0] := ⟨_, rfl⟩
  have x0 : x 0 = k := by rw [hx]; rfl
  have x1 : x 1 = 0 := by rw [hx]; rfl
  have x2 : x 2 = s := by rw [hx]; rfl
  have x3 : x 3 = 0 := by rw [hx]; rfl
  have pr : (posC x).re = k / 2 := by rw [posC_re, x0, x3]; ring
  have pi : (posC x).im = s / 2 := by rw [posC_im, x1, x2]; ring
  have nr : (negC x).re = k / 2 := by rw [negC_re, x0, x3]; ring
  have ni : (negC x).im = s / 2 := by rw [negC_im, x1, x2]; ring
  have hpn : ‖posC x‖ = 1 / 2 := by
    have := norm_sq' (posC x)
    rw [pr, pi] at this
    have h0 := norm_nonneg (posC x)
    nlinarith
  have hmn : ‖negC x‖ = 1 / 2 := by
    have := norm_sq' (negC x)
    rw [nr, ni] at this
    have h0 := norm_nonneg (negC x)
    nlinarith
  have hp : posC x ≠ 0 := fun h => by rw [h, norm_zero] at hpn; norm_num at hpn
  have hm : negC x ≠ 0 := fun h => by rw [h, norm_zero] at hmn; norm_num at hmn
  have e1 := linear2_eq none x ![Real.sqrt p, Real.sqrt q, Real.sqrt p', Real.sqrt q'] ![p, q, p', q']
    (fun i => by fin_cases i <;> exact Real.sqrt_nonneg _)
    (by simp [linear2, Real.sq_sqrt hp0, Real.sq_sqrt hq0, Real.sq_sqrt hp1, Real.sq_sqrt hq1])
  rw [utLinci_eq x _ hp hm, x0, x1, x2, x3] at e1
  rw [show linear2 none k 0 s 0 p q p' q' = linear2 none k 0 s 0 ((![p, q, p', q'] : Fin 4 → ℝ) 0)
    ((![p, q, p', q'] : Fin 4 → ℝ) 1) ((![p, q, p', q'] : Fin 4 → ℝ) 2) ((![p, q, p', q'] : Fin 4 → ℝ) 3) from rfl, e1]
  show Fl.fin (1.96 * Real.sqrt _) = _
  congr 3
  rw [Fin.sum_univ_four]
  unfold dNorm
  rw [pr, pi, nr, ni, hpn, hmn]
  simp only [v1, v2, v3, v4, v5, v6, v7, v8, v9, v10, v11, v12, v13, v14, v15, v16]
  show (_ * Real.sqrt p) ^ 2 + (_ * Real.sqrt q) ^ 2 + (_ * Real.sqrt p') ^ 2 + (_ * Real.sqrt q') ^ 2 = _
  rw [mul_pow, mul_pow, mul_pow, mul_pow, Real.sq_sqrt hp0, Real.sq_sqrt hq0, Real.sq_sqrt hp1, Real.sq_sqrt hq1]
  ring

/-- The records of the example form a linear space. -/
theorem pent_turned (z : ℂ) (x e d x' e' d' φ k s : ℝ) (h : cisd φ = ⟨k, s⟩) :
    Transformed (fun _ y => cisd φ * y) pentTn (pentData z x e d) (some (pentData z x' e' d'))
      (pentData z (k * x - s * x') (k * e - s * e') (k * d - s * d'))
      (some (pentData z (s * x + k * x') (s * e + k * e') (s * d + k * d'))) := by
  intro i τ _
  have key : ∀ a b : ℝ, (⟨k * a - s * b, s * a + k * b⟩ : ℂ) = ⟨k, s⟩ * ⟨a, b⟩ := by
    intro a b
    apply Complex.ext
    · simp [Complex.mul_re]
    · simp [Complex.mul_im, add_comm]
  have hall : sampleValues (pentData z (k * x - s * x') (k * e - s * e') (k * d - s * d')).data
      (some (pentData z (s * x + k * x') (s * e + k * e') (s * d + k * d')).data) =
      (sampleValues (pentData z x e d).data (some (pentData z x' e' d').data)).map (Option.map fun y => cisd φ * y) := by
    have hv : ∀ y0 y1 y2 y3 y4 w0 w1 w2 w3 w4 : ℝ, sampleValues (pentSeries y0 y1 y2 y3 y4).data
        (some (pentSeries w0 w1 w2 w3 w4).data) =
        [some ⟨y0, w0⟩, some ⟨y1, w1⟩, some ⟨y2, w2⟩, some ⟨y3, w3⟩, some ⟨y4, w4⟩] := by
      intros
      simp [sampleValues, pentSeries, Fl.toReal?, Cell.value?]
    rw [h]
    unfold pentData
    rw [hv, hv]
    simp only [List.map_cons, List.map_nil, Option.map_some, ← key]
    simp only [List.cons.injEq, Option.some.injEq, Complex.mk.injEq, and_true]
    refine ⟨⟨?_, ?_⟩, ⟨?_, ?_⟩, ⟨?_, ?_⟩, ⟨?_, ?_⟩, ?_, ?_⟩ <;> ring
  show (sampleValues (pentData z _ _ _).data (some (pentData z _ _ _).data))[i]? = _
  rw [hall, List.getElem?_map]
  rfl

theorem PentRun.white {z : ℂ} {x e d x' e' d' : ℝ} {c : Coef} (Q : PentPair z true x e d x' e' d' c) :
    WhiteRun idealEnv pentT (pentData z x e d) (some (pentData z x' e' d')) (some 45) (ciOpts "linear" true) c pentTn :=
  ⟨PentRun.returned Q, by decide, ⟨.str "ols", rfl, .inl rfl⟩, by rw [PentRun.opt Q]; rfl, by rw [PentRun.opt Q]; rfl,
    by rw [PentRun.opt Q]; rfl, by rw [PentRun.opt Q]; rfl, PentRun.kept Q, by rw [PentRun.opt Q]; exact pent_times⟩

theorem sumSq_pentRes (z : ℂ) (d : ℝ) : sumSq (pentRes z 0 d) = d ^ 2 * (2 * (z.im ^ 2 + (2 * z.re * z.im) ^ 2)) := by
  simp only [sumSq, pentRes, List.map_cons, List.map_nil, List.sum_cons, List.sum_nil]
  ring

/-- **C146** is false: of a current along one line, noise included, the interval of the major axis is smaller by the
factor √2 when the axes are turned by 45 degrees against that line: the noise of the two components is then the same, and
is combined as if the components were independent. -/
theorem C146_false : ¬ C146_full := by
  intro h
  obtain ⟨z, Z⟩ := pent_rot
  obtain ⟨r, hr⟩ : ∃ r, r = Real.sqrt 2 / 2 := ⟨_, rfl⟩
  have hr2 : r ^ 2 = 1 / 2 := by rw [hr, div_pow, Real.sq_sqrt (by norm_num)]; norm_num
  have hcis : cisd 45 = ⟨r, r⟩ := by
    rw [cisd_eq, show (45 : ℝ) * (Real.pi / 180) = Real.pi / 4 by ring, Real.cos_pi_div_four, Real.sin_pi_div_four, hr]
  obtain ⟨c, Q⟩ := pent_pair z true 1 0 1 0 0 0
  obtain ⟨c', Q'⟩ := pent_pair z true (r * 1 - r * 0) (r * 0 - r * 0) (r * 1 - r * 0) (r * 1 + r * 0) (r * 0 + r * 0) (r * 1 + r * 0)
  obtain ⟨ci, a, b, hci, hX, hY, hi⟩ := pent_white Z Q
  obtain ⟨ci', a', b', hci', hX', hY', hi'⟩ := pent_white Z Q'
  cases ((pent_same Q Q').blue hX').unique hX
  have h1 := h idealEnv pentT _ _ _ _ (some 45) (ciOpts "linear" true) c c' pentTn ci ci' 45
    (pent_pair_ready z _ _ _ _ _ _) (pent_pair_ready z _ _ _ _ _ _) idealNum_ok (PentRun.white Q) (PentRun.white Q')
    (pent_turned z 1 0 1 0 0 0 45 r r hcis) hci hci' 0 0 "M2" _ _ (by rw [PentRun.name Q]; rfl) (by rw [PentRun.name Q']; rfl)
    hi hi'
  have hA : 0 < sumSq a := hX.sumSq_pos ⟨fun _ => 1, fun _ => 0, 0, 0⟩ (fun _ => rfl) rfl
  have hB := sumSq_nonneg b
  have hB' := sumSq_nonneg b'
  have hI := Z.hi
  have hre := Z.hr
  have hpos : 0 < 2 * (z.im ^ 2 + (2 * z.re * z.im) ^ 2) := by positivity
  rw [show r * 1 - r * 0 = r by ring, show r * 0 - r * 0 = (0 : ℝ) by ring, show r * 1 + r * 0 = r by ring,
    show r * 0 + r * 0 = (0 : ℝ) by ring, sumSq_pentRes, sumSq_pentRes, sumSq_pentRes] at h1
  generalize 2 * (z.im ^ 2 + (2 * z.re * z.im) ^ 2) = S at h1 hpos
  rw [linear2_line r r _ _ _ _ (by rw [hr2]; norm_num) (by positivity) (by positivity) (by positivity) (by positivity),
    linear2_line 1 0 _ _ _ _ (by norm_num) (by positivity) (by positivity) (by positivity) (by positivity), hr2] at h1
  have h2 := Fl.fin.inj h1
  have h3 := (mul_right_inj' (by norm_num : (1.96 : ℝ) ≠ 0)).1 h2
  rw [Real.sqrt_inj (by positivity) (by positivity)] at h3
  have : 0 < S * sumSq a := mul_pos hpos hA
  linarith

/-- A noisy current with cosine coefficients 1 and 2 whose residuals are of equal size and uncorrelated: turned by any
angle, its major axis keeps a finite interval. -/
example (φ : ℝ) : ∃ (z : ℂ) (α : ℝ) (c c' : Coef) (ci ci' : CiArr) (r r' : Ci1), 0 < α ∧
    solve idealEnv pentT (pentData z 1 α 0) (some (pentData z 2 0 1)) (some 45) (ciOpts "linear" true) = .ok c ∧
    c.ci = some ci ∧ c'.ci = some ci' ∧ intervalAt ci 0 = some r ∧ intervalAt ci' 0 = some r' ∧ r'.maj = r.maj ∧ r'.g = r.g := by
  obtain ⟨z, Z⟩ := pent_rot
  have hI := Z.hi
  have hre := Z.hr
  have hu := Z.hu
  obtain ⟨Ce, hCe⟩ : ∃ C, C = 2 * (1 - z.re) ^ 2 + 2 * (1 - (z.re ^ 2 - z.im ^ 2)) ^ 2 + (2 * (z.re - (z.re ^ 2 - z.im ^ 2))) ^ 2 :=
    ⟨_, rfl⟩
  obtain ⟨Cd, hCd⟩ : ∃ C, C = 2 * (z.im ^ 2 + (2 * z.re * z.im) ^ 2) := ⟨_, rfl⟩
  have hCep : 0 < Ce := by
    have h1 : 0 < 1 - (z.re ^ 2 - z.im ^ 2) := by nlinarith [sq_pos_of_pos hI]
    rw [hCe]
    positivity
  have hCdp : 0 < Cd := by rw [hCd]; positivity
  obtain ⟨α, hα⟩ : ∃ α, α = Real.sqrt (Cd / Ce) := ⟨_, rfl⟩
  have hα2 : α ^ 2 * Ce = Cd := by
    rw [hα, Real.sq_sqrt (by positivity)]
    field_simp
  have hαp : 0 < α := by rw [hα]; positivity
  obtain ⟨c, Q⟩ := pent_pair z true 1 α 0 2 0 1
  obtain ⟨k, hk⟩ : ∃ k, k = Real.cos (φ * (Real.pi / 180)) := ⟨_, rfl⟩
  obtain ⟨s, hs⟩ : ∃ s, s = Real.sin (φ * (Real.pi / 180)) := ⟨_, rfl⟩
  have hcis : cisd φ = ⟨k, s⟩ := by rw [cisd_eq, hk, hs]
  obtain ⟨c', Q'⟩ := pent_pair z true (k * 1 - s * 2) (k * α - s * 0) (k * 0 - s * 1) (s * 1 + k * 2) (s * α + k * 0) (s * 0 + k * 1)
  obtain ⟨ci, ci', qu, qv, hci, hci', hqu, hqv, -, hall⟩ := C146_isotropic_partial (pent_pair_ready z _ _ _ _ _ _)
    (pent_pair_ready z _ _ _ _ _ _) idealNum_ok.inv (PentRun.white Q) (PentRun.white Q') φ
    (pent_turned z 1 α 0 2 0 1 φ k s hcis)
  obtain ⟨sU, sV⟩ := pent_sampleUV z 1 α 0 2 0 1
  rw [pent_sampleTimes z 1 α 0 (some (pentData z 2 0 1)) (.inr ⟨_, _, _, _, _, rfl⟩), sU] at hqu
  rw [pent_sampleTimes z 1 α 0 (some (pentData z 2 0 1)) (.inr ⟨_, _, _, _, _, rfl⟩), sV] at hqv
  rw [pent_sampleTimes z 1 α 0 (some (pentData z 2 0 1)) (.inr ⟨_, _, _, _, _, rfl⟩), sU, sV] at hall
  obtain ⟨b1, b2, b5⟩ := pent_best Q (pent_like true) z Z.h0 Z.h1 Z.h2 Z.h3 Z.h4 Z.hu Z.hr Z.hi _ _ _ _ hqu
  obtain ⟨b3, b4, b6⟩ := pent_best Q (pent_like true) z Z.h0 Z.h1 Z.h2 Z.h3 Z.h4 Z.hu Z.hr Z.hi _ _ _ _ hqv
  rw [b5, b6] at hall
  obtain ⟨r, r', h1, h2, h3, h4, -⟩ := hall
    (by
      simp only [sumSq, pentRes, List.map_cons, List.map_nil, List.sum_cons, List.sum_nil]
      rw [hCe, hCd] at hα2
      linarith)
    (by
      simp only [combine, pentRes, List.zipWith_cons_cons, List.zipWith_nil_right, List.sum_cons, List.sum_nil]
      ring)
    0 0 "M2" (by rw [PentRun.name Q]; rfl) (by rw [PentRun.name Q']; rfl)
    (by
      rw [b1, b2, b3, b4]
      constructor <;> intro h <;> have := congrArg Complex.re h <;> simp [rotP, rotM] at this)
  exact ⟨z, α, c, c', ci, ci', r, r', hαp, PentRun.returned Q, hci, hci', h1, h2, h3, h4⟩

end

end UTide.Props
