import Verif.Props.ColourProps

/-!
# Exchanging the two components of a current: C52
-/

namespace UTide.Props

noncomputable section

open Classical Matrix Complex

local notation "conj" => starRingEnd ℂ

/-! ## Specification -/

/-- **C52**, in full: exchanging the components of a current leaves the intervals of both axes unchanged. -/
def C52_full : Prop :=
  ∀ (E : Env) (t : TimeArg) (u v : Series) (lat : Option ℝ) (opts : Dict PyVal) (c c' : Coef) (ci ci' : CiArr),
    Ready E t u (some v) → NumOk E.num → opts.keys.Nodup → (∃ x, requested opts "conf_int" = some x ∧ IsStr x "linear") →
    solve E t u (some v) lat opts = .ok c → solve E t v (some u) lat opts = .ok c' → c.ci = some ci → c'.ci = some ci' →
    ∀ (i j : ℕ) (n : String) (r r' : Ci1), c.name[i]? = some n → c'.name[j]? = some n → intervalAt ci i = some r →
      intervalAt ci' j = some r' → r'.maj = r.maj ∧ r'.min = r.min

/-! ## The propagation formula -/

/-- Exchange of the components in a row of coefficients. -/
def swapRow (x : Fin 4 → ℝ) : Fin 4 → ℝ := ![x 2, x 3, x 0, x 1]

theorem posC_swap (x : Fin 4 → ℝ) : posC (swapRow x) = I * conj (negC x) := by
  apply Complex.ext
  · rw [posC_re]; simp only [Complex.mul_re, Complex.conj_re, Complex.conj_im, negC_re, negC_im, I_re, I_im]
    show (x 2 + x 1) / 2 = _; ring
  · rw [posC_im]; simp only [Complex.mul_im, Complex.conj_re, Complex.conj_im, negC_re, negC_im, I_re, I_im]
    show (x 0 - x 3) / 2 = _; ring

theorem negC_swap (x : Fin 4 → ℝ) : negC (swapRow x) = I * conj (posC x) := by
  apply Complex.ext
  · rw [negC_re]; simp only [Complex.mul_re, Complex.conj_re, Complex.conj_im, posC_re, posC_im, I_re, I_im]
    show (x 2 - x 1) / 2 = _; ring
  · rw [negC_im]; simp only [Complex.mul_im, Complex.conj_re, Complex.conj_im, posC_re, posC_im, I_re, I_im]
    show (x 0 + x 3) / 2 = _; ring

theorem dir_swap : dirP 0 = I * conj (dirM 2) ∧ dirP 1 = I * conj (dirM 3) ∧ dirP 2 = I * conj (dirM 0) ∧
    dirP 3 = I * conj (dirM 1) ∧ dirM 0 = I * conj (dirP 2) ∧ dirM 1 = I * conj (dirP 3) ∧
    dirM 2 = I * conj (dirP 0) ∧ dirM 3 = I * conj (dirP 1) := by
  obtain ⟨v1, v2, v3, v4, v5, v6, v7, v8, v9, v10, v11, v12, v13, v14, v15, v16⟩ := dir_values
  refine ⟨?_, ?_, ?_, ?_, ?_, ?_, ?_, ?_⟩ <;> apply Complex.ext <;>
    simp only [Complex.mul_re, Complex.mul_im, Complex.conj_re, Complex.conj_im, I_re, I_im, v1, v2, v3, v4, v5, v6, v7, v8,
      v9, v10, v11, v12, v13, v14, v15, v16] <;> norm_num

theorem dNorm_swap (w c : ℂ) : dNorm (I * conj w) (I * conj c) = dNorm w c := by
  unfold dNorm
  have : ‖I * conj w‖ = ‖w‖ := by simp
  rw [this]
  congr 1
  simp
  ring

theorem dAngle_swap (w c : ℂ) : dAngle (I * conj w) (I * conj c) = -dAngle w c := by
  unfold dAngle
  have : ‖I * conj w‖ = ‖w‖ := by simp
  rw [this]
  simp
  ring

theorem nan_add (a : Fl) : Fl.nan + a = .nan := by cases a <;> rfl
theorem add_nan (a : Fl) : a + Fl.nan = .nan := by cases a <;> rfl
theorem nan_sub (a : Fl) : Fl.nan - a = .nan := by cases a <;> rfl
theorem sub_nan (a : Fl) : a - Fl.nan = .nan := by cases a <;> rfl
theorem nan_mul (a : Fl) : Fl.nan * a = .nan := by cases a <;> rfl
theorem mul_nan (a : Fl) : a * Fl.nan = .nan := by cases a <;> rfl
theorem zero_div_zero : Fl.fin 0 / Fl.fin 0 = .nan := by
  show (if (0 : ℝ) = 0 then _ else _) = _
  rw [if_pos rfl]
  exact if_pos rfl

theorem linSum_nan (d1 d2 d3 d4 s1 s2 s3 s4 : Fl) (h : d1 = .nan) : linSum d1 d2 d3 d4 s1 s2 s3 s4 = .nan := by
  subst h
  unfold linSum Fl.sq
  simp only [nan_add, nan_mul]
  rfl

/-- With a circular ellipse the formulas divide zero by zero. -/
theorem utLinci_circular (x : Fin 4 → ℝ) (σ : Fin 4 → Fl) (h : posC x = 0 ∨ negC x = 0) :
    utLinci (x 0) (x 1) (x 2) (x 3) (σ 0) (σ 1) (σ 2) (σ 3) =
      ⟨.nan, if x 2 = 0 then .fin 0 else .nan, .nan, if x 2 = 0 then .fin 0 else .nan⟩ := by
  have key : ∃ r, r = (0 : ℝ) ∧ 2 * (x 0 * x 1 + x 2 * x 3) = r ∧ x 0 ^ 2 - x 1 ^ 2 + x 2 ^ 2 - x 3 ^ 2 = r ∧
      2 * (x 0 * x 2 + x 1 * x 3) = r ∧ x 0 ^ 2 + x 1 ^ 2 - (x 2 ^ 2 + x 3 ^ 2) = r := by
    refine ⟨0, rfl, ?_⟩
    rcases h with h | h
    · have h1 := posC_re x
      have h2 := posC_im x
      rw [h] at h1 h2
      have e1 : x 3 = -x 0 := by simp at h1; linarith
      have e2 : x 2 = x 1 := by simp at h2; linarith
      rw [e1, e2]
      refine ⟨?_, ?_, ?_, ?_⟩ <;> ring
    · have h1 := negC_re x
      have h2 := negC_im x
      rw [h] at h1 h2
      have e1 : x 3 = x 0 := by simp at h1; linarith
      have e2 : x 2 = -x 1 := by simp at h2; linarith
      rw [e1, e2]
      refine ⟨?_, ?_, ?_, ?_⟩ <;> ring
  obtain ⟨r, hr, k1, k2, k3, k4⟩ := key
  have hxy : Fl.fin (x 0 + x 3) / Fl.fin (0.5 * Real.sqrt ((x 0 + x 3) ^ 2 + (x 2 - x 1) ^ 2)) = .nan ∨
      Fl.fin (x 0 - x 3) / Fl.fin (0.5 * Real.sqrt ((x 0 - x 3) ^ 2 + (x 2 + x 1) ^ 2)) = .nan := by
    rcases h with h | h
    · left
      have h1 := posC_re x
      have h2 := posC_im x
      rw [h] at h1 h2
      have e1 : x 0 + x 3 = 0 := by simp at h1; linarith
      have e2 : x 2 - x 1 = 0 := by simp at h2; linarith
      rw [e1, e2]
      norm_num
      exact zero_div_zero
    · right
      have h1 := negC_re x
      have h2 := negC_im x
      rw [h] at h1 h2
      have e1 : x 0 - x 3 = 0 := by simp at h1; linarith
      have e2 : x 2 + x 1 = 0 := by simp at h2; linarith
      rw [e1, e2]
      norm_num
      exact zero_div_zero
  unfold utLinci
  dsimp only
  rw [k1, k2, k3, k4, hr]
  generalize Fl.fin (x 0 + x 3) / Fl.fin (0.5 * Real.sqrt ((x 0 + x 3) ^ 2 + (x 2 - x 1) ^ 2)) = ex at hxy ⊢
  generalize Fl.fin (x 0 - x 3) / Fl.fin (0.5 * Real.sqrt ((x 0 - x 3) ^ 2 + (x 2 + x 1) ^ 2)) = fx at hxy ⊢
  have s1 : Fl.fin 0.25 * (ex + fx) = .nan := by
    rcases hxy with rfl | rfl
    · rw [nan_add, mul_nan]
    · rw [add_nan, mul_nan]
  have s2 : Fl.fin 0.25 * (ex - fx) = .nan := by
    rcases hxy with rfl | rfl
    · rw [nan_sub, mul_nan]
    · rw [sub_nan, mul_nan]
  have z : ∀ a b : ℝ, Fl.fin (0 * a - 0 * b) / Fl.fin (0 ^ 2 + 0 ^ 2) = .nan := fun a b => by
    norm_num
    exact zero_div_zero
  rw [linSum_nan _ _ _ _ _ _ _ _ s1, linSum_nan _ _ _ _ _ _ _ _ s2, linSum_nan _ _ _ _ _ _ _ _ (z _ _),
    linSum_nan _ _ _ _ _ _ _ _ (z _ _), mul_nan]
  by_cases h2 : x 2 = 0
  · rw [if_pos h2, if_pos h2]
  · rw [if_neg h2, if_neg h2]
    unfold addJ
    rw [mul_nan, nan_add]

/-- Exchanging the components exchanges nothing else in the first-order formulas, unless a cosine coefficient
vanishes exactly. -/
theorem utLinci_swap (x σ : Fin 4 → ℝ) :
    let s := utLinci (x 0) (x 1) (x 2) (x 3) (.fin (σ 0)) (.fin (σ 1)) (.fin (σ 2)) (.fin (σ 3))
    let s' := utLinci (x 2) (x 3) (x 0) (x 1) (.fin (σ 2)) (.fin (σ 3)) (.fin (σ 0)) (.fin (σ 1))
    s'.sMaj = s.sMaj ∧ s'.sG = s.sG ∧ (x 0 ≠ 0 → x 2 ≠ 0 → s'.sMin = s.sMin ∧ s'.sTheta = s.sTheta) := by
  intro s s'
  have hI0 : ∀ w : ℂ, I * conj w = 0 ↔ w = 0 := fun w => by simp [I_ne_zero]
  by_cases hc : posC x = 0 ∨ negC x = 0
  · have h1 := utLinci_circular x (fun i => .fin (σ i)) hc
    have h2 := utLinci_circular (swapRow x) (fun i => .fin (swapRow σ i)) (by
      rw [posC_swap, negC_swap, hI0, hI0]; exact hc.symm)
    have e1 : s = _ := h1
    have e2 : s' = _ := h2
    rw [e1, e2]
    refine ⟨rfl, rfl, fun h3 h4 => ?_⟩
    show (if x 0 = 0 then _ else _) = (if x 2 = 0 then _ else _) ∧ (if x 0 = 0 then _ else _) = (if x 2 = 0 then _ else _)
    rw [if_neg h3, if_neg h4]
    exact ⟨rfl, rfl⟩
  · push Not at hc
    obtain ⟨hp, hm⟩ := hc
    have e1 : s = _ := utLinci_eq x σ hp hm
    have e2 : s' = _ := utLinci_eq (swapRow x) (swapRow σ) (by rw [posC_swap, Ne, hI0]; exact hm)
      (by rw [negC_swap, Ne, hI0]; exact hp)
    obtain ⟨d1, d2, d3, d4, d5, d6, d7, d8⟩ := dir_swap
    have k0 : swapRow σ 0 = σ 2 := rfl
    have k1 : swapRow σ 1 = σ 3 := rfl
    have k2 : swapRow σ 2 = σ 0 := rfl
    have k3 : swapRow σ 3 = σ 1 := rfl
    have j2 : swapRow x 2 = x 0 := rfl
    have aP : ∀ w, dAngle (I * conj w) (dirP 0) = -dAngle w (dirM 2) ∧ dAngle (I * conj w) (dirP 1) = -dAngle w (dirM 3) ∧
        dAngle (I * conj w) (dirP 2) = -dAngle w (dirM 0) ∧ dAngle (I * conj w) (dirP 3) = -dAngle w (dirM 1) := fun w =>
      ⟨by rw [d1, dAngle_swap], by rw [d2, dAngle_swap], by rw [d3, dAngle_swap], by rw [d4, dAngle_swap]⟩
    have aM : ∀ w, dAngle (I * conj w) (dirM 0) = -dAngle w (dirP 2) ∧ dAngle (I * conj w) (dirM 1) = -dAngle w (dirP 3) ∧
        dAngle (I * conj w) (dirM 2) = -dAngle w (dirP 0) ∧ dAngle (I * conj w) (dirM 3) = -dAngle w (dirP 1) := fun w =>
      ⟨by rw [d5, dAngle_swap], by rw [d6, dAngle_swap], by rw [d7, dAngle_swap], by rw [d8, dAngle_swap]⟩
    have nP : ∀ w, dNorm (I * conj w) (dirP 0) = dNorm w (dirM 2) ∧ dNorm (I * conj w) (dirP 1) = dNorm w (dirM 3) ∧
        dNorm (I * conj w) (dirP 2) = dNorm w (dirM 0) ∧ dNorm (I * conj w) (dirP 3) = dNorm w (dirM 1) := fun w =>
      ⟨by rw [d1, dNorm_swap], by rw [d2, dNorm_swap], by rw [d3, dNorm_swap], by rw [d4, dNorm_swap]⟩
    have nM : ∀ w, dNorm (I * conj w) (dirM 0) = dNorm w (dirP 2) ∧ dNorm (I * conj w) (dirM 1) = dNorm w (dirP 3) ∧
        dNorm (I * conj w) (dirM 2) = dNorm w (dirP 0) ∧ dNorm (I * conj w) (dirM 3) = dNorm w (dirP 1) := fun w =>
      ⟨by rw [d5, dNorm_swap], by rw [d6, dNorm_swap], by rw [d7, dNorm_swap], by rw [d8, dNorm_swap]⟩
    obtain ⟨a1, a2, a3, a4⟩ := aP (negC x)
    obtain ⟨a5, a6, a7, a8⟩ := aM (posC x)
    obtain ⟨n1, n2, n3, n4⟩ := nP (negC x)
    obtain ⟨n5, n6, n7, n8⟩ := nM (posC x)
    rw [e1, e2, posC_swap, negC_swap]
    simp only [Fin.sum_univ_four, k0, k1, k2, k3, j2, a1, a2, a3, a4, a5, a6, a7, a8, n1, n2, n3, n4, n5, n6, n7, n8]
    refine ⟨?_, ?_, fun h3 h4 => ?_⟩
    · congr 2; ring
    · congr 2; ring
    · rw [if_neg h3, if_neg h4, if_neg h3, if_neg h4]
      constructor <;> (congr 2; ring)

/-! ## Two runs -/

/-- `u + iv` with the components exchanged. -/
def swapC (x : ℂ) : ℂ := ⟨x.im, x.re⟩

theorem sampleValues_swap (u v : List Cell) :
    sampleValues v (some u) = (sampleValues u (some v)).map (Option.map swapC) := by
  simp only [sampleValues]
  induction u generalizing v with
  | nil => simp
  | cons a u ih =>
    cases v with
    | nil => simp
    | cons b v =>
      simp only [List.zipWith_cons_cons, List.map_cons, ih v]
      congr 1
      cases a.value? <;> cases b.value? <;> rfl

theorem transformed_swap (tn : List Fl) (u v : Series) : Transformed (fun _ => swapC) tn u (some v) v (some u) := by
  intro i τ _
  simp only [Option.map_some]
  rw [sampleValues_swap, List.getElem?_map]

theorem usable_swap (tn : List Fl) (u v : List Cell) (h : SameLength tn u (some v)) :
    usable tn v (some u) = (usable tn u (some v)).map fun s => (s.1, swapC s.2) := by
  obtain ⟨h1, h2⟩ := h
  have h3 := h2 v rfl
  rw [usable_samples tn v (some u) ⟨by omega, fun w hw => by cases hw; omega⟩, usable_samples tn u (some v) ⟨h1, h2⟩]
  have hl : tn.length = (sampleValues u (some v)).length := sampleValues_length tn u (some v) ⟨h1, h2⟩
  refine samples_transform (fun _ => swapC) tn _ _ hl (by rw [sampleValues_swap, List.length_map]; exact hl) fun i τ _ => ?_
  rw [sampleValues_swap, List.getElem?_map]

theorem samples_swap (tn : List Fl) (u v : Series) (h : SameLength tn u.data (some v.data)) :
    sampleTimes tn v (some u) = sampleTimes tn u (some v) ∧ sampleU tn v (some u) = sampleV tn u (some v) ∧
      sampleV tn v (some u) = sampleU tn u (some v) := by
  unfold sampleTimes sampleU sampleV
  simp only [Option.map_some]
  rw [usable_swap tn u.data v.data h]
  simp only [List.map_map]
  exact ⟨rfl, rfl, rfl⟩

/-- The curves of two results with the same constituents. -/
structure SameCurves (c c' : Coef) : Prop where
  flags : c'.opt.flags = c.opt.flags
  notrend : c'.opt.notrend = c.opt.notrend
  reftime : c'.reftime = c.reftime
  lat : c'.lat = c.lat
  name : c'.name.Perm c.name

theorem SameCurves.curve {c c' : Coef} (S : SameCurves c c') (q : CurvePar) : linCurve c' q = linCurve c q := by
  funext τ
  unfold linCurve harmonic
  rw [S.flags, S.reftime, S.lat]
  congr 1
  exact (S.name.map _).sum_eq

theorem SameCurves.adm {c c' : Coef} (S : SameCurves c c') (q : CurvePar) : Admissible c' q ↔ Admissible c q := by
  unfold Admissible; rw [S.notrend]

theorem SameCurves.blue {c c' : Coef} (S : SameCurves c c') {τ : List ℝ} {par : CurvePar → ℝ} {a : List ℝ}
    (h : Blue c' τ par a) : Blue c τ par a :=
  ⟨h.length, fun q hq => by rw [← S.curve]; exact h.unbiased q ((S.adm q).2 hq),
    fun a' hl hu => h.best a' hl fun q hq => by rw [S.curve]; exact hu q ((S.adm q).1 hq)⟩

theorem SameCurves.bestFit {c c' : Coef} (S : SameCurves c c') {τ y : List ℝ} {q : CurvePar}
    (h : BestFit c' τ y q) : BestFit c τ y q :=
  ⟨(S.adm q).1 h.adm, fun q' hq' => by
    have := h.best q' ((S.adm q').2 hq')
    unfold residuals at this ⊢
    rw [S.curve, S.curve] at this
    exact this⟩

theorem SameCurves.noise {c c' : Coef} (S : SameCurves c c') {τ y : List ℝ} {s : ℝ}
    (h : NoiseVariance c' τ y s) : NoiseVariance c τ y s := by
  have hn : numPar c' = numPar c := by unfold numPar; rw [S.notrend, S.name.length_eq]
  obtain ⟨h1, rss, h2, h3⟩ := h
  rw [hn] at h1 h3
  refine ⟨h1, rss, ?_, h3⟩
  simpa only [S.adm, S.curve] using h2

theorem exists_ofFn (l : List ℝ) (n : ℕ) (h : l.length = n) : ∃ f : Fin n → ℝ, l = List.ofFn f := by
  subst h; exact ⟨l.get, (List.ofFn_get l).symm⟩

/-- There is only one best linear unbiased estimator. -/
theorem Blue.unique {c : Coef} {τ : List ℝ} {par : CurvePar → ℝ} {a a' : List ℝ} (h : Blue c τ par a)
    (h' : Blue c τ par a') : a = a' := by
  have hs : sumSq a = sumSq a' := le_antisymm (h.best a' h'.length h'.unbiased) (h'.best a h.length h.unbiased)
  obtain ⟨f, rfl⟩ := exists_ofFn a _ h.length
  obtain ⟨g, rfl⟩ := exists_ofFn a' _ h'.length
  have hm := h.best (List.ofFn fun i => (f i + g i) / 2) (by simp) (fun q hq => by
    have h1 := h.unbiased q hq
    have h2 := h'.unbiased q hq
    obtain ⟨y, hy⟩ := exists_ofFn (τ.map (linCurve c q)) τ.length (by simp)
    rw [hy, combine_fin] at h1 h2 ⊢
    have : ∑ j, (f j + g j) / 2 * y j = (∑ j, f j * y j + ∑ j, g j * y j) / 2 := by
      rw [← Finset.sum_add_distrib, Finset.sum_div]
      exact Finset.sum_congr rfl fun j _ => by ring
    rw [this, h1, h2]; ring)
  rw [sumSq_fin, sumSq_fin] at hs hm
  have hz : ∑ j, ((f j - g j) / 2) ^ 2 ≤ 0 := by
    have : ∑ j, ((f j - g j) / 2) ^ 2 = (∑ j, f j ^ 2 + ∑ j, g j ^ 2) / 2 - ∑ j, ((f j + g j) / 2) ^ 2 := by
      rw [← Finset.sum_add_distrib, Finset.sum_div, ← Finset.sum_sub_distrib]
      exact Finset.sum_congr rfl fun j _ => by ring
    rw [this]; linarith
  have h0 := (Finset.sum_eq_zero_iff_of_nonneg fun j _ => sq_nonneg ((f j - g j) / 2)).1
    (le_antisymm hz (Finset.sum_nonneg fun j _ => sq_nonneg _))
  congr 1
  funext j
  have := pow_eq_zero_iff (two_ne_zero) |>.1 (h0 j (Finset.mem_univ j))
  linarith

theorem noise_unique {c : Coef} {τ y : List ℝ} {s s' : ℝ} (h : NoiseVariance c τ y s) (h' : NoiseVariance c τ y s') :
    s = s' := by
  obtain ⟨-, r, h2, rfl⟩ := h
  obtain ⟨-, r', h2', rfl⟩ := h'
  rw [h2.unique h2']

theorem linear2_swap (Xu Yu Xv Yv a b c d : ℝ) (ha : 0 ≤ a) (hb : 0 ≤ b) (hc : 0 ≤ c) (hd : 0 ≤ d) :
    let r := (linear2 none Xu Yu Xv Yv a b c d).1
    let r' := (linear2 none Xv Yv Xu Yu c d a b).1
    r'.maj = r.maj ∧ r'.g = r.g ∧ (Xu ≠ 0 → Xv ≠ 0 → r'.min = r.min ∧ r'.theta = r.theta) := by
  intro r r'
  have e1 : r = _ := linear2_eq none ![Xu, Yu, Xv, Yv] ![Real.sqrt a, Real.sqrt b, Real.sqrt c, Real.sqrt d] ![a, b, c, d]
    (fun i => by fin_cases i <;> exact Real.sqrt_nonneg _)
    (by simp [linear2, Real.sq_sqrt ha, Real.sq_sqrt hb, Real.sq_sqrt hc, Real.sq_sqrt hd])
  have e2 : r' = _ := linear2_eq none ![Xv, Yv, Xu, Yu] ![Real.sqrt c, Real.sqrt d, Real.sqrt a, Real.sqrt b] ![c, d, a, b]
    (fun i => by fin_cases i <;> exact Real.sqrt_nonneg _)
    (by simp [linear2, Real.sq_sqrt ha, Real.sq_sqrt hb, Real.sq_sqrt hc, Real.sq_sqrt hd])
  obtain ⟨h1, h2, h3⟩ := utLinci_swap ![Xu, Yu, Xv, Yv] ![Real.sqrt a, Real.sqrt b, Real.sqrt c, Real.sqrt d]
  rw [e1, e2]
  refine ⟨congrArg (Fl.fin 1.96 * ·) h1, congrArg (Fl.fin 1.96 * ·) h2, fun n1 n2 => ?_⟩
  obtain ⟨h4, h5⟩ := h3 n1 n2
  exact ⟨congrArg (Fl.fin 1.96 * ·) h4, congrArg (Fl.fin 1.96 * ·) h5⟩

/-- **C52**, what holds: with white noise and without inference, exchanging the components leaves the intervals of the
major axis and of the phase unchanged; those of the minor axis and of the orientation too, unless the cosine
coefficient of a component is exactly zero. Missing: coloured noise, where only the variances of the second component
are rescaled (`C52_false`), and zero cosine coefficients (`C52_false_white`). -/
theorem C52_partial {E : Env} {t : TimeArg} {u v : Series} {lat : Option ℝ} {opts : Dict PyVal} {c c' : Coef}
    {tn : List Fl} (R : Ready E t u (some v)) (hI : InvOk E.num.inv) (H : WhiteRun E t u (some v) lat opts c tn)
    (H' : WhiteRun E t v (some u) lat opts c' tn) :
    ∃ ci ci' qu qv, c.ci = some ci ∧ c'.ci = some ci' ∧
      BestFit c (sampleTimes tn u (some v)) (sampleU tn u (some v)) qu ∧
      BestFit c (sampleTimes tn u (some v)) (sampleV tn u (some v)) qv ∧
      c'.name.Perm c.name ∧
      ∀ (i j : ℕ) (n : String), c.name[i]? = some n → c'.name[j]? = some n →
        ∃ r r', intervalAt ci i = some r ∧ intervalAt ci' j = some r' ∧ r'.maj = r.maj ∧ r'.g = r.g ∧
          (qu.X n ≠ 0 → qv.X n ≠ 0 → r'.min = r.min ∧ r'.theta = r.theta) := by
  have R' : Ready E t v (some u) := ⟨R.lstsq, R.argsort, R.ht, R.hv v rfl, fun w hw => by cases hw; exact R.hu⟩
  obtain ⟨p, constit, m, W, rf, full, o, ind, F, hols, hinf, -⟩ :=
    run_facts R H.keys H.ols H.returned none H.infer (fun s hs => by cases hs) tn H.time
  obtain ⟨p', constit', m', W', rf', full', o', ind', F', hols', hinf', -⟩ :=
    run_facts R' H'.keys H'.ols H'.returned none H'.infer (fun s hs => by cases hs) tn H'.time
  obtain ⟨h1, h2, -, -, T⟩ := twin' F F' R R' rfl _ (transformed_swap tn u v)
  have S : SameCurves c c' := ⟨by rw [h1], by rw [h1], by rw [F.creftime, F'.creftime, T.tref], by rw [F.clat, F'.clat, T.lat],
    same_names F F' R R' H.keys T.sel H.kept h2⟩
  have hl : SameLength tn u.data (some v.data) := (F.samples R).1
  obtain ⟨s1, s2, s3⟩ := samples_swap tn u v hl
  obtain ⟨ci, qu, qv, hci, hqu, hqv, hall⟩ := white_facts R hI H
  obtain ⟨ci', qu', qv', hci', -, -, hall'⟩ := white_facts R' hI H'
  refine ⟨ci, ci', qu, qv, hci, hci', hqu, hqv, S.name, fun i j n hi hj => ?_⟩
  obtain ⟨a, b, su, sv, ⟨e1, e2, e3, e4⟩, k1, k2, k3, k4, k5, k6, -, k8⟩ := hall i n hi
  obtain ⟨a', b', su', sv', -, k1', k2', k3', k4', -, -, -, k8'⟩ := hall' j n hj
  rw [s1] at k1' k2' k3' k4'
  rw [s2] at k3' k8'
  rw [s3] at k4' k8'
  cases (S.blue k1').unique k1
  cases (S.blue k2').unique k2
  cases noise_unique (S.noise k3') k4
  cases noise_unique (S.noise k4') k3
  refine ⟨_, _, k8, k8', ?_⟩
  simp only [Option.isSome_some, if_true]
  have := linear2_swap (combine a (sampleU tn u (some v))) (combine b (sampleU tn u (some v)))
    (combine a (sampleV tn u (some v))) (combine b (sampleV tn u (some v))) _ _ _ _ (mul_nonneg k5 (sumSq_nonneg a))
    (mul_nonneg k5 (sumSq_nonneg b)) (mul_nonneg k6 (sumSq_nonneg a)) (mul_nonneg k6 (sumSq_nonneg b))
  rw [← e1, ← e3]
  exact this

/-! ## Coloured noise -/

/-- The intervals of a current with coloured noise. -/
theorem colour_facts {E : Env} {t : TimeArg} {u v : Series} {lat : Option ℝ} {opts : Dict PyVal} {c : Coef} {tn : List Fl}
    (R : Ready E t u (some v)) (hI : InvOk E.num.inv) (H : ColourRun E t u (some v) lat opts c tn) :
    ∃ ci ed qu qv frq w, c.ci = some ci ∧ editData tn u.data (some v.data) = .ok ed ∧
      BestFit c (sampleTimes tn u (some v)) (sampleU tn u (some v)) qu ∧
      BestFit c (sampleTimes tn u (some v)) (sampleV tn u (some v)) qv ∧ frq.Perm c.frq ∧
      residualPower E.num ed (List.zipWith (fun x y : ℝ => (⟨x, y⟩ : ℂ))
        (residuals c (sampleTimes tn u (some v)) (sampleU tn u (some v)) qu)
        (residuals c (sampleTimes tn u (some v)) (sampleV tn u (some v)) qv)) frq = .ok w ∧
      ∀ (i : ℕ) (n : String), c.name[i]? = some n →
      ∃ a b : List ℝ, ∃ su sv : ℝ, ∃ P : Fl, ∃ (k : ℕ) (f : ℝ),
        Blue c (sampleTimes tn u (some v)) (fun q => q.X n) a ∧ Blue c (sampleTimes tn u (some v)) (fun q => q.Y n) b ∧
        NoiseVariance c (sampleTimes tn u (some v)) (sampleU tn u (some v)) su ∧
        NoiseVariance c (sampleTimes tn u (some v)) (sampleV tn u (some v)) sv ∧
        c.frq[i]? = some f ∧ frq[k]? = some f ∧ w.Pvv[k]? = some P ∧
        intervalAt ci i = some (linear2 (some P) (qu.X n) (qu.Y n) (qv.X n) (qv.Y n) (su * sumSq a) (su * sumSq b)
          (sv * sumSq a) (sv * sumSq b)).1 := by
  obtain ⟨p, constit, m, W, rf, full, o, ind, F, hols, hinf, -⟩ :=
    run_facts R H.keys H.ols H.returned none H.infer (fun s hs => by cases hs) tn H.time
  obtain ⟨x, hx⟩ := F.data R
  obtain ⟨hi, hlt⟩ := F.full_rank R hI hols H.ci
  obtain ⟨ci, pw, hci, -, hw, hrow⟩ := F.ciRow R hI H.keys hols H.ci H.linear hinf x hx
  obtain ⟨w, rfl, hres⟩ := hw H.coloured
  obtain ⟨-, hts, hxs⟩ := F.samples R
  have hU : sampleU tn u (some v) = List.ofFn fun j => (x j).re := by
    have : sampleU tn u (some v) = (xraw p.ed).map Complex.re := by rw [hxs, List.map_map]; rfl
    rw [this, hx, List.map_ofFn]; rfl
  have hV : sampleV tn u (some v) = List.ofFn fun j => (x j).im := by
    have : sampleV tn u (some v) = (xraw p.ed).map Complex.im := by rw [hxs, List.map_map]; rfl
    rw [this, hx, List.map_ofFn]; rfl
  have hT : sampleTimes tn u (some v) = p.ed.t := hts.symm
  obtain ⟨qu, hqu, hqur, hqup⟩ := F.bestFit R H.keys H.kept hinf hi fun j => (x j).re
  obtain ⟨qv, hqv, hqvr, hqvp⟩ := F.bestFit R H.keys H.kept hinf hi fun j => (x j).im
  have hcc : c.ci = some (ci.permute ind) := by
    rw [F.solved.result]; show full.ci.map _ = _; rw [hci]; rfl
  have hfrq : p.sel.frq.Perm c.frq := by
    have : c.frq = gather full.frq ind := by rw [F.solved.result]; rfl
    rw [this, ← F.solved.frq]
    exact (gather_perm _ (by rw [F.len.frq]; exact F.kept H.keys R H.kept)).symm
  refine ⟨ci.permute ind, p.ed, qu, qv, p.sel.frq, w, hcc, F.prep.init.edit, by rw [hT, hU]; exact hqu,
    by rw [hT, hV]; exact hqv, hfrq, ?_, fun i n hn => ?_⟩
  · rw [hT, hU, hV, hqur, hqvr, ← hres, F.residual R H.keys hols hinf hi x hx]
    congr 1
    apply List.ext_getElem
    · simp
    · intro i h1 h2; simp
  · obtain ⟨k, hk, hkn, hki, he, ci', hci', hint⟩ := F.position hinf ci hci i n hn
    cases Option.some.inj (hci'.symm.trans hcc)
    obtain ⟨r1, r2⟩ := hrow k hk
    obtain ⟨hrefs, hnR, hname, hlen, hnm⟩ := F.noRefs hinf
    have hll : p.sel.lind.length = p.sel.nNR := by rw [F.prep.aligned.lind_eq, hrefs, F.prep.aligned.nNR]; simp
    have hfl : k.val < p.sel.frq.length := by rw [F.prep.aligned.frq, List.length_map, hll]; exact hk
    have hPl : k.val < w.Pvv.length := by
      unfold residualPower at hres
      simp only [bind_eq_ok, pure_eq_ok, Except.ok.injEq] at hres
      obtain ⟨ba, -, rfl⟩ := hres
      simpa using hfl
    have bX := F.blue_cos R H.keys H.kept hinf hi k n hkn
    have bY := F.blue_sin R H.keys H.kept hinf hi k n hkn
    obtain ⟨eX, eY⟩ := hqup k n hkn
    obtain ⟨eX', eY'⟩ := hqvp k n hkn
    refine ⟨List.ofFn (cosForm (designM p.nm p.B) k), List.ofFn (sinForm (designM p.nm p.B) k),
      (∑ j, gramRes (designM p.nm p.B) (fun j => (x j).re) j ^ 2) / ((p.B.length : ℝ) - p.nm),
      (∑ j, gramRes (designM p.nm p.B) (fun j => (x j).im) j ^ 2) / ((p.B.length : ℝ) - p.nm), w.Pvv[k.val], k.val,
      p.sel.frq[k.val], by rw [hT]; exact bX, by rw [hT]; exact bY, ?_, ?_, ?_, List.getElem?_eq_getElem hfl,
      List.getElem?_eq_getElem hPl, ?_⟩
    · rw [hT, hU]; exact F.noise R H.keys H.kept hinf hi hlt _
    · rw [hT, hV]; exact F.noise R H.keys H.kept hinf hi hlt _
    · have : c.frq = gather full.frq ind := by rw [F.solved.result]; rfl
      rw [this, gather_getElem? _ _ (by rw [F.len.frq]; exact F.lt), hki, F.solved.frq]
      exact List.getElem?_eq_getElem hfl
    · rw [hint, r2, eX, eY, eX', eY', sumSq_fin, sumSq_fin]
      simp only [Option.isSome_some, if_true]
      have hpr : powerRow (some w) Power.Pvv k = some w.Pvv[k.val] := List.getElem?_eq_getElem hPl
      rw [hpr]

/-! ## Counterexamples -/

/-- The facts about the harmonic of the example (`m2_pent`). -/
structure PentRot (z : ℂ) : Prop where
  h0 : m2 0.25 = conj z ^ 2
  h1 : m2 0.375 = conj z
  h2 : m2 0.5 = 1
  h3 : m2 0.625 = z
  h4 : m2 0.75 = z ^ 2
  hu : z.re ^ 2 + z.im ^ 2 = 1
  hr : 0 < z.re
  hi : 0 < z.im

theorem pent_rot : ∃ z, PentRot z := by
  obtain ⟨z, h0, h1, h2, h3, h4, hu, hr, hi⟩ := m2_pent
  exact ⟨z, h0, h1, h2, h3, h4, hu, hr, hi⟩

/-- A run of the example on a current. -/
def PentPair (z : ℂ) (wh : Bool) (x e d x' e' d' : ℝ) (c : Coef) : Prop :=
  PentRun (ciOpts "linear" wh) (ciOpt true true wh)
    (x * (z.re ^ 2 - z.im ^ 2) + e * (1 - z.re) + d * z.im)
    (x * z.re - e * (1 - (z.re ^ 2 - z.im ^ 2)) - d * (2 * z.re * z.im))
    (x + e * (2 * (z.re - (z.re ^ 2 - z.im ^ 2))))
    (x * z.re - e * (1 - (z.re ^ 2 - z.im ^ 2)) + d * (2 * z.re * z.im))
    (x * (z.re ^ 2 - z.im ^ 2) + e * (1 - z.re) - d * z.im) (some (pentData z x' e' d')) c

theorem pent_pair (z : ℂ) (wh : Bool) (x e d x' e' d' : ℝ) : ∃ c, PentPair z wh x e d x' e' d' c := by
  obtain ⟨c, Q, -⟩ := pent_ci (x * (z.re ^ 2 - z.im ^ 2) + e * (1 - z.re) + d * z.im)
    (x * z.re - e * (1 - (z.re ^ 2 - z.im ^ 2)) - d * (2 * z.re * z.im))
    (x + e * (2 * (z.re - (z.re ^ 2 - z.im ^ 2))))
    (x * z.re - e * (1 - (z.re ^ 2 - z.im ^ 2)) + d * (2 * z.re * z.im))
    (x * (z.re ^ 2 - z.im ^ 2) + e * (1 - z.re) - d * z.im) (some (pentData z x' e' d')) (.inr ⟨_, _, _, _, _, rfl⟩) wh
  exact ⟨c, Q⟩

theorem pent_like (wh : Bool) : LikeEx (ciOpt true true wh) := ⟨rfl, rfl, rfl, rfl, rfl⟩

theorem pent_pair_ready (z : ℂ) (x e d x' e' d' : ℝ) :
    Ready idealEnv pentT (pentData z x e d) (some (pentData z x' e' d')) :=
  pent_ready _ _ _ _ _ _ (.inr ⟨_, _, _, _, _, rfl⟩)

theorem pent_same {z z' : ℂ} {wh : Bool} {x e d x' e' d' y f g y' f' g' : ℝ} {c c' : Coef}
    (Q : PentPair z wh x e d x' e' d' c) (Q' : PentPair z' wh y f g y' f' g' c') : SameCurves c c' :=
  ⟨by rw [PentRun.opt Q, PentRun.opt Q'], by rw [PentRun.opt Q, PentRun.opt Q'], by rw [PentRun.reftime Q, PentRun.reftime Q'],
    by rw [PentRun.lat Q, PentRun.lat Q'], by rw [PentRun.name Q, PentRun.name Q']⟩

/-- The intervals of the example with white noise. -/
theorem pent_white {z : ℂ} (Z : PentRot z) {x e d x' e' d' : ℝ} {c : Coef} (Q : PentPair z true x e d x' e' d' c) :
    ∃ ci a b, c.ci = some ci ∧ Blue c [0.25, 0.375, 0.5, 0.625, 0.75] (fun q => q.X "M2") a ∧
      Blue c [0.25, 0.375, 0.5, 0.625, 0.75] (fun q => q.Y "M2") b ∧
      intervalAt ci 0 = some (linear2 none x 0 x' 0
        (sumSq (pentRes z e d) / 2 * sumSq a) (sumSq (pentRes z e d) / 2 * sumSq b)
        (sumSq (pentRes z e' d') / 2 * sumSq a) (sumSq (pentRes z e' d') / 2 * sumSq b)).1 := by
  have H : WhiteRun idealEnv pentT (pentData z x e d) (some (pentData z x' e' d')) (some 45) (ciOpts "linear" true) c pentTn :=
    ⟨PentRun.returned Q, by decide, ⟨.str "ols", rfl, .inl rfl⟩, by rw [PentRun.opt Q]; rfl, by rw [PentRun.opt Q]; rfl,
      by rw [PentRun.opt Q]; rfl, by rw [PentRun.opt Q]; rfl, PentRun.kept Q, by rw [PentRun.opt Q]; exact pent_times⟩
  obtain ⟨ci, qu, qv, hci, hqu, hqv, hall⟩ := white_facts (pent_pair_ready z x e d x' e' d') idealNum_ok.inv H
  obtain ⟨a, b, su, sv, ⟨e1, e2, e3, e4⟩, k1, k2, k3, k4, -, -, -, k8⟩ := hall 0 "M2" (by rw [PentRun.name Q]; rfl)
  obtain ⟨sU, sV⟩ := pent_sampleUV z x e d x' e' d'
  rw [pent_sampleTimes z x e d (some (pentData z x' e' d')) (.inr ⟨_, _, _, _, _, rfl⟩)] at hqu hqv k1 k2 k3 k4
  rw [e1, e2, e3, e4] at k8
  rw [sU] at hqu k3
  rw [sV] at hqv k4
  obtain ⟨b1, b2, -⟩ := pent_best Q (pent_like true) z Z.h0 Z.h1 Z.h2 Z.h3 Z.h4 Z.hu Z.hr Z.hi _ _ _ _ hqu
  obtain ⟨b3, b4, -⟩ := pent_best Q (pent_like true) z Z.h0 Z.h1 Z.h2 Z.h3 Z.h4 Z.hu Z.hr Z.hi _ _ _ _ hqv
  have n1 := pent_noise Q (pent_like true) z Z.h0 Z.h1 Z.h2 Z.h3 Z.h4 Z.hu Z.hr Z.hi _ _ _ _ k3
  have n2 := pent_noise Q (pent_like true) z Z.h0 Z.h1 Z.h2 Z.h3 Z.h4 Z.hu Z.hr Z.hi _ _ _ _ k4
  rw [b1, b2, b3, b4, n1, n2] at k8
  simp only [Option.isSome_some, if_true] at k8
  exact ⟨ci, a, b, hci, k1, k2, k8⟩

/-- The intervals of the example with coloured noise. -/
theorem pent_coloured {z : ℂ} (Z : PentRot z) {x e d x' e' d' : ℝ} {c : Coef} (Q : PentPair z false x e d x' e' d' c) :
    ∃ ci a b, c.ci = some ci ∧ Blue c [0.25, 0.375, 0.5, 0.625, 0.75] (fun q => q.X "M2") a ∧
      Blue c [0.25, 0.375, 0.5, 0.625, 0.75] (fun q => q.Y "M2") b ∧
      intervalAt ci 0 = some (linear2 (some (.fin (2 / 15 * (e' * ((1 - z.re) * (6 * z.re + 4))) ^ 2))) x 0 x' 0
        (sumSq (pentRes z e d) / 2 * sumSq a) (sumSq (pentRes z e d) / 2 * sumSq b)
        (sumSq (pentRes z e' d') / 2 * sumSq a) (sumSq (pentRes z e' d') / 2 * sumSq b)).1 := by
  have H : ColourRun idealEnv pentT (pentData z x e d) (some (pentData z x' e' d')) (some 45) (ciOpts "linear" false) c pentTn :=
    ⟨PentRun.returned Q, by decide, ⟨.str "ols", rfl, .inl rfl⟩, by rw [PentRun.opt Q]; rfl, by rw [PentRun.opt Q]; rfl,
      by rw [PentRun.opt Q]; rfl, by rw [PentRun.opt Q]; rfl, PentRun.kept Q, by rw [PentRun.opt Q]; exact pent_times⟩
  obtain ⟨ci, ed, qu, qv, frq, w, hci, hed, hqu, hqv, hperm, hw, hall⟩ :=
    colour_facts (pent_pair_ready z x e d x' e' d') idealNum_ok.inv H
  obtain ⟨a, b, su, sv, P, k, g, k1, k2, k3, k4, -, hk, hP, k8⟩ := hall 0 "M2" (by rw [PentRun.name Q]; rfl)
  obtain ⟨sU, sV⟩ := pent_sampleUV z x e d x' e' d'
  rw [pent_sampleTimes z x e d (some (pentData z x' e' d')) (.inr ⟨_, _, _, _, _, rfl⟩)] at hqu hqv hw k1 k2 k3 k4
  rw [sU] at hqu k3 hw
  rw [sV] at hqv k4 hw
  obtain ⟨b1, b2, b5⟩ := pent_best Q (pent_like false) z Z.h0 Z.h1 Z.h2 Z.h3 Z.h4 Z.hu Z.hr Z.hi _ _ _ _ hqu
  obtain ⟨b3, b4, b6⟩ := pent_best Q (pent_like false) z Z.h0 Z.h1 Z.h2 Z.h3 Z.h4 Z.hu Z.hr Z.hi _ _ _ _ hqv
  have n1 := pent_noise Q (pent_like false) z Z.h0 Z.h1 Z.h2 Z.h3 Z.h4 Z.hu Z.hr Z.hi _ _ _ _ k3
  have n2 := pent_noise Q (pent_like false) z Z.h0 Z.h1 Z.h2 Z.h3 Z.h4 Z.hu Z.hr Z.hi _ _ _ _ k4
  have hfrq : frq = [linFreqs 0.5 47] := List.perm_singleton.1 (by rw [← PentRun.frq Q]; exact hperm)
  subst hfrq
  have hk0 : k = 0 := by
    rcases k with _ | k
    · rfl
    · simp at hk
  subst hk0
  obtain ⟨e1, e2, e3, e4⟩ := pent_edited z x e d (some (pentData z x' e' d')) (.inr ⟨_, _, _, _, _, rfl⟩) _ (pent_like false) ed hed
  rw [b5, b6] at hw
  simp only [pentRes, List.zipWith_cons_cons, List.zipWith_nil_left] at hw
  obtain ⟨-, hPv⟩ := pent_power idealEnv.num ed e1 e2 e3 e4 _ _ _ _ _ w hw
  have hPe := Option.some.inj (hP.symm.trans hPv)
  dsimp only at hPe
  have hpw : e' * (2 * (z.re - (z.re ^ 2 - z.im ^ 2))) -
      (-(e' * (1 - (z.re ^ 2 - z.im ^ 2))) - d' * (2 * z.re * z.im) +
        (-(e' * (1 - (z.re ^ 2 - z.im ^ 2))) + d' * (2 * z.re * z.im))) / 2 = e' * ((1 - z.re) * (6 * z.re + 4)) := by
    have : z.im ^ 2 = 1 - z.re ^ 2 := by linarith [Z.hu]
    rw [this]; ring
  rw [hpw] at hPe
  rw [b1, b2, b3, b4, n1, n2, hPe] at k8
  exact ⟨ci, a, b, hci, k1, k2, k8⟩

/-- Where the power of the second component vanishes, only the first component counts. -/
theorem linear2_quiet (A B : ℝ) (hA : 0 < A) (hB : 0 ≤ B) : ∃ K, 0 < K ∧ ∀ s s' : ℝ, 0 ≤ s → 0 < s' →
    (linear2 (some (.fin 0)) 1 0 1 0 (s * A) (s * B) (s' * A) (s' * B)).1.maj = .fin (1.96 * Real.sqrt (s * K)) := by
  obtain ⟨v1, v2, v3, v4, v5, v6, v7, v8, v9, v10, v11, v12, v13, v14, v15, v16⟩ := dir_values
  obtain ⟨x, hx⟩ : ∃ x : Fin 4 → ℝ, x = ![1, 0, 1, 0] := ⟨_, rfl⟩
  have x0 : x 0 = 1 := by rw [hx]; rfl
  have x1 : x 1 = 0 := by rw [hx]; rfl
  have x2 : x 2 = 1 := by rw [hx]; rfl
  have x3 : x 3 = 0 := by rw [hx]; rfl
  have pr : (posC x).re = 1 / 2 := by rw [posC_re, x0, x3]; norm_num
  have pi : (posC x).im = 1 / 2 := by rw [posC_im, x1, x2]; norm_num
  have nr : (negC x).re = 1 / 2 := by rw [negC_re, x0, x3]; norm_num
  have ni : (negC x).im = 1 / 2 := by rw [negC_im, x1, x2]; norm_num
  have hp : posC x ≠ 0 := fun h => by rw [h] at pr; norm_num at pr
  have hm : negC x ≠ 0 := fun h => by rw [h] at nr; norm_num at nr
  have hpn : 0 < ‖posC x‖ := norm_pos_iff.2 hp
  have hmn : 0 < ‖negC x‖ := norm_pos_iff.2 hm
  obtain ⟨k0, hk0⟩ : ∃ k, k = dNorm (posC x) (dirP 0) + dNorm (negC x) (dirM 0) := ⟨_, rfl⟩
  obtain ⟨k1, hk1⟩ : ∃ k, k = dNorm (posC x) (dirP 1) + dNorm (negC x) (dirM 1) := ⟨_, rfl⟩
  have hk0p : 0 < k0 := by
    rw [hk0]
    unfold dNorm
    rw [pr, pi, nr, ni]
    simp only [v1, v2, v3, v4, v5, v6, v7, v8, v9, v10, v11, v12, v13, v14, v15, v16]
    positivity
  refine ⟨k0 ^ 2 * A + k1 ^ 2 * B, by positivity, fun s s' hs hs' => ?_⟩
  have hden : s' * A + s' * B ≠ 0 := by have := mul_pos hs' hA; have := mul_nonneg hs'.le hB; linarith
  have hre : ∀ a, rescale (.fin 0) a (s' * A + s' * B) = .fin 0 := by
    intro a
    show (if s' * A + s' * B = 0 then _ else Fl.fin (0 * a / (s' * A + s' * B))) = _
    rw [if_neg hden, zero_mul, zero_div]
  have e1 := linear2_eq (some (.fin 0)) x ![Real.sqrt (s * A), Real.sqrt (s * B), 0, 0] ![s * A, s * B, s' * A, s' * B]
    (fun i => by fin_cases i <;> first | exact Real.sqrt_nonneg _ | exact le_refl _)
    (by
      show (⟨.fin (s * A), .fin (s * B), rescale (.fin 0) (s' * A) (s' * A + s' * B), rescale (.fin 0) (s' * B) (s' * A + s' * B)⟩ : Vars) =
        ⟨.fin (Real.sqrt (s * A) ^ 2), .fin (Real.sqrt (s * B) ^ 2), .fin (0 ^ 2), .fin (0 ^ 2)⟩
      rw [hre, hre, Real.sq_sqrt (by positivity), Real.sq_sqrt (by positivity)]
      norm_num)
  rw [utLinci_eq x _ hp hm, x0, x1, x2, x3] at e1
  rw [show linear2 (some (.fin 0)) 1 0 1 0 (s * A) (s * B) (s' * A) (s' * B) = linear2 (some (.fin 0)) 1 0 1 0
    ((![s * A, s * B, s' * A, s' * B] : Fin 4 → ℝ) 0) ((![s * A, s * B, s' * A, s' * B] : Fin 4 → ℝ) 1)
    ((![s * A, s * B, s' * A, s' * B] : Fin 4 → ℝ) 2) ((![s * A, s * B, s' * A, s' * B] : Fin 4 → ℝ) 3) from rfl, e1]
  show Fl.fin (1.96 * Real.sqrt _) = _
  congr 3
  rw [Fin.sum_univ_four, ← hk0, ← hk1]
  show (k0 * Real.sqrt (s * A)) ^ 2 + (k1 * Real.sqrt (s * B)) ^ 2 + (_ * 0) ^ 2 + (_ * 0) ^ 2 = _
  rw [mul_pow, mul_pow, Real.sq_sqrt (by positivity), Real.sq_sqrt (by positivity)]
  ring

/-- **C52** is false: of a current with coloured noise, only the variances of the second component are rescaled to the
noise spectrum, so the answer depends on which component comes first. -/
theorem C52_false : ¬ C52_full := by
  intro h
  obtain ⟨z, Z⟩ := pent_rot
  obtain ⟨c, Q⟩ := pent_pair z false 1 0 1 1 0 2
  obtain ⟨c', Q'⟩ := pent_pair z false 1 0 2 1 0 1
  obtain ⟨ci, a, b, hci, hX, hY, hr⟩ := pent_coloured Z Q
  obtain ⟨ci', a', b', hci', hX', hY', hr'⟩ := pent_coloured Z Q'
  cases ((pent_same Q Q').blue hX').unique hX
  cases ((pent_same Q Q').blue hY').unique hY
  have hA : 0 < sumSq a := hX.sumSq_pos ⟨fun _ => 1, fun _ => 0, 0, 0⟩ (fun _ => rfl) rfl
  obtain ⟨K, hK, hmaj⟩ := linear2_quiet (sumSq a) (sumSq b) hA (sumSq_nonneg b)
  obtain ⟨h1, -⟩ := h idealEnv pentT (pentData z 1 0 1) (pentData z 1 0 2) (some 45) (ciOpts "linear" false) c c' ci ci'
    (pent_pair_ready z 1 0 1 1 0 2) idealNum_ok (by decide) ⟨.str "linear", rfl, .inl rfl⟩ (PentRun.returned Q)
    (PentRun.returned Q') hci hci' 0 0 "M2" _ _ (by rw [PentRun.name Q]; rfl) (by rw [PentRun.name Q']; rfl) hr hr'
  have hS : ∀ d, sumSq (pentRes z 0 d) = d ^ 2 * (2 * (z.im ^ 2 + (2 * z.re * z.im) ^ 2)) := by
    intro d
    simp only [sumSq, pentRes, List.map_cons, List.map_nil, List.sum_cons, List.sum_nil]
    ring
  have hi := Z.hi
  have hre := Z.hr
  have hpos : 0 < 2 * (z.im ^ 2 + (2 * z.re * z.im) ^ 2) := by positivity
  simp only [hS] at h1
  generalize 2 * (z.im ^ 2 + (2 * z.re * z.im) ^ 2) = S at h1 hpos
  have e0 : (2 / 15 * (0 * ((1 - z.re) * (6 * z.re + 4))) ^ 2 : ℝ) = 0 := by ring
  rw [e0, hmaj _ _ (by positivity) (by positivity), hmaj _ _ (by positivity) (by positivity)] at h1
  have h2 := Fl.fin.inj h1
  have h3 : Real.sqrt (2 ^ 2 * S / 2 * K) = Real.sqrt (1 ^ 2 * S / 2 * K) := by linarith
  rw [Real.sqrt_inj (by positivity) (by positivity)] at h3
  have : 0 < S * K := mul_pos hpos hK
  linarith

/-- The condition on the cosine coefficients in `C52_partial` is needed: a current along the first axis with noise along
the second has no interval for its minor axis; along the second axis with noise along the first, it has. -/
theorem C52_false_white : ¬ ∀ (E : Env) (t : TimeArg) (u v : Series) (lat : Option ℝ) (opts : Dict PyVal) (c c' : Coef)
    (tn : List Fl) (ci ci' : CiArr), Ready E t u (some v) → NumOk E.num → WhiteRun E t u (some v) lat opts c tn →
    WhiteRun E t v (some u) lat opts c' tn → c.ci = some ci → c'.ci = some ci' →
    ∀ (i j : ℕ) (n : String) (r r' : Ci1), c.name[i]? = some n → c'.name[j]? = some n → intervalAt ci i = some r →
      intervalAt ci' j = some r' → r'.min = r.min := by
  intro h
  obtain ⟨z, Z⟩ := pent_rot
  obtain ⟨c, Q⟩ := pent_pair z true 1 0 0 0 0 1
  obtain ⟨c', Q'⟩ := pent_pair z true 0 0 1 1 0 0
  obtain ⟨ci, a, b, hci, hX, hY, hr⟩ := pent_white Z Q
  obtain ⟨ci', a', b', hci', hX', hY', hr'⟩ := pent_white Z Q'
  have h1 := h idealEnv pentT (pentData z 1 0 0) (pentData z 0 0 1) (some 45) (ciOpts "linear" true) c c' pentTn ci ci'
    (pent_pair_ready z 1 0 0 0 0 1) idealNum_ok
    ⟨PentRun.returned Q, by decide, ⟨.str "ols", rfl, .inl rfl⟩, by rw [PentRun.opt Q]; rfl, by rw [PentRun.opt Q]; rfl,
      by rw [PentRun.opt Q]; rfl, by rw [PentRun.opt Q]; rfl, PentRun.kept Q, by rw [PentRun.opt Q]; exact pent_times⟩
    ⟨PentRun.returned Q', by decide, ⟨.str "ols", rfl, .inl rfl⟩, by rw [PentRun.opt Q']; rfl, by rw [PentRun.opt Q']; rfl,
      by rw [PentRun.opt Q']; rfl, by rw [PentRun.opt Q']; rfl, PentRun.kept Q', by rw [PentRun.opt Q']; exact pent_times⟩
    hci hci' 0 0 "M2" _ _ (by rw [PentRun.name Q]; rfl) (by rw [PentRun.name Q']; rfl) hr hr'
  have hB : 0 < sumSq b' := hY'.sumSq_pos ⟨fun _ => 0, fun _ => 1, 0, 0⟩ (fun _ => rfl) rfl
  have hA : 0 ≤ sumSq a' := sumSq_nonneg _
  have hS : ∀ d, sumSq (pentRes z 0 d) = d ^ 2 * (2 * (z.im ^ 2 + (2 * z.re * z.im) ^ 2)) := by
    intro d
    simp only [sumSq, pentRes, List.map_cons, List.map_nil, List.sum_cons, List.sum_nil]
    ring
  have hi := Z.hi
  have hre := Z.hr
  have hpos : 0 < 2 * (z.im ^ 2 + (2 * z.re * z.im) ^ 2) := by positivity
  simp only [hS] at h1
  generalize 2 * (z.im ^ 2 + (2 * z.re * z.im) ^ 2) = S at h1 hpos
  have hr0 : ∀ p q s t : ℝ, (linear2 none 1 0 0 0 p q s t).1.min = .fin 0 := by
    intro p q s t
    simp [linear2, utLinci2, utLinci, fin_mul]
  rw [hr0] at h1
  have e0 : ∀ A : ℝ, 0 ^ 2 * S / 2 * A = 0 := by intro A; ring
  rw [e0, e0, show (1 : ℝ) ^ 2 * S / 2 = S / 2 by ring] at h1
  obtain ⟨v1, v2, v3, v4, v5, v6, v7, v8, v9, v10, v11, v12, v13, v14, v15, v16⟩ := dir_values
  obtain ⟨x, hx⟩ : ∃ x : Fin 4 → ℝ, x = ![0, 0, 1, 0] := ⟨_, rfl⟩
  have x0 : x 0 = 0 := by rw [hx]; rfl
  have x1 : x 1 = 0 := by rw [hx]; rfl
  have x2 : x 2 = 1 := by rw [hx]; rfl
  have x3 : x 3 = 0 := by rw [hx]; rfl
  have pr : (posC x).re = 0 := by rw [posC_re, x0, x3]; norm_num
  have pi : (posC x).im = 1 / 2 := by rw [posC_im, x1, x2]; norm_num
  have nr : (negC x).re = 0 := by rw [negC_re, x0, x3]; norm_num
  have ni : (negC x).im = 1 / 2 := by rw [negC_im, x1, x2]; norm_num
  have hp : posC x ≠ 0 := fun h => by rw [h] at pi; norm_num at pi
  have hm : negC x ≠ 0 := fun h => by rw [h] at ni; norm_num at ni
  have hpn : 0 < ‖posC x‖ := norm_pos_iff.2 hp
  have hmn : 0 < ‖negC x‖ := norm_pos_iff.2 hm
  obtain ⟨k1, hk1⟩ : ∃ k, k = dNorm (posC x) (dirP 1) - dNorm (negC x) (dirM 1) := ⟨_, rfl⟩
  have hk1n : k1 < 0 := by
    rw [hk1]
    unfold dNorm
    rw [pr, pi, nr, ni]
    simp only [v1, v2, v3, v4, v5, v6, v7, v8, v9, v10, v11, v12, v13, v14, v15, v16]
    have e1 : (0 * 0 + 1 / 2 * -(1 / 2)) / ‖posC x‖ < 0 := div_neg_of_neg_of_pos (by norm_num) hpn
    have e2 : 0 < (0 * 0 + 1 / 2 * (1 / 2)) / ‖negC x‖ := div_pos (by norm_num) hmn
    linarith
  have hsa : 0 ≤ S / 2 * sumSq a' := by positivity
  have hsb : 0 < S / 2 * sumSq b' := by positivity
  have e1 := linear2_eq none x ![Real.sqrt (S / 2 * sumSq a'), Real.sqrt (S / 2 * sumSq b'), 0, 0]
    ![S / 2 * sumSq a', S / 2 * sumSq b', 0, 0]
    (fun i => by fin_cases i <;> first | exact Real.sqrt_nonneg _ | exact le_refl _)
    (by simp [linear2, Real.sq_sqrt hsa, Real.sq_sqrt hsb.le])
  rw [utLinci_eq x _ hp hm, if_neg (by rw [x2]; norm_num), x0, x1, x2, x3] at e1
  rw [show linear2 none 0 0 1 0 (S / 2 * sumSq a') (S / 2 * sumSq b') 0 0 = linear2 none 0 0 1 0
    ((![S / 2 * sumSq a', S / 2 * sumSq b', 0, 0] : Fin 4 → ℝ) 0) ((![S / 2 * sumSq a', S / 2 * sumSq b', 0, 0] : Fin 4 → ℝ) 1)
    ((![S / 2 * sumSq a', S / 2 * sumSq b', 0, 0] : Fin 4 → ℝ) 2) ((![S / 2 * sumSq a', S / 2 * sumSq b', 0, 0] : Fin 4 → ℝ) 3)
    from rfl, e1] at h1
  have h2 := Fl.fin.inj (show Fl.fin (1.96 * Real.sqrt _) = _ from h1)
  have h3 : Real.sqrt (∑ i, ((dNorm (posC x) (dirP i) - dNorm (negC x) (dirM i)) *
    (![Real.sqrt (S / 2 * sumSq a'), Real.sqrt (S / 2 * sumSq b'), 0, 0] : Fin 4 → ℝ) i) ^ 2) = 0 := by linarith
  rw [Real.sqrt_eq_zero (Finset.sum_nonneg fun i _ => sq_nonneg _), Finset.sum_eq_zero_iff_of_nonneg (fun i _ => sq_nonneg _)] at h3
  have h4 := h3 1 (Finset.mem_univ 1)
  rw [← hk1] at h4
  have h5 : k1 * Real.sqrt (S / 2 * sumSq b') = 0 := pow_eq_zero_iff two_ne_zero |>.1 h4
  rcases mul_eq_zero.1 h5 with h6 | h6
  · exact hk1n.ne h6
  · exact (Real.sqrt_pos.2 hsb).ne' h6

/-- Non-vacuity of `C52_partial`: two noisy components with different noise, and cosine coefficients that are not zero. -/
example : ∃ u v c c', WhiteRun idealEnv pentT u (some v) (some 45) (ciOpts "linear" true) c pentTn ∧
    WhiteRun idealEnv pentT v (some u) (some 45) (ciOpts "linear" true) c' pentTn ∧
    ∃ qu qv, BestFit c (sampleTimes pentTn u (some v)) (sampleU pentTn u (some v)) qu ∧
      BestFit c (sampleTimes pentTn u (some v)) (sampleV pentTn u (some v)) qv ∧ c.name[0]? = some "M2" ∧
      c'.name[0]? = some "M2" ∧ qu.X "M2" = 1 ∧ qv.X "M2" = 2 := by
  obtain ⟨z, Z⟩ := pent_rot
  obtain ⟨c, Q⟩ := pent_pair z true 1 1 0 2 0 1
  obtain ⟨c', Q'⟩ := pent_pair z true 2 0 1 1 1 0
  have H : WhiteRun idealEnv pentT (pentData z 1 1 0) (some (pentData z 2 0 1)) (some 45) (ciOpts "linear" true) c pentTn :=
    ⟨PentRun.returned Q, by decide, ⟨.str "ols", rfl, .inl rfl⟩, by rw [PentRun.opt Q]; rfl, by rw [PentRun.opt Q]; rfl,
      by rw [PentRun.opt Q]; rfl, by rw [PentRun.opt Q]; rfl, PentRun.kept Q, by rw [PentRun.opt Q]; exact pent_times⟩
  have H' : WhiteRun idealEnv pentT (pentData z 2 0 1) (some (pentData z 1 1 0)) (some 45) (ciOpts "linear" true) c' pentTn :=
    ⟨PentRun.returned Q', by decide, ⟨.str "ols", rfl, .inl rfl⟩, by rw [PentRun.opt Q']; rfl, by rw [PentRun.opt Q']; rfl,
      by rw [PentRun.opt Q']; rfl, by rw [PentRun.opt Q']; rfl, PentRun.kept Q', by rw [PentRun.opt Q']; exact pent_times⟩
  obtain ⟨ci, ci', qu, qv, -, -, hqu, hqv, -⟩ := C52_partial (pent_pair_ready z 1 1 0 2 0 1) idealNum_ok.inv H H'
  refine ⟨_, _, c, c', H, H', qu, qv, hqu, hqv, by rw [PentRun.name Q]; rfl, by rw [PentRun.name Q']; rfl, ?_, ?_⟩
  · rw [pent_sampleTimes z 1 1 0 (some (pentData z 2 0 1)) (.inr ⟨_, _, _, _, _, rfl⟩), (pent_sampleUV z 1 1 0 2 0 1).1] at hqu
    exact (pent_best Q (pent_like true) z Z.h0 Z.h1 Z.h2 Z.h3 Z.h4 Z.hu Z.hr Z.hi _ _ _ _ hqu).1
  · rw [pent_sampleTimes z 1 1 0 (some (pentData z 2 0 1)) (.inr ⟨_, _, _, _, _, rfl⟩), (pent_sampleUV z 1 1 0 2 0 1).2] at hqv
    exact (pent_best Q (pent_like true) z Z.h0 Z.h1 Z.h2 Z.h3 Z.h4 Z.hu Z.hr Z.hi _ _ _ _ hqv).1

end

end UTide.Props
