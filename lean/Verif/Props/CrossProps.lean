import Verif.Props.PsdProps

/-!
# C61: the co-spectrum is bounded by the auto-spectra
-/

namespace UTide

namespace Props

noncomputable section

open Classical
open Complex (I)

local notation "conj" => starRingEnd ℂ

/-- Auto- and cross-spectral values at one frequency of a common scale `c`. -/
def CrossAt (c : ℝ) (p q r : ℂ) : Prop :=
  ∃ a b : ℝ, 0 ≤ a ∧ 0 ≤ b ∧ p = ((c * a ^ 2 : ℝ) : ℂ) ∧ q = ((c * b ^ 2 : ℝ) : ℂ) ∧ ‖r‖ = |c| * (a * b)

/-- Three spectra of equal length related frequency by frequency. -/
structure CrossOk (n : ℕ) (s : Spectra) : Prop where
  lenX : s.Pxx.length = n
  lenY : s.Pyy.length = n
  lenXY : s.Pxy.length = n
  scale : ∃ c, ∀ i < n, CrossAt c (s.Pxx.getD i 0) (s.Pyy.getD i 0) (s.Pxy.getD i 0)

/-- Cauchy-Schwarz for sums over a list. -/
theorem list_cauchy (l : List ℕ) (a b : ℕ → ℝ) :
    (l.map fun i => a i * b i).sum ^ 2 ≤ (l.map fun i => a i ^ 2).sum * (l.map fun i => b i ^ 2).sum := by
  have e : ∀ g : ℕ → ℝ, (l.map g).sum = ∑ i : Fin l.length, g (l.get i) := by
    intro g
    rw [← List.sum_ofFn]
    congr 1
    apply List.ext_getElem <;> simp
  rw [e, e, e]
  exact Finset.sum_mul_sq_le_sq_mul_sq Finset.univ (fun i => a (l.get i)) (fun i => b (l.get i))

theorem list_norm_sum (l : List ℕ) (f : ℕ → ℂ) : ‖(l.map f).sum‖ ≤ (l.map fun i => ‖f i‖).sum := by
  induction l with
  | nil => simp
  | cons a l ih =>
    simp only [List.map_cons, List.sum_cons]
    exact (norm_add_le _ _).trans (by linarith)

/-- Band means of such spectra. -/
theorem cross_mean (n : ℕ) (s : Spectra) (h : CrossOk n s) (l : List ℕ) (hl : ∀ i ∈ l, i < n) (hne : l ≠ []) :
    ∃ a b : ℝ, bandMean (l.map fun i => s.Pxx.getD i 0) = some (a : ℂ) ∧
      bandMean (l.map fun i => s.Pyy.getD i 0) = some (b : ℂ) ∧
      ∃ z, bandMean (l.map fun i => s.Pxy.getD i 0) = some z ∧ ‖z‖ ^ 2 ≤ a * b := by
  obtain ⟨c, hc⟩ := h.scale
  choose! a b ha hb hp hq hr using hc
  have hlen : (0 : ℝ) < l.length := by exact_mod_cast List.length_pos_iff.mpr hne
  have hre : ∀ (P : List ℂ) (g : ℕ → ℝ), (∀ i < n, P.getD i 0 = ((c * g i ^ 2 : ℝ) : ℂ)) →
      bandMean (l.map fun i => P.getD i 0) = some ((c * (l.map fun i => g i ^ 2).sum / l.length : ℝ) : ℂ) := by
    intro P g hg
    unfold bandMean
    rw [if_neg (by simpa using hne), List.length_map]
    congr 1
    push_cast
    congr 1
    rw [List.map_congr_left fun i hi => hg i (hl i hi)]
    have h1 := map_list_sum Complex.ofRealHom (l.map fun i => c * g i ^ 2)
    rw [List.map_map] at h1
    rw [List.sum_map_mul_left] at h1
    have h2 : (Complex.ofRealHom ∘ fun i => c * g i ^ 2) = fun i => (c : ℂ) * (g i : ℂ) ^ 2 := by
      funext i; simp
    rw [h2] at h1
    simpa using h1.symm
  refine ⟨_, _, hre _ a hp, hre _ b hq, _, by unfold bandMean; rw [if_neg (by simpa using hne)], ?_⟩
  rw [List.length_map]
  have hz : ‖(l.map fun i => s.Pxy.getD i 0).sum‖ ≤ |c| * (l.map fun i => a i * b i).sum := by
    refine (list_norm_sum l _).trans ?_
    rw [← List.sum_map_mul_left]
    rw [List.map_congr_left fun i hi => hr i (hl i hi)]
  have hcs := list_cauchy l a b
  rw [norm_div, Complex.norm_natCast, div_pow]
  rw [show c * (l.map fun i => a i ^ 2).sum / (l.length : ℝ) * (c * (l.map fun i => b i ^ 2).sum / l.length) =
    c ^ 2 * ((l.map fun i => a i ^ 2).sum * (l.map fun i => b i ^ 2).sum) / (l.length : ℝ) ^ 2 by ring]
  refine div_le_div_of_nonneg_right ?_ (by positivity)
  calc ‖(l.map fun i => s.Pxy.getD i 0).sum‖ ^ 2 ≤ (|c| * (l.map fun i => a i * b i).sum) ^ 2 :=
        pow_le_pow_left₀ (norm_nonneg _) hz 2
    _ = c ^ 2 * (l.map fun i => a i * b i).sum ^ 2 := by rw [mul_pow, sq_abs]
    _ ≤ _ := mul_le_mul_of_nonneg_left hcs (sq_nonneg c)

/-! ## The two kinds of spectra -/

theorem getD_range_map {α : Type} (n : ℕ) (g : ℕ → α) (d : α) (i : ℕ) (hi : i < n) :
    ((List.range n).map g).getD i d = g i := by
  rw [List.getD_eq_getElem _ _ (by simpa using hi)]
  simp

theorem fft_cross (e : List ℂ) (w : List ℝ) (fs : ℝ) (m : ℕ) (he : e.length = 2 * m) (hw : w.length = e.length) :
    CrossOk (m + 1) { Pxx := psd false (e.map fun z => (z.re : ℂ)) w fs,
                      Pyy := psd false (e.map fun z => (z.im : ℂ)) w fs, Pxy := psd true e w fs } := by
  have e1 : (e.map fun z => (z.re : ℂ)).map Complex.re = e.map Complex.re := by
    rw [List.map_map]; rfl
  have e2 : (e.map fun z => (z.im : ℂ)).map Complex.re = e.map Complex.im := by
    rw [List.map_map]; rfl
  rw [psd_auto _ w fs m (by simpa using he) (by simpa using hw),
    psd_auto _ w fs m (by simpa using he) (by simpa using hw), psd_cross e w fs m he hw, e1, e2]
  refine ⟨by simp, by simp, by simp, 1 / fs * (1 / energy w), fun i hi => ?_⟩
  dsimp only
  rw [getD_range_map _ _ _ _ hi, getD_range_map _ _ _ _ hi, getD_range_map _ _ _ _ hi]
  have hs := (sided_pos m i).le
  refine ⟨Real.sqrt (sided m i) * ‖dft (tapered (e.map Complex.re) w) i‖,
    Real.sqrt (sided m i) * ‖dft (tapered (e.map Complex.im) w) i‖, by positivity, by positivity, ?_, ?_, ?_⟩
  · rw [mul_pow, Real.sq_sqrt hs]
  · rw [mul_pow, Real.sq_sqrt hs]
  · rw [norm_mul, norm_mul, norm_mul, Complex.norm_conj, Complex.norm_real, Complex.norm_real, Real.norm_eq_abs,
      Real.norm_eq_abs, abs_of_nonneg hs]
    rw [show Real.sqrt (sided m i) * ‖dft (tapered (e.map Complex.re) w) i‖ *
      (Real.sqrt (sided m i) * ‖dft (tapered (e.map Complex.im) w) i‖) =
      Real.sqrt (sided m i) ^ 2 * (‖dft (tapered (e.map Complex.re) w) i‖ *
        ‖dft (tapered (e.map Complex.im) w) i‖) by ring, Real.sq_sqrt hs]

theorem lsCC_nonneg (t : List ℝ) (w : ℝ) : 0 ≤ lsCC t w := by
  unfold lsCC
  exact List.sum_nonneg (by intro y hy; obtain ⟨b, -, rfl⟩ := List.mem_map.1 hy; positivity)

theorem lsSS_nonneg (t : List ℝ) (w : ℝ) : 0 ≤ lsSS t w := by
  unfold lsSS
  exact List.sum_nonneg (by intro y hy; obtain ⟨b, -, rfl⟩ := List.mem_map.1 hy; positivity)

/-- The complex amplitude used by `_ls_cross`. -/
def lsAmp (t x : List ℝ) (w : ℝ) : ℂ :=
  ⟨1 / Real.sqrt (lsCC t w) * lsXC t x w, 1 / Real.sqrt (lsSS t w) * lsXS t x w⟩

theorem lsAmp_sq (t x : List ℝ) (w : ℝ) :
    ‖lsAmp t x w‖ ^ 2 = lsXC t x w ^ 2 / lsCC t w + lsXS t x w ^ 2 / lsSS t w := by
  rw [← Complex.normSq_eq_norm_sq, Complex.normSq_apply]
  unfold lsAmp
  dsimp only
  have h1 : (1 / Real.sqrt (lsCC t w)) ^ 2 = 1 / lsCC t w := by
    rw [div_pow, Real.sq_sqrt (lsCC_nonneg t w), one_pow]
  have h2 : (1 / Real.sqrt (lsSS t w)) ^ 2 = 1 / lsSS t w := by
    rw [div_pow, Real.sq_sqrt (lsSS_nonneg t w), one_pow]
  calc _ = (1 / Real.sqrt (lsCC t w)) ^ 2 * lsXC t x w ^ 2 + (1 / Real.sqrt (lsSS t w)) ^ 2 * lsXS t x w ^ 2 := by ring
    _ = _ := by rw [h1, h2]; ring

theorem lsCross_eq (t : List ℝ) (x : List ℂ) (w : ℝ) :
    lsCross t x w = 0.5 * (lsAmp t (x.map Complex.re) w * conj (lsAmp t (x.map Complex.im) w)) := by
  unfold lsCross
  dsimp only
  have hf : Complex.exp (I * lsTau t w) * conj (Complex.exp (I * lsTau t w)) = 1 := by
    rw [Complex.mul_conj, Complex.normSq_eq_norm_sq, mul_comm, Complex.norm_exp_ofReal_mul_I]
    simp
  have hy : (⟨1 / Real.sqrt (lsCC t w) * lsXC t (x.map Complex.im) w,
      -(1 / Real.sqrt (lsSS t w)) * lsXS t (x.map Complex.im) w⟩ : ℂ) = conj (lsAmp t (x.map Complex.im) w) := by
    apply Complex.ext
    · simp [lsAmp]
    · simp [lsAmp]
  rw [hy]
  rw [show lsAmp t (x.map Complex.re) w * conj (lsAmp t (x.map Complex.im) w) =
    lsAmp t (x.map Complex.re) w * conj (lsAmp t (x.map Complex.im) w) * 1 by ring, ← hf]
  unfold lsAmp
  ring

theorem lomb_cross (N : Num) (hN : LombOk N.lombscargle) (t : List ℝ) (x : List ℂ) (window freq : List ℝ)
    (s : Spectra) (hl : x.length = t.length) (h : psdLomb N t x window freq = .ok s) : CrossOk freq.length s := by
  unfold psdLomb at h
  simp only at h
  split at h
  · cases h
  rename_i hguard
  rw [Except.ok.injEq] at h
  subst h
  set xdm := List.zipWith (fun z (w : ℝ) => z * (w : ℂ)) (x.map fun z => z - cmean x) (lombWindow t window) with hx
  have hxl : xdm.length = t.length := by rw [hx]; simp [lombWindow, hl]
  refine ⟨by simp, by simp, by simp,
    2 * ((t.getLastD 0 - t.headD 0) / ((x.length : ℝ) - 1)) * x.length / windowPower (lombWindow t window), ?_⟩
  intro i hi
  have hf : ∀ g : ℝ → ℂ, ((freq.map fun f => f * 2 * Real.pi).map g).getD i 0 = g (freq[i] * 2 * Real.pi) := by
    intro g
    rw [List.getD_eq_getElem _ _ (by simpa using hi)]
    simp
  dsimp only
  rw [hf, hf, hf]
  have hnz : ¬ (lsCC t (freq[i] * 2 * Real.pi) = 0 ∨ lsSS t (freq[i] * 2 * Real.pi) = 0) := by
    intro hc
    refine hguard ?_
    rw [List.any_eq_true]
    exact ⟨_, List.mem_map.2 ⟨freq[i], List.getElem_mem _, rfl⟩, by simpa using hc⟩
  rw [not_or] at hnz
  rw [hN t _ _ hnz.1 hnz.2 (by simp [hxl]), hN t _ _ hnz.1 hnz.2 (by simp [hxl]), lsCross_eq,
    ← lsAmp_sq, ← lsAmp_sq]
  have h05 : (0.5 : ℝ) = Real.sqrt 0.5 ^ 2 := (Real.sq_sqrt (by norm_num)).symm
  refine ⟨Real.sqrt 0.5 * ‖lsAmp t (xdm.map Complex.re) (freq[i] * 2 * Real.pi)‖,
    Real.sqrt 0.5 * ‖lsAmp t (xdm.map Complex.im) (freq[i] * 2 * Real.pi)‖, by positivity, by positivity, ?_, ?_, ?_⟩
  · rw [mul_pow, ← h05]; push_cast; ring
  · rw [mul_pow, ← h05]; push_cast; ring
  · rw [norm_mul, norm_mul, norm_mul, Complex.norm_conj, Complex.norm_real, Real.norm_eq_abs]
    rw [show Real.sqrt 0.5 * ‖lsAmp t (xdm.map Complex.re) (freq[i] * 2 * Real.pi)‖ *
      (Real.sqrt 0.5 * ‖lsAmp t (xdm.map Complex.im) (freq[i] * 2 * Real.pi)‖) =
      Real.sqrt 0.5 ^ 2 * (‖lsAmp t (xdm.map Complex.re) (freq[i] * 2 * Real.pi)‖ *
        ‖lsAmp t (xdm.map Complex.im) (freq[i] * 2 * Real.pi)‖) by ring, ← h05]
    norm_num

theorem evenPart_length {α : Type} (l : List α) : ∃ m, (evenPart l).length = 2 * m := by
  unfold evenPart
  split
  · exact ⟨l.length / 2, by rw [List.length_dropLast]; omega⟩
  · exact ⟨l.length / 2, by omega⟩

theorem spectra_cross (N : Num) (hN : LombOk N.lombscargle) (t : List ℝ) (e : List ℂ) (equi : Bool) (s : Spectra)
    (f : List ℝ) (m : ℕ) (he : e.length = 2 * m) (ht : t.length = e.length)
    (h : bandSpectra N t e equi = .ok (s, f)) : CrossOk f.length s := by
  unfold bandSpectra at h
  cases equi with
  | true =>
    simp only [if_true] at h
    split at h
    · split at h
      · cases h
      · simp only [Except.ok.injEq, Prod.mk.injEq] at h
        obtain ⟨rfl, rfl⟩ := h
        rw [show ((List.range (e.length / 2 + 1)).map _).length = m + 1 by simp; omega]
        exact fft_cross e _ _ m he (by simp [hann])
    · cases h
  | false =>
    simp only [Bool.false_eq_true, if_false] at h
    split at h
    · cases h
    split at h
    · cases h
    simp only [bind, Except.bind] at h
    split at h
    · cases h
    rename_i s' hs'
    simp only [pure, Except.pure, Except.ok.injEq, Prod.mk.injEq] at h
    obtain ⟨rfl, rfl⟩ := h
    exact lomb_cross N hN _ e _ _ _ (by simp [ht]) hs'

/-- **C61.** For every vector series, on evenly spaced times or not, the three spectra have nine values; in each
band either all three are NaN or they are real with `Puv ^ 2 ≤ Puu * Pvv`. -/
theorem C61_bounded (N : Num) (hN : LombOk N.lombscargle) (t : List ℝ) (e : List ℂ) (cfrq : List ℝ) (equi : Bool)
    (ht : t.length = e.length) (r : BandPsd) (h : bandPsd N t e cfrq equi = .ok r) :
    r.Puu.length = noiseBands.length ∧ r.Pvv.length = noiseBands.length ∧ r.Puv.length = noiseBands.length ∧
    ∀ k < noiseBands.length,
      (r.Puu[k]? = some none ∧ r.Pvv[k]? = some none ∧ r.Puv[k]? = some none) ∨
      ∃ a b c : ℝ, r.Puu[k]? = some (some (a : ℂ)) ∧ r.Pvv[k]? = some (some (b : ℂ)) ∧
        r.Puv[k]? = some (some (c : ℂ)) ∧ c ^ 2 ≤ a * b := by
  unfold bandPsd at h
  simp only [bind, Except.bind] at h
  split at h
  · cases h
  rename_i sf hsf
  obtain ⟨s, f⟩ := sf
  obtain ⟨m, hm⟩ := evenPart_length e
  have hcross := spectra_cross N hN _ _ equi s f m hm (by
    unfold evenPart
    split <;> simp [ht]) hsf
  dsimp only at h
  unfold fbndavg at h
  by_cases hne : f = []
  · rw [if_pos hne] at h; cases h
  simp only [if_neg hne, pure, Except.pure, Except.ok.injEq] at h
  subst h
  have hbl : freqBands.length = noiseBands.length := by rw [← bands_eq]; simp
  refine ⟨by simp [hbl], by simp [hbl], by simp [hbl], fun k hk => ?_⟩
  have hk' : k < freqBands.length := by rwa [hbl]
  simp only [List.getElem?_map, List.getElem?_eq_getElem hk', Option.map_some]
  rw [bandValues_eq _ _ _ _ hcross.lenX, bandValues_eq _ _ _ _ hcross.lenY, bandValues_eq _ _ _ _ hcross.lenXY]
  set l := usedIdx f (cfrq.map (nearestIndex f)) freqBands[k] with hl
  by_cases hle : l = []
  · left
    simp [hle, bandMean]
  · right
    have hlt : ∀ i ∈ l, i < f.length := by
      intro i hi
      rw [hl, mem_usedIdx] at hi
      exact hi.1.2.2
    obtain ⟨a, b, h1, h2, z, h3, h4⟩ := cross_mean f.length s hcross l hlt hle
    refine ⟨a, b, z.re, by rw [h1], by rw [h2], by rw [h3]; rfl, ?_⟩
    refine le_trans ?_ h4
    rw [← Complex.normSq_eq_norm_sq, Complex.normSq_apply]
    nlinarith [sq_nonneg z.im]

/-- Equal components give equal spectra. -/
theorem spectra_equal (N : Num) (hN : LombOk N.lombscargle) (t : List ℝ) (e : List ℂ) (equi : Bool) (s : Spectra)
    (f : List ℝ) (m : ℕ) (he : e.length = 2 * m) (ht : t.length = e.length) (huv : ∀ z ∈ e, z.re = z.im)
    (h : bandSpectra N t e equi = .ok (s, f)) : s.Pyy = s.Pxx ∧ s.Pxy = s.Pxx := by
  have hre : e.map Complex.im = e.map Complex.re := List.map_congr_left fun z hz => (huv z hz).symm
  unfold bandSpectra at h
  cases equi with
  | true =>
    simp only [if_true] at h
    split at h
    · split at h
      · cases h
      · simp only [Except.ok.injEq, Prod.mk.injEq] at h
        obtain ⟨rfl, rfl⟩ := h
        dsimp only
        have e1 : (e.map fun z => (z.im : ℂ)) = e.map fun z => (z.re : ℂ) :=
          List.map_congr_left fun z hz => by rw [huv z hz]
        refine ⟨by rw [e1], ?_⟩
        have e2 : (e.map fun z => (z.re : ℂ)).map Complex.re = e.map Complex.re := by
          rw [List.map_map]; rfl
        rw [psd_auto _ _ _ m (by simpa using he) (by simp [hann]), psd_cross e _ _ m he (by simp [hann]), e2, hre]
        refine List.map_congr_left fun k _ => ?_
        rw [mul_comm (conj _), Complex.mul_conj, Complex.normSq_eq_norm_sq]
        push_cast
        ring
    · cases h
  | false =>
    simp only [Bool.false_eq_true, if_false] at h
    split at h
    · cases h
    split at h
    · cases h
    simp only [bind, Except.bind] at h
    split at h
    · cases h
    rename_i s' hs'
    simp only [pure, Except.pure, Except.ok.injEq, Prod.mk.injEq] at h
    obtain ⟨rfl, rfl⟩ := h
    unfold psdLomb at hs'
    simp only at hs'
    split at hs'
    · cases hs'
    rename_i hguard
    rw [Except.ok.injEq] at hs'
    subst hs'
    dsimp only
    set th := t.map fun x => x * 24 with hth
    set w := lombWindow th (hann e.length) with hw
    set xdm := List.zipWith (fun z (w : ℝ) => z * (w : ℂ)) (e.map fun z => z - cmean e) w with hx
    have hmean : (cmean e).re = (cmean e).im := by rw [cmean_re, cmean_im, hre]
    have hxl : xdm.length = th.length := by rw [hx, hw]; simp [lombWindow, hth, ht]
    have hxe : xdm.map Complex.im = xdm.map Complex.re := by
      refine List.map_congr_left fun z hz => ?_
      rw [hx, List.mem_iff_getElem] at hz
      obtain ⟨i, hi, rfl⟩ := hz
      have h1 : i < e.length := by simp at hi; omega
      simp only [List.getElem_zipWith, List.getElem_map]
      have := huv e[i] (List.getElem_mem _)
      simp [this, hmean]
    refine ⟨by rw [hxe], ?_⟩
    refine List.map_congr_left fun v hv => ?_
    have hnz : ¬ (lsCC th v = 0 ∨ lsSS th v = 0) := by
      intro hc
      refine hguard ?_
      rw [List.any_eq_true]
      exact ⟨_, hv, by simpa using hc⟩
    rw [not_or] at hnz
    rw [hN th _ _ hnz.1 hnz.2 (by simp [hxl]), lsCross_eq, hxe, ← lsAmp_sq, Complex.mul_conj,
      Complex.normSq_eq_norm_sq]
    push_cast
    ring

/-- **C61, equality.** If the two components of the residual are equal, all three spectra are equal. -/
theorem C61_equal (N : Num) (hN : LombOk N.lombscargle) (t : List ℝ) (e : List ℂ) (cfrq : List ℝ) (equi : Bool)
    (ht : t.length = e.length) (huv : ∀ z ∈ e, z.re = z.im) (r : BandPsd) (h : bandPsd N t e cfrq equi = .ok r) :
    r.Pvv = r.Puu ∧ r.Puv = r.Puu := by
  have hreal := C61_bounded N hN t e cfrq equi ht r h
  unfold bandPsd at h
  simp only [bind, Except.bind] at h
  split at h
  · cases h
  rename_i sf hsf
  obtain ⟨s, f⟩ := sf
  obtain ⟨m, hm⟩ := evenPart_length e
  obtain ⟨h1, h2⟩ := spectra_equal N hN _ _ equi s f m hm (by unfold evenPart; split <;> simp [ht]) (by
    intro z hz
    refine huv z ?_
    unfold evenPart at hz
    split at hz
    · exact List.mem_of_mem_dropLast hz
    · exact hz) hsf
  dsimp only at h
  rw [h1, h2] at h
  unfold fbndavg at h
  by_cases hne : f = []
  · rw [if_pos hne] at h; cases h
  simp only [if_neg hne, pure, Except.pure, Except.ok.injEq] at h
  subst h
  refine ⟨rfl, ?_⟩
  dsimp only at hreal ⊢
  rw [List.map_map]
  refine List.map_congr_left fun b hb => ?_
  obtain ⟨k, hk, rfl⟩ := List.mem_iff_getElem.1 hb
  have hbl : freqBands.length = noiseBands.length := by rw [← bands_eq]; simp
  rcases hreal.2.2.2 k (by rwa [← hbl]) with ⟨h1, -⟩ | ⟨a, b, c, h1, -⟩
  · rw [List.getElem?_map, List.getElem?_eq_getElem hk, Option.map_some, Option.some.injEq] at h1
    simp only [Function.comp, h1, Option.map_none]
  · rw [List.getElem?_map, List.getElem?_eq_getElem hk, Option.map_some, Option.some.injEq] at h1
    simp only [Function.comp, h1, Option.map_some, Complex.ofReal_re]

/-- Non-vacuity: four hourly residuals with equal components, and with different ones. -/
example (N : Num) : (∃ r, bandPsd N [0, 1 / 24, 2 / 24, 3 / 24] [1 + I, 0, 2 + 2 * I, 0] [0.0805] true = .ok r) ∧
    (∃ r, bandPsd N [0, 1 / 24, 2 / 24, 3 / 24] [1 + I, 3, 2, 0] [0.0805] true = .ok r) ∧
    ∀ z ∈ [1 + I, 0, 2 + 2 * I, 0], z.re = z.im := by
  refine ⟨bandPsd_even N _ _ _ _ _ _ _ _ _ (by norm_num), bandPsd_even N _ _ _ _ _ _ _ _ _ (by norm_num), ?_⟩
  intro z hz
  simp only [List.mem_cons, List.not_mem_nil, or_false] at hz
  rcases hz with rfl | rfl | rfl | rfl <;> simp

/-! ### An irregular axis: hours 0, 1, 2, 4 -/

theorem irregular_freqs (x : ℝ) (hx : x ∈ lombFreqs [0, 1, 2, 4]) : x = 3 / 16 := by
  obtain ⟨grid, h1, h2, h3⟩ := C63_grid [0, 1, 2, 4] (by norm_num)
  rw [h1, List.mem_flatten] at hx
  obtain ⟨g, hg, hxg⟩ := hx
  obtain ⟨k, hk, rfl⟩ := List.mem_iff_getElem.1 hg
  have key : ∀ y, IsFourier [0, 1, 2, 4] y → y = 3 / 16 := by
    rintro y ⟨k, hk1, hk2, hk3⟩
    have hk : k = 1 := by simp at hk2; omega
    subst hk
    norm_num at hk3
    linarith
  have hb : noiseBands[k]? = some (noiseBands[k]'(h2 ▸ hk)) := List.getElem?_eq_getElem _
  obtain ⟨lo, hi, r1, r2, l1, l2⟩ := (h3 k _ _ hb (List.getElem?_eq_getElem hk)).between x hxg
  have := key lo r1.1
  have := key hi r2.1
  linarith

theorem irregular_nonempty : lombFreqs [0, 1, 2, 4] ≠ [] := by
  obtain ⟨grid, h1, h2, h3⟩ := C63_grid [0, 1, 2, 4] (by norm_num)
  have hk : 4 < grid.length := by rw [h2]; simp [noiseBands]
  have hf : IsFourier [0, 1, 2, 4] (3 / 16) := ⟨1, le_refl _, by simp, by norm_num⟩
  have key : ∀ y, IsFourier [0, 1, 2, 4] y → y = 3 / 16 := by
    rintro y ⟨k, hk1, hk2, hk3⟩
    have hk : k = 1 := by simp at hk2; omega
    subst hk
    norm_num at hk3
    linarith
  have hr : ∀ x, Reached [0, 1, 2, 4] (0.15269, 0.16936) x ↔ x = 3 / 16 := by
    intro x
    constructor
    · intro h; exact key x h.1
    · rintro rfl
      refine ⟨hf, by norm_num, fun y hy hlt => ?_⟩
      rw [key y hy] at hlt
      exact absurd hlt (lt_irrefl _)
  have hg := h3 4 (0.15269, 0.16936) grid[4] rfl (List.getElem?_eq_getElem hk)
  have hmem := (hg.exact_ {3 / 16} (by intro x; rw [Finset.mem_singleton, hr]) (by simp) (3 / 16)).2 ((hr _).2 rfl)
  intro hc
  rw [h1, List.flatten_eq_nil_iff] at hc
  rw [hc _ (List.getElem_mem hk)] at hmem
  simp at hmem

theorem irregular_sums (x : ℝ) (hx : x = 3 / 16 * 2 * Real.pi) :
    lsCC [0, 1, 2, 4] x ≠ 0 ∧ lsSS [0, 1, 2, 4] x ≠ 0 := by
  have hpi := Real.pi_pos
  have hs : Real.sin x ≠ 0 := by
    have : 0 < Real.sin x := Real.sin_pos_of_pos_of_lt_pi (by rw [hx]; positivity) (by rw [hx]; linarith)
    exact this.ne'
  constructor
  · intro h
    unfold lsCC at h
    simp only [List.map_cons, List.map_nil, List.sum_cons, List.sum_nil] at h
    have h0 : Real.cos (x * 0 - lsTau [0, 1, 2, 4] x) = 0 := by nlinarith
    have h1 : Real.cos (x * 1 - lsTau [0, 1, 2, 4] x) = 0 := by nlinarith
    have : Real.sin x = 0 := by
      have e : x = (x * 1 - lsTau [0, 1, 2, 4] x) - (x * 0 - lsTau [0, 1, 2, 4] x) := by ring
      rw [e, Real.sin_sub, h0, h1]; ring
    exact hs this
  · intro h
    unfold lsSS at h
    simp only [List.map_cons, List.map_nil, List.sum_cons, List.sum_nil] at h
    have h0 : Real.sin (x * 0 - lsTau [0, 1, 2, 4] x) = 0 := by nlinarith
    have h1 : Real.sin (x * 1 - lsTau [0, 1, 2, 4] x) = 0 := by nlinarith
    have : Real.sin x = 0 := by
      have e : x = (x * 1 - lsTau [0, 1, 2, 4] x) - (x * 0 - lsTau [0, 1, 2, 4] x) := by ring
      rw [e, Real.sin_sub, h0, h1]; ring
    exact hs this

/-- Non-vacuity of the Lomb-Scargle branch. -/
example (N : Num) : ∃ r, bandPsd N [0, 1 / 24, 2 / 24, 4 / 24] [1 + I, 3, 2, 0] [0.0805] false = .ok r := by
  have e1 : ([0, 1 / 24, 2 / 24, 4 / 24] : List ℝ).map (fun x => x * 24) = [0, 1, 2, 4] := by norm_num
  have hs : ∃ s f, bandSpectra N [0, 1 / 24, 2 / 24, 4 / 24] [1 + I, 3, 2, 0] false = .ok (s, f) ∧ f ≠ [] := by
    have hg : ¬ ((((lombFreqs [0, 1, 2, 4]).map fun f => f * 2 * Real.pi).any
        fun f => decide (lsCC [0, 1, 2, 4] f = 0 ∨ lsSS [0, 1, 2, 4] f = 0)) = true) := by
      rw [List.any_eq_true]
      rintro ⟨x, hx, hz⟩
      obtain ⟨y, hy, rfl⟩ := List.mem_map.1 hx
      rw [irregular_freqs y hy, decide_eq_true_eq] at hz
      obtain ⟨h1, h2⟩ := irregular_sums _ rfl
      exact hz.elim h1 h2
    have hlomb : ∃ s, psdLomb N [0, 1, 2, 4] [1 + I, 3, 2, 0] (hann 4) (lombFreqs [0, 1, 2, 4]) = .ok s := by
      unfold psdLomb
      simp only [if_neg hg]
      exact ⟨_, rfl⟩
    obtain ⟨s, hs⟩ := hlomb
    refine ⟨s, lombFreqs [0, 1, 2, 4], ?_, irregular_nonempty⟩
    have hl : ([0, 1, 2, 4] : List ℝ).getLastD 0 ≠ ([0, 1, 2, 4] : List ℝ).headD 0 := by norm_num
    have hn : ([0, 1, 2, 4] : List ℝ) ≠ [] := by simp
    have h4 : ([1 + I, 3, 2, 0] : List ℂ).length = 4 := rfl
    unfold bandSpectra
    simp only [Bool.false_eq_true, if_false, e1, if_neg hl, if_neg hn, h4, bind, Except.bind, hs]
    rfl
  obtain ⟨s, f, h1, h2⟩ := hs
  have e : (if [1 + I, 3, 2, 0].length % 2 = 1 then ([0, 1 / 24, 2 / 24, 4 / 24] : List ℝ).dropLast
    else [0, 1 / 24, 2 / 24, 4 / 24]) = [0, 1 / 24, 2 / 24, 4 / 24] := if_neg (by simp)
  have e' : evenPart [1 + I, 3, 2, 0] = [1 + I, 3, 2, 0] := if_neg (by simp)
  unfold bandPsd fbndavg
  rw [e, e', h1]
  simp only [bind, Except.bind, if_neg h2]
  exact ⟨_, rfl⟩

end

end Props

end UTide
