import Verif.Model.LombCall
import Verif.Props.GridProps

/-!
# C149, C150: oversampling of the Lomb-Scargle grid; band averages over other bands
-/

namespace UTide

namespace Props

noncomputable section

open Classical

/-! ## C149 -/

/-- The record length: `n` mean sampling intervals. -/
def recordLength (t : List ℝ) : ℝ := t.length * ((t.getLastD 0 - t.headD 0) / (t.length - 1))

/-- Specification: the frequencies of a grid oversampled by `ofac`: whole numbers of cycles in `ofac` record lengths,
below the Nyquist frequency of evenly spread samples. -/
def IsOversampled (t : List ℝ) (ofac : ℕ) (x : ℝ) : Prop :=
  ∃ k : ℕ, 1 ≤ k ∧ k < t.length * ofac / 2 ∧ x * (ofac * recordLength t) = k

/-- Specification: whole numbers of cycles per record length, fewer than `n * ofac / 2`. -/
def IsExtended (t : List ℝ) (ofac : ℕ) (x : ℝ) : Prop :=
  ∃ k : ℕ, 1 ≤ k ∧ k < t.length * ofac / 2 ∧ x * recordLength t = k

/-- **C149, in full.** -/
def C149_full : Prop :=
  ∀ (t : List ℝ) (ofac : ℕ), t.headD 0 < t.getLastD 0 → 1 ≤ ofac →
    ∀ x, x ∈ psdLombF t none ofac ↔ IsOversampled t ofac x

theorem fourierOf_mem (t : List ℝ) (h : t.headD 0 < t.getLastD 0) (ofac : ℕ) (x : ℝ) :
    x ∈ fourierFreqsOf t ofac ↔ IsExtended t ofac x := by
  have hp : 0 < recordLength t := reclen_pos t h
  unfold fourierFreqsOf IsExtended
  rw [List.mem_map]
  change (∃ k : ℕ, k ∈ List.range (t.length * ofac / 2 - 1) ∧ ((k : ℝ) + 1) / recordLength t = x) ↔ _
  constructor
  · rintro ⟨k, hk, rfl⟩
    rw [List.mem_range] at hk
    refine ⟨k + 1, by omega, by omega, ?_⟩
    rw [div_mul_cancel₀ _ hp.ne']
    push_cast; rfl
  · rintro ⟨k, h1, h2, h3⟩
    refine ⟨k - 1, by rw [List.mem_range]; omega, ?_⟩
    rw [div_eq_iff hp.ne', h3]
    have : ((k - 1 : ℕ) : ℝ) = k - 1 := by rw [Nat.cast_sub h1]; simp
    rw [this]; ring

/-- Four hourly samples, oversampled twice: the grid has three quarters of a cycle per hour, above the Nyquist
frequency, and lacks an eighth. -/
theorem C149_false : ¬ C149_full := by
  intro hall
  have h := (hall [0, 1, 2, 3] 2 (by norm_num) (by norm_num) 0.125).2
    ⟨1, le_refl _, by simp, by unfold recordLength; norm_num⟩
  obtain ⟨k, h1, -, h3⟩ := (fourierOf_mem [0, 1, 2, 3] (by norm_num) 2 0.125).1 h
  unfold recordLength at h3
  norm_num at h3
  have : (1 : ℝ) ≤ k := by exact_mod_cast h1
  linarith

/-- **C149, what holds.** For every time axis whose last time is later than its first: the frequencies with
oversampling `ofac` are whole numbers of cycles per record length, the spacing without oversampling, continued
to `ofac` times the Nyquist frequency. Without oversampling (`ofac = 1`) the full statement holds. -/
theorem C149_grid_partial (t : List ℝ) (h : t.headD 0 < t.getLastD 0) (ofac : ℕ) (x : ℝ) :
    (x ∈ psdLombF t none ofac ↔ IsExtended t ofac x) ∧
      (x ∈ psdLombF t none 1 ↔ IsOversampled t 1 x) := by
  refine ⟨fourierOf_mem t h ofac x, ?_⟩
  refine (fourierOf_mem t h 1 x).trans ?_
  unfold IsExtended IsOversampled
  simp

theorem fourierOf_one (t : List ℝ) : fourierFreqsOf t 1 = fourierFreqs t := by
  unfold fourierFreqsOf fourierFreqs
  simp

theorem fourierOf_prefix (t : List ℝ) (ofac : ℕ) (h : 1 ≤ ofac) :
    ∃ more, fourierFreqsOf t ofac = fourierFreqs t ++ more := by
  have hle : t.length / 2 - 1 ≤ t.length * ofac / 2 - 1 := by
    have : t.length ≤ t.length * ofac := Nat.le_mul_of_pos_right _ h
    omega
  obtain ⟨d, hd⟩ := Nat.exists_eq_add_of_le hle
  unfold fourierFreqsOf fourierFreqs
  dsimp only
  rw [hd, List.range_add, List.map_append]
  exact ⟨_, rfl⟩

theorem searchsorted_append (F G : List ℝ) (f : ℝ) (h : ∃ x ∈ F, f ≤ x) :
    searchsorted (F ++ G) f = searchsorted F f ∧ searchsorted F f < F.length := by
  unfold searchsorted
  induction F with
  | nil => obtain ⟨x, hx, _⟩ := h; simp at hx
  | cons a F ih =>
    by_cases ha : a < f
    · have h' : ∃ x ∈ F, f ≤ x := by
        obtain ⟨x, hx, hf⟩ := h
        rcases List.mem_cons.1 hx with rfl | hx
        · exact absurd ha (not_lt.2 hf)
        · exact ⟨x, hx, hf⟩
      obtain ⟨h1, h2⟩ := ih h'
      simp only [List.cons_append, List.takeWhile_cons, ha, decide_true, if_true, List.length_cons]
      exact ⟨by omega, by omega⟩
    · simp [ha]

theorem lombBandOf_append (F G : List ℝ) (maxPer : ℕ) (b : ℚ × ℚ) (hb : b.1 ≤ b.2) (h : ∃ x ∈ F, (b.2 : ℝ) ≤ x) :
    lombBandOf (F ++ G) maxPer b = lombBandOf F maxPer b := by
  obtain ⟨e2, l2⟩ := searchsorted_append F G b.2 h
  obtain ⟨e1, l1⟩ := searchsorted_append F G b.1
    (by obtain ⟨x, hx, hf⟩ := h; exact ⟨x, hx, le_trans (by exact_mod_cast hb) hf⟩)
  have es : bandSlice (F ++ G) b = bandSlice F b := by
    unfold bandSlice
    rw [e1, e2, List.length_append]
    congr 1
    omega
  have s1 : (bandSlice F b).1 < F.length := l1
  have s2 : (bandSlice F b).2 ≤ F.length := Nat.min_le_left _ _
  unfold lombBandOf
  rw [es]
  dsimp only
  rw [List.getD_append _ _ _ _ s1, List.getD_append _ _ _ _ (show (bandSlice F b).2 - 1 < F.length by omega),
    List.take_append_of_le_length s2]

/-- **C149, no effect in the bands.** If the Fourier frequencies of the record go beyond the upper edge of every
band, oversampling adds nothing to the grid on which the noise is estimated. -/
theorem C149_no_effect (t : List ℝ) (h : t.headD 0 < t.getLastD 0) (bands : Option (List (ℚ × ℚ))) (ofac maxPer : ℕ)
    (ho : 1 ≤ ofac) (hb : ∀ b ∈ bands.getD freqBands, b.1 ≤ b.2 ∧ ∃ x, IsFourier t x ∧ (b.2 : ℝ) ≤ x) :
    lombFreqsOf t bands ofac maxPer = lombFreqsOf t bands 1 maxPer := by
  obtain ⟨more, hm⟩ := fourierOf_prefix t ofac ho
  unfold lombFreqsOf
  dsimp only
  congr 2
  apply List.flatMap_congr
  intro b hbm
  obtain ⟨h1, x, hx, h2⟩ := hb b hbm
  rw [hm, fourierOf_one]
  exact lombBandOf_append _ _ _ _ h1 ⟨x, (fourier_mem t h x).2 hx, h2⟩

theorem lombFreqsOf_plain (t : List ℝ) : lombFreqsOf t none 1 500 = .ok (lombFreqs t) := by
  unfold lombFreqsOf lombFreqs
  rw [fourierOf_one]
  rfl

theorem bands_le : ∀ b ∈ freqBands, b.1 ≤ b.2 ∧ b.2 ≤ 1 / 2 := by
  unfold freqBands
  simp only [List.mem_cons, List.not_mem_nil, or_false]
  rintro b (rfl | rfl | rfl | rfl | rfl | rfl | rfl | rfl | rfl) <;> norm_num

/-- **C149, the noise levels.** For an unevenly sampled record of an even number of samples whose Fourier
frequencies reach half a cycle per hour, `band_psd` with any oversampling factor gives what it gives without. -/
theorem C149_noise (N : Num) (t : List ℝ) (e : List ℂ) (cfrq : List ℝ) (ofac : ℕ) (ho : 1 ≤ ofac)
    (he : e.length % 2 = 0) (h : t.headD 0 < t.getLastD 0)
    (hx : ∃ x, IsFourier (t.map fun y => y * 24) x ∧ 1 / 2 ≤ x) :
    bandPsdOf N t e cfrq false ofac = bandPsd N t e cfrq false := by
  have hne : t ≠ [] := by rintro rfl; simp at h
  have h24 : (t.map fun y => y * 24).headD 0 < (t.map fun y => y * 24).getLastD 0 := by
    have e1 : (t.map fun y => y * 24).headD 0 = t.headD 0 * 24 := by
      cases t with
      | nil => simp
      | cons a l => simp
    have e2 : (t.map fun y => y * 24).getLastD 0 = t.getLastD 0 * 24 := by
      rw [List.getLastD_eq_getLast?, List.getLast?_map, List.getLastD_eq_getLast?]
      cases t.getLast? <;> simp
    rw [e1, e2]; linarith
  have hf : lombFreqsOf (t.map fun y => y * 24) (some freqBands) ofac 500 =
      .ok (lombFreqs (t.map fun y => y * 24)) := by
    rw [← lombFreqsOf_plain]
    have := C149_no_effect (t.map fun y => y * 24) h24 (some freqBands) ofac 500 ho ?_
    · rw [this]; rfl
    · intro b hb
      obtain ⟨x, h1, h2⟩ := hx
      obtain ⟨l1, l2⟩ := bands_le b hb
      refine ⟨l1, x, h1, le_trans ?_ h2⟩
      have : (b.2 : ℝ) ≤ ((1 / 2 : ℚ) : ℝ) := by exact_mod_cast l2
      simpa using this
  have hs : bandSpectraOf N t (evenPart e) false ofac = bandSpectra N t (evenPart e) false := by
    unfold bandSpectraOf bandSpectra
    simp only [Bool.false_eq_true, if_false, hf]
    rfl
  unfold bandPsdOf bandPsd
  rw [if_neg (by omega : ¬ e.length % 2 = 1), hs]
  rfl

/-- Non-vacuity: eight samples a quarter of an hour apart reach one and a half cycles per hour. -/
example : ∃ x, IsFourier (([0, 1, 2, 3, 4, 5, 6, 7] : List ℝ).map fun y => y / 96 * 24) x ∧ 1 / 2 ≤ x := by
  refine ⟨3 / 2, ⟨3, by norm_num, by simp, ?_⟩, by norm_num⟩
  norm_num

/-! ## C63 for any bands, factor and limit -/

theorem fourierOf_sorted (t : List ℝ) (h : t.headD 0 < t.getLastD 0) (ofac : ℕ) :
    (fourierFreqsOf t ofac).Pairwise (· < ·) := by
  have hp := reclen_pos t h
  unfold fourierFreqsOf
  rw [List.pairwise_map]
  refine List.pairwise_lt_range.imp ?_
  intro a b hab
  have : (a : ℝ) < b := by exact_mod_cast hab
  exact div_lt_div_of_pos_right (by linarith) hp

theorem slice_eq (F : List ℝ) (q : ℚ × ℚ) :
    (F.take (bandSlice F q).2).drop (bandSlice F q).1 = (usedIdx F [] q).map fun i => F.getD i 0 := by
  have hF : F = (List.range F.length).map fun i => F.getD i 0 := by
    apply List.ext_getElem
    · simp
    · intro i h1 h2
      simp [List.getD_eq_getElem, h1]
  have hf : (((List.range F.length).take (bandSlice F q).2).drop (bandSlice F q).1).filter
      (fun i => decide (i ∉ ([] : List ℕ))) = ((List.range F.length).take (bandSlice F q).2).drop (bandSlice F q).1 := by
    rw [List.filter_eq_self]
    intro a _
    simp
  unfold usedIdx
  rw [hf, List.map_drop, List.map_take, ← hF]

theorem reach_card (F : List ℝ) (hs : F.Pairwise (· ≤ ·)) (q : ℚ × ℚ) :
    (reach F ((q.1 : ℝ), (q.2 : ℝ))).card = (bandSlice F q).2 - (bandSlice F q).1 := by
  have h := used_eq F hs [] q
  rw [List.toFinset_nil, Finset.sdiff_empty] at h
  rw [← h, List.toFinset_card_of_nodup (usedIdx_nodup _ _ _)]
  have hl := congrArg List.length (slice_eq F q)
  rw [List.length_map, List.length_drop, List.length_take] at hl
  have : (bandSlice F q).2 ≤ F.length := Nat.min_le_left _ _
  omega

/-- **C63, in general.** For any bands, oversampling factor and limit: without bands `_lomb_freqs` raises ValueError;
otherwise the grid consists of one part per band. A part has as many frequencies as the band reaches in the grid
`P.F`, but at most the limit; if the limit is not exceeded, it consists of exactly these frequencies in increasing
order; otherwise it starts with the first of them and its steps are all equal, so that a limit of at least two
ends with the last one. -/
theorem C63_general (t : List ℝ) (h : t.headD 0 < t.getLastD 0) (bands : List (ℚ × ℚ)) (ofac maxPer : ℕ) :
    (bands = [] → lombFreqsOf t (some bands) ofac maxPer = .error .valueError) ∧
    (bands ≠ [] → ∃ grid : List (List ℝ), lombFreqsOf t (some bands) ofac maxPer = .ok grid.flatten ∧
      grid.length = bands.length ∧ ∀ (k : ℕ) b g, bands[k]? = some b → grid[k]? = some g →
        g.length = min maxPer (reach (psdLombF t none ofac) ((b.1 : ℝ), (b.2 : ℝ))).card ∧
        ((reach (psdLombF t none ofac) ((b.1 : ℝ), (b.2 : ℝ))).card ≤ maxPer → g.Pairwise (· < ·) ∧
          ∀ x, x ∈ g ↔ ∃ i ∈ reach (psdLombF t none ofac) ((b.1 : ℝ), (b.2 : ℝ)), (psdLombF t none ofac).getD i 0 = x) ∧
        (maxPer < (reach (psdLombF t none ofac) ((b.1 : ℝ), (b.2 : ℝ))).card →
          ∃ lo hi, IsLeast {x | ∃ i ∈ reach (psdLombF t none ofac) ((b.1 : ℝ), (b.2 : ℝ)),
              (psdLombF t none ofac).getD i 0 = x} lo ∧
            IsGreatest {x | ∃ i ∈ reach (psdLombF t none ofac) ((b.1 : ℝ), (b.2 : ℝ)),
              (psdLombF t none ofac).getD i 0 = x} hi ∧
            ∀ j < maxPer, g.getD j 0 = lo + j * ((hi - lo) / (maxPer - 1)))) := by
  constructor
  · rintro rfl
    rfl
  · intro hb
    obtain ⟨F, hF⟩ : ∃ F, F = fourierFreqsOf t ofac := ⟨_, rfl⟩
    have hP : psdLombF t none ofac = F := hF.symm
    have hlt : F.Pairwise (· < ·) := by rw [hF]; exact fourierOf_sorted t h ofac
    have hs : F.Pairwise (· ≤ ·) := hlt.imp le_of_lt
    refine ⟨bands.map (lombBandOf F maxPer), ?_, by simp, ?_⟩
    · unfold lombFreqsOf
      simp only [Option.getD_some, if_neg hb]
      rw [List.flatMap_def, ← hF]
    · intro k b g hbk hg
      rw [List.getElem?_map, hbk, Option.map_some, Option.some.injEq] at hg
      subst hg
      rw [hP, reach_card F hs b]
      have hle : (bandSlice F b).2 ≤ F.length := Nat.min_le_left _ _
      have hmem : ∀ i, i ∈ reach F ((b.1 : ℝ), (b.2 : ℝ)) ↔ (bandSlice F b).1 ≤ i ∧ i < (bandSlice F b).2 := by
        intro i
        have h := used_eq F hs [] b
        rw [List.toFinset_nil, Finset.sdiff_empty] at h
        rw [← h, List.mem_toFinset]
        unfold usedIdx
        rw [List.mem_filter, mem_take_drop_range]
        simp only [List.not_mem_nil, not_false_eq_true, decide_true, and_true]
        constructor
        · rintro ⟨a1, a2, -⟩; exact ⟨a1, a2⟩
        · rintro ⟨a1, a2⟩; exact ⟨a1, a2, lt_of_lt_of_le a2 hle⟩
      have hmono : ∀ i j (hj : j < F.length) (hij : i ≤ j), F.getD i 0 ≤ F.getD j 0 := by
        intro i j hj hij
        rw [List.getD_eq_getElem _ _ hj, List.getD_eq_getElem _ _ (lt_of_le_of_lt hij hj)]
        rcases Nat.lt_or_eq_of_le hij with h | h
        · exact List.pairwise_iff_getElem.1 hs i j _ hj h
        · subst h; exact le_refl _
      unfold lombBandOf
      dsimp only
      by_cases hm : (bandSlice F b).2 - (bandSlice F b).1 > maxPer
      · rw [if_pos hm]
        refine ⟨?_, ?_, ?_⟩
        · unfold linspace
          rw [List.length_map, List.length_range]; omega
        · intro hc; omega
        · intro _
          refine ⟨F.getD (bandSlice F b).1 0, F.getD ((bandSlice F b).2 - 1) 0, ⟨⟨_, (hmem _).2 ⟨le_refl _, by omega⟩, rfl⟩, ?_⟩,
            ⟨⟨_, (hmem _).2 ⟨by omega, by omega⟩, rfl⟩, ?_⟩, ?_⟩
          · rintro x ⟨i, hi, rfl⟩
            have := (hmem i).1 hi
            exact hmono _ _ (by omega) this.1
          · rintro x ⟨i, hi, rfl⟩
            have := (hmem i).1 hi
            exact hmono _ _ (by omega) (by omega)
          · intro j hj
            unfold linspace
            rw [List.getD_eq_getElem _ _ (by simpa using hj), List.getElem_map, List.getElem_range]
      · rw [if_neg hm]
        refine ⟨?_, ?_, ?_⟩
        · rw [List.length_drop, List.length_take]; omega
        · intro _
          refine ⟨(hlt.sublist (List.take_sublist _ _)).sublist (List.drop_sublist _ _), ?_⟩
          intro x
          rw [slice_eq, List.mem_map]
          have h := used_eq F hs [] b
          rw [List.toFinset_nil, Finset.sdiff_empty] at h
          constructor
          · rintro ⟨i, hi, e⟩
            exact ⟨i, by rw [← h]; exact List.mem_toFinset.2 hi, e⟩
          · rintro ⟨i, hi, e⟩
            exact ⟨i, by rw [← h] at hi; exact List.mem_toFinset.1 hi, e⟩
        · intro hc; omega

/-! ## C150 -/

/-- **C150, own bands, no constituents.** For an ordered grid and any bands, each value is the mean of the
periodogram over all positions the band reaches; without frequencies every value is NaN. -/
theorem C150_mean (P : List ℂ) (freq : List ℝ) (hs : freq.Pairwise (· ≤ ·)) (hP : P.length = freq.length)
    (bands : List (ℚ × ℚ)) :
    fbndavgOf P freq none (some bands) =
      .ok (bands.map fun b => meanOver P (reach freq ((b.1 : ℝ), (b.2 : ℝ)))) := by
  unfold fbndavgOf
  simp only [Option.getD_some]
  congr 1
  apply List.map_congr_left
  intro b _
  rw [bandValues_eq _ _ _ _ hP, meanOver_list _ _ (usedIdx_nodup _ _ _), used_eq _ hs]
  simp

/-- **C150, own bands, with constituents.** For an ordered, non-empty grid the excluded positions depend on the grid
and the constituents only: one nearest position for each constituent and nothing else, the same for every
choice of bands. -/
theorem C150_excluded (freq cfreq : List ℝ) (hs : freq.Pairwise (· ≤ ·)) (hne : freq ≠ []) :
    ∃ excl, Excluded freq cfreq excl ∧ ∀ (P : List ℂ) (bands : List (ℚ × ℚ)), P.length = freq.length →
      fbndavgOf P freq (some cfreq) (some bands) =
        .ok (bands.map fun b => meanOver P (reach freq ((b.1 : ℝ), (b.2 : ℝ)) \ excl)) := by
  refine ⟨(cfreq.map (nearestIndex freq)).toFinset, ⟨?_, ?_, ?_⟩, ?_⟩
  · intro f hf
    refine ⟨nearestIndex freq f, by simpa using ⟨f, hf, rfl⟩, ?_⟩
    obtain ⟨h, h2⟩ := nearestIndex_spec freq hs f hne
    refine ⟨h, fun j hj => ?_⟩
    rw [List.getD_eq_getElem _ _ h, List.getD_eq_getElem _ _ hj]
    exact h2 j hj
  · intro i hi
    obtain ⟨f, hf, rfl⟩ : ∃ f ∈ cfreq, nearestIndex freq f = i := by simpa using hi
    refine ⟨f, hf, ?_⟩
    obtain ⟨h, h2⟩ := nearestIndex_spec freq hs f hne
    refine ⟨h, fun j hj => ?_⟩
    rw [List.getD_eq_getElem _ _ h, List.getD_eq_getElem _ _ hj]
    exact h2 j hj
  · exact (List.toFinset_card_le _).trans (by simp)
  · intro P bands hP
    unfold fbndavgOf
    simp only [if_neg hne, Option.getD_some]
    congr 1
    apply List.map_congr_left
    intro b _
    rw [bandValues_eq _ _ _ _ hP, meanOver_list _ _ (usedIdx_nodup _ _ _), used_eq _ hs]

/-- **C150, defaults.** Leaving out the bands means the nine noise bands; the call `solve` makes is the one without
bands; an empty list of constituents excludes nothing. -/
theorem C150_defaults (P : List ℂ) (freq : List ℝ) (cfreq : Option (List ℝ)) (c : List ℝ)
    (bands : Option (List (ℚ × ℚ))) :
    (∃ nine : List (ℚ × ℚ), (nine.map fun b => ((b.1 : ℝ), (b.2 : ℝ))) = noiseBands ∧
      fbndavgOf P freq cfreq none = fbndavgOf P freq cfreq (some nine)) ∧
    fbndavg P freq c = fbndavgOf P freq (some c) none ∧
    (freq ≠ [] → fbndavgOf P freq (some []) bands = fbndavgOf P freq none bands) := by
  refine ⟨⟨freqBands, bands_eq, rfl⟩, rfl, fun hne => ?_⟩
  unfold fbndavgOf
  simp [hne]

/-- **C150, bands are averaged one by one.** The answer for a list of bands is made of the answers for its parts:
neither the order nor the number of the bands has any effect on the value of a band. -/
theorem C150_bands (P : List ℂ) (freq : List ℝ) (cfreq : Option (List ℝ)) (b1 b2 : List (ℚ × ℚ))
    (r1 r2 : List (Option ℂ)) (h1 : fbndavgOf P freq cfreq (some b1) = .ok r1)
    (h2 : fbndavgOf P freq cfreq (some b2) = .ok r2) :
    fbndavgOf P freq cfreq (some (b1 ++ b2)) = .ok (r1 ++ r2) := by
  cases cfreq with
  | none =>
    unfold fbndavgOf at h1 h2 ⊢
    simp only [Option.getD_some] at h1 h2 ⊢
    rw [← Except.ok.inj h1, ← Except.ok.inj h2, List.map_append]
  | some c =>
    unfold fbndavgOf at h1 h2 ⊢
    simp only [Option.getD_some] at h1 h2 ⊢
    by_cases hf : freq = []
    · rw [if_pos hf] at h1; exact absurd h1 (by simp)
    · rw [if_neg hf] at h1 h2 ⊢
      rw [← Except.ok.inj h1, ← Except.ok.inj h2, List.map_append]

/-- **C150, constituents as a set.** Order and repetitions in the list of constituents have no effect. -/
theorem C150_constituents (P : List ℂ) (freq c c' : List ℝ) (bands : Option (List (ℚ × ℚ)))
    (h : ∀ f, f ∈ c ↔ f ∈ c') : fbndavgOf P freq (some c) bands = fbndavgOf P freq (some c') bands := by
  have hm : ∀ i, i ∈ c.map (nearestIndex freq) ↔ i ∈ c'.map (nearestIndex freq) := by
    intro i
    simp only [List.mem_map, h]
  unfold fbndavgOf bandValues
  simp only [hm]

/-- **C150, a positive periodogram has a non-negative average.** -/
theorem C150_nonneg (P : List ℂ) (freq : List ℝ) (hs : freq.Pairwise (· ≤ ·)) (hP : P.length = freq.length)
    (bands : List (ℚ × ℚ)) (r : List (Option ℂ)) (hr : fbndavgOf P freq none (some bands) = .ok r)
    (hpos : ∀ z ∈ P, 0 ≤ z.re ∧ z.im = 0) : ∀ v, some v ∈ r → 0 ≤ v.re ∧ v.im = 0 := by
  intro v hv
  rw [C150_mean P freq hs hP bands] at hr
  rw [← Except.ok.inj hr, List.mem_map] at hv
  obtain ⟨b, -, hb⟩ := hv
  have hget : ∀ i ∈ reach freq ((b.1 : ℝ), (b.2 : ℝ)), 0 ≤ (P.getD i 0).re ∧ (P.getD i 0).im = 0 := by
    intro i hi
    have hlt : i < P.length := by
      rw [hP]; exact Finset.mem_range.1 (Finset.mem_filter.1 hi).1
    rw [List.getD_eq_getElem _ _ hlt]
    exact hpos _ (List.getElem_mem hlt)
  obtain ⟨h1, i, hi, j, hj, h2, h3⟩ := meanOver_between P _ v hb fun i hi => (hget i hi).2
  exact ⟨le_trans (hget i hi).1 h2, h1⟩

/-- Non-vacuity: three values, one band reaching the last two. -/
example : fbndavgOf [1, 2, 4] [0.1, 0.2, 0.3] none (some [(15 / 100, 25 / 100)]) = .ok [some 3] := by
  rw [C150_mean _ _ (by norm_num) rfl]
  have : reach [0.1, 0.2, 0.3] ((((15 / 100 : ℚ)) : ℝ), ((25 / 100 : ℚ) : ℝ)) = {1, 2} := by
    unfold reach
    ext i
    simp only [List.length_cons, List.length_nil, Finset.mem_filter, Finset.mem_range, Finset.mem_insert,
      Finset.mem_singleton]
    constructor
    · rintro ⟨h1, h2, -⟩
      interval_cases i
      · norm_num at h2
      · simp
      · simp
    · rintro (rfl | rfl)
      · refine ⟨by norm_num, by norm_num, ?_⟩
        intro j hj
        interval_cases j
        norm_num
      · refine ⟨by norm_num, by norm_num, ?_⟩
        intro j hj
        interval_cases j <;> norm_num
  simp only [List.map_cons, List.map_nil, this]
  unfold meanOver
  simp
  norm_num

end

end Props

end UTide
