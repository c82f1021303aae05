import Verif.Lemmas.CatalogueFreq
import Verif.Props.OrderProps
import Verif.Props.GridProps

/-!
# The frequencies of an analysis and the published ones: C130

`solve` uses frequencies computed from the astronomical rates at the reference time, `utide.cycles_per_hour` holds the
frequencies of the catalogue file.
-/

namespace UTide.Props

noncomputable section

open Classical

/-! ## Specification -/

/-- `cycles_per_hour[n]` is `φ`. -/
def Published (n : String) (φ : ℝ) : Prop := cyclesPerHour.get? n = some φ

/-- A date in the first ten thousand years (day numbers as in `datetime.toordinal`). -/
def InEra (τ : ℝ) : Prop := 0 ≤ τ ∧ τ ≤ 4000000

/-! ## Lemmas -/

theorem published_at (k : ℕ) (hk : k < 146) : Published (nameAt k) (catFreq k) := by
  have hl : k < catalogue.length := by rw [catalogue_length]; exact hk
  have h := (bunch_of_table fun c => c.freq.toReal).2 catalogue[k] (List.getElem_mem hl)
  have hn : nameAt k = catalogue[k].name := by
    unfold nameAt
    rw [List.getElem?_eq_getElem hl]
  unfold Published catFreq
  rw [hn, List.getElem?_eq_getElem hl]
  dsimp only
  rw [dyRat_cast]
  exact h

theorem published_unique {n : String} {φ ψ : ℝ} (h : Published n φ) (h' : Published n ψ) : φ = ψ :=
  Option.some.inj (h.symm.trans h')

theorem near_close (tref : ℝ) (h : |tref - daten| ≤ 146100) (k : ℕ) (hk : k < 146) :
    |linFreqs tref k - (catFreq k : ℝ)| ≤ 1 / 10 ^ 9 := by
  have ht := List.all_eq_true.1 near_table k (List.mem_range.2 hk)
  rw [decide_eq_true_eq] at ht
  have ht' := (Rat.cast_le (K := ℝ)).2 ht
  push_cast at ht'
  have hD : |(tref - daten) / 10000| ≤ 14.61 := by
    rw [abs_div, abs_of_pos (show (0 : ℝ) < 10000 by norm_num), div_le_iff₀ (by norm_num)]
    exact h.trans (by norm_num)
  rw [freq_poly tref k hk]
  generalize (tref - daten) / 10000 = D at hD
  have e : (freqCoef 0 k : ℝ) + freqCoef 1 k * D + freqCoef 2 k * D ^ 2 - catFreq k =
      (freqCoef 0 k - catFreq k) + freqCoef 1 k * D + freqCoef 2 k * D ^ 2 := by ring
  rw [e]
  have a1 : |(freqCoef 1 k : ℝ) * D| ≤ |(freqCoef 1 k : ℝ)| * (1461 / 100) := by
    rw [abs_mul]; norm_num at hD; gcongr
  have a2 : |(freqCoef 2 k : ℝ) * D ^ 2| ≤ |(freqCoef 2 k : ℝ)| * (2134521 / 10000) := by
    have : |D| ^ 2 ≤ 14.61 ^ 2 := by gcongr
    norm_num at this
    rw [abs_mul, abs_pow, sq_abs]; gcongr
  have := abs_add_le ((freqCoef 0 k : ℝ) - catFreq k + freqCoef 1 k * D) (freqCoef 2 k * D ^ 2)
  have := abs_add_le ((freqCoef 0 k : ℝ) - catFreq k) (freqCoef 1 k * D)
  norm_num at ht' ⊢
  linarith

theorem far_close (tref : ℝ) (h : InEra tref) (k : ℕ) (hk : k < 146) :
    |linFreqs tref k - (catFreq k : ℝ)| ≤ 1 / 10 ^ 6 := by
  have ht := List.all_eq_true.1 far_table k (List.mem_range.2 hk)
  rw [decide_eq_true_eq] at ht
  have ht' := (Rat.cast_le (K := ℝ)).2 ht
  push_cast at ht'
  have := freq_close tref h.1 h.2 k hk
  have := abs_sub_le (linFreqs tref k) (freqMid k) (catFreq k)
  linarith

/-- Different constituents have clearly different frequencies. -/
theorem published_gap {a b : String} {φ ψ : ℝ} (ha : Published a φ) (hb : Published b ψ) (hne : a ≠ b) :
    φ + 1 / 10 ^ 5 ≤ ψ ∨ ψ + 1 / 10 ^ 5 ≤ φ := by
  have key : ∀ {n : String} {φ : ℝ}, Published n φ → ∃ c ∈ catalogue, c.name = n ∧ φ = (dyRat c.freq : ℝ) := by
    intro n φ h
    have hm : n ∈ constitNames := by
      rw [← C67_frequencies.1]
      exact (Dict.get?_isSome_iff _ _).1 (by rw [h]; rfl)
    obtain ⟨c, hc, hn, h1, -⟩ := C67_frequencies.2.2 n hm
    refine ⟨c, hc, hn, ?_⟩
    rw [dyRat_cast]
    exact Option.some.inj (h.symm.trans h1)
  obtain ⟨c, hc, rfl, rfl⟩ := key ha
  obtain ⟨d, hd, rfl, rfl⟩ := key hb
  have ht := List.all_eq_true.1 (List.all_eq_true.1 gap_table c hc) d hd
  simp only [Bool.or_eq_true, beq_iff_eq, decide_eq_true_eq] at ht
  rcases ht with (ht | ht) | ht
  · exact absurd ht hne
  · left
    have := (Rat.cast_le (K := ℝ)).2 ht
    push_cast at this
    exact this
  · right
    have := (Rat.cast_le (K := ℝ)).2 ht
    push_cast at this
    exact this

/-! ## C130 -/

section
variable {E : Env} {t : TimeArg} {u : Series} {v : Option Series} {lat : Option ℝ} {opts : Dict PyVal} {c : Coef}

theorem entry_at (h : solve E t u v lat opts = .ok c) (i : ℕ) (n : String) (hn : c.name[i]? = some n) :
    ∃ k, k < 146 ∧ n = nameAt k ∧ c.frq[i]? = some (linFreqs c.reftime k) := by
  obtain ⟨h1, h2, h3⟩ := permute_aligned h
  rw [h1, List.getElem?_map] at hn
  cases hk : c.lind[i]? with
  | none => rw [hk] at hn; cases hn
  | some k =>
    rw [hk] at hn
    refine ⟨k, h3 k (List.mem_of_getElem? hk), (Option.some.inj hn).symm, ?_⟩
    rw [h2, List.getElem?_map, hk]
    rfl

/-- **C130**: the frequencies of a result agree with `cycles_per_hour`: to 1e-9 cycles per hour if the reference time is
within four hundred years of 1900, to 1e-6 in the first ten thousand years. -/
theorem C130_frequencies (h : solve E t u v lat opts = .ok c) (i : ℕ) (n : String) (hn : c.name[i]? = some n) :
    ∃ f φ, c.frq[i]? = some f ∧ Published n φ ∧
      (|c.reftime - 693595.5| ≤ 146100 → |f - φ| ≤ 1e-9) ∧ (InEra c.reftime → |f - φ| ≤ 1e-6) := by
  obtain ⟨k, hk, rfl, hf⟩ := entry_at h i n hn
  refine ⟨_, _, hf, published_at k hk, fun hd => ?_, fun hd => ?_⟩
  · exact (near_close c.reftime hd k hk).trans (by norm_num)
  · exact (far_close c.reftime hd k hk).trans (by norm_num)

/-- **C130**: different constituents of a result have different frequencies, in the order of the published ones. -/
theorem C130_distinct (h : solve E t u v lat opts = .ok c) (hd : InEra c.reftime) (i j : ℕ) (a b : String) (f g φ ψ : ℝ)
    (ha : c.name[i]? = some a) (hb : c.name[j]? = some b) (hf : c.frq[i]? = some f) (hg : c.frq[j]? = some g)
    (hφ : Published a φ) (hψ : Published b ψ) : (f = g ↔ a = b) ∧ (f < g ↔ φ < ψ) := by
  obtain ⟨k, hk, rfl, hf'⟩ := entry_at h i a ha
  obtain ⟨l, hl, rfl, hg'⟩ := entry_at h j b hb
  cases Option.some.inj (hf.symm.trans hf')
  cases Option.some.inj (hg.symm.trans hg')
  have e1 := published_unique hφ (published_at k hk)
  have e2 := published_unique hψ (published_at l hl)
  have c1 := abs_le.1 (far_close c.reftime hd k hk)
  have c2 := abs_le.1 (far_close c.reftime hd l hl)
  rw [← e1] at c1
  rw [← e2] at c2
  by_cases hkl : nameAt k = nameAt l
  · have : k = l := by rw [← idxOf_nameAt hk, hkl, idxOf_nameAt hl]
    subst this
    have := e1.trans e2.symm
    subst this
    simp
  · norm_num at c1 c2
    rcases published_gap hφ hψ hkl with hgap | hgap <;> norm_num at hgap
    · refine ⟨⟨fun h0 => ?_, fun h0 => absurd h0 hkl⟩, fun _ => by linarith, fun _ => by linarith⟩
      linarith
    · refine ⟨⟨fun h0 => ?_, fun h0 => absurd h0 hkl⟩, fun _ => by linarith, fun _ => by linarith⟩
      linarith

/-- **C130**: ordered by frequency, the constituents come in the order of the published frequencies, whatever the date. -/
theorem C130_order (R : Ready E t u v) (hnd : opts.keys.Nodup) (h : solve E t u v lat opts = .ok c)
    (hoc : requested opts "order_constit" = some (.str "frequency")) (hd : InEra c.reftime) :
    c.name.Pairwise fun a b => ∀ φ ψ, Published a φ → Published b ψ → φ ≤ ψ := by
  have hs := (C33_sorted E t u v lat opts R hnd _ hoc c h).2.1 rfl
  rw [List.pairwise_iff_getElem] at hs ⊢
  intro i j hi hj hij φ ψ hφ hψ
  have ha := List.getElem?_eq_getElem hi
  have hb := List.getElem?_eq_getElem hj
  obtain ⟨k, hk, -, hf⟩ := entry_at h i _ ha
  obtain ⟨l, hl, -, hg⟩ := entry_at h j _ hb
  obtain ⟨hi', hfe⟩ := List.getElem?_eq_some_iff.1 hf
  obtain ⟨hj', hge⟩ := List.getElem?_eq_some_iff.1 hg
  have := hs i j hi' hj' hij
  rw [hfe, hge] at this
  by_contra hlt
  have := (C130_distinct h hd j i _ _ _ _ ψ φ hb ha hg hf hψ hφ).2.2 (not_le.1 hlt)
  linarith

end

/-! ## Noise bands -/

/-- The catalogue frequencies keep a distance of 1e-5 from the edges of the noise bands. -/
theorem margin_table : (catalogue.all fun c =>
    if c.name == "Z0" then intBands.all fun b => decide (dyRat c.freq + 1 / 10 ^ 6 < b.1 / 100000)
    else intBands.any fun b => decide ((b.1 : ℚ) / 100000 ≤ dyRat c.freq - 1 / 10 ^ 6) &&
      decide (dyRat c.freq + 1 / 10 ^ 6 ≤ (b.2 : ℚ) / 100000)) = true := by
  decide +kernel

/-- **C130**: every constituent of a result but the mean Z0 lies in exactly one of the bands in which the noise is
estimated, the one of its published frequency. -/
theorem C130_band {E : Env} {t : TimeArg} {u : Series} {v : Option Series} {lat : Option ℝ} {opts : Dict PyVal} {c : Coef}
    (h : solve E t u v lat opts = .ok c) (hd : InEra c.reftime) (i : ℕ) (n : String) (f φ : ℝ) (hn : c.name[i]? = some n)
    (hf : c.frq[i]? = some f) (hφ : Published n φ) :
    (n ≠ "Z0" → ∃! k : ℕ, ∃ b, noiseBands[k]? = some b ∧ InBand b f ∧ InBand b φ) ∧
    (n = "Z0" → ∀ b ∈ noiseBands, ¬ InBand b f) := by
  obtain ⟨k, hk, rfl, hf'⟩ := entry_at h i n hn
  cases Option.some.inj (hf.symm.trans hf')
  have e1 := published_unique hφ (published_at k hk)
  subst e1
  have c1 := abs_le.1 (far_close c.reftime hd k hk)
  have hl : k < catalogue.length := by rw [catalogue_length]; exact hk
  have hnk : nameAt k = catalogue[k].name := by
    unfold nameAt
    rw [List.getElem?_eq_getElem hl]
  have hck : catFreq k = dyRat catalogue[k].freq := by
    unfold catFreq
    rw [List.getElem?_eq_getElem hl]
  have ht := List.all_eq_true.1 margin_table catalogue[k] (List.getElem_mem hl)
  rw [← hnk, ← hck] at ht
  constructor
  · intro hz
    simp only [beq_iff_eq, hz, if_false, List.any_eq_true, Bool.and_eq_true, decide_eq_true_eq] at ht
    obtain ⟨b, hb, h1, h2⟩ := ht
    have h1' := (Rat.cast_le (K := ℝ)).2 h1
    have h2' := (Rat.cast_le (K := ℝ)).2 h2
    push_cast at h1' h2'
    obtain ⟨j, hj, hjb⟩ := List.mem_iff_getElem.1 hb
    have hin : noiseBands[j]? = some ((b.1 : ℝ) / 100000, (b.2 : ℝ) / 100000) := by
      rw [noiseBands_int, List.getElem?_map, List.getElem?_eq_getElem hj, hjb]
      rfl
    have hI : InBand ((b.1 : ℝ) / 100000, (b.2 : ℝ) / 100000) (linFreqs c.reftime k) :=
      ⟨by dsimp only; linarith, by dsimp only; linarith⟩
    refine ⟨j, ⟨_, hin, hI, by dsimp only; linarith, by dsimp only; linarith⟩, ?_⟩
    rintro l ⟨b', hl, hI', -⟩
    exact C62_unambiguous _ l j _ _ hl hin hI' hI
  · intro hz b hb hI
    simp only [hz, beq_self_eq_true, if_true, List.all_eq_true, decide_eq_true_eq] at ht
    rw [noiseBands_int] at hb
    obtain ⟨q, hq, rfl⟩ := List.mem_map.1 hb
    have := (Rat.cast_lt (K := ℝ)).2 (ht q hq)
    push_cast at this
    have := hI.1
    dsimp only at this
    linarith

end

end UTide.Props
