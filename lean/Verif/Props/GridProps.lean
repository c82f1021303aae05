import Verif.Props.BandProps
import Verif.Lemmas.KernelRfl

/-!
# C62, C63: assignment of noise power, Lomb-Scargle grid
-/

namespace UTide

namespace Props

noncomputable section

open Classical

/-- Membership in a band, edges included. -/
def InBand (b : ℝ × ℝ) (f : ℝ) : Prop := b.1 ≤ f ∧ f ≤ b.2

/-- The bands in units of 1e-5 cycles per hour. -/
def intBands : List (ℤ × ℤ) :=
  [(10, 417), (3192, 4859), (7218, 8884), (11243, 12910), (15269, 16936), (19295, 20961), (23320, 25100),
   (26000, 29000), (30000, 50000)]

theorem noiseBands_int : noiseBands = intBands.map fun b => ((b.1 : ℝ) / 100000, (b.2 : ℝ) / 100000) := by
  unfold noiseBands intBands
  simp only [List.map_cons, List.map_nil]
  norm_num

/-- **C62.** The bands are proper intervals, in increasing order and disjoint. -/
theorem C62_bands : (∀ b ∈ noiseBands, b.1 < b.2) ∧ noiseBands.Pairwise (fun a b => a.2 < b.1) := by
  have h1 : intBands.all (fun b => decide (b.1 < b.2)) = true := by decide
  have h2 : intBands.Pairwise (fun a b => a.2 < b.1) := by decide
  rw [noiseBands_int]
  constructor
  · intro b hb
    obtain ⟨q, hq, rfl⟩ := List.mem_map.1 hb
    have := List.all_eq_true.1 h1 q hq
    rw [decide_eq_true_eq] at this
    have : (q.1 : ℝ) < q.2 := by exact_mod_cast this
    dsimp only
    linarith
  · rw [List.pairwise_map]
    refine h2.imp ?_
    intro a b hab
    have : (a.2 : ℝ) < b.1 := by exact_mod_cast hab
    dsimp only
    linarith

/-- **C62.** No frequency lies in two bands. -/
theorem C62_unambiguous (f : ℝ) (k l : ℕ) (a b : ℝ × ℝ) (hk : noiseBands[k]? = some a) (hl : noiseBands[l]? = some b)
    (ha : InBand a f) (hb : InBand b f) : k = l := by
  obtain ⟨-, hp⟩ := C62_bands
  obtain ⟨hk1, hk2⟩ := List.getElem?_eq_some_iff.1 hk
  obtain ⟨hl1, hl2⟩ := List.getElem?_eq_some_iff.1 hl
  by_contra hne
  rcases Nat.lt_or_gt_of_ne hne with h | h
  · have := List.pairwise_iff_getElem.1 hp k l hk1 hl1 h
    rw [hk2, hl2] at this
    have h1 := ha.2; have h2 := hb.1
    linarith
  · have := List.pairwise_iff_getElem.1 hp l k hl1 hk1 h
    rw [hk2, hl2] at this
    have h1 := hb.2; have h2 := ha.1
    linarith

/-- The number of bands containing each catalogue frequency, by exact integer arithmetic. -/
theorem bandTable : (catalogue.all fun c =>
    if c.name == "Z0" then intBands.all fun b => !(decide (b.1 * 2 ^ c.freq.exp ≤ c.freq.num * 100000))
    else intBands.any fun b => decide (b.1 * 2 ^ c.freq.exp ≤ c.freq.num * 100000) &&
      decide (c.freq.num * 100000 ≤ b.2 * 2 ^ c.freq.exp)) = true := by
  decide +kernel

theorem int_le_freq (a : ℤ) (d : Dy) : a * 2 ^ d.exp ≤ d.num * 100000 ↔ (a : ℝ) / 100000 ≤ d.toReal := by
  unfold Dy.toReal
  rw [div_le_div_iff₀ (by norm_num) (by positivity)]
  exact_mod_cast Iff.rfl

theorem freq_le_int (a : ℤ) (d : Dy) : d.num * 100000 ≤ a * 2 ^ d.exp ↔ d.toReal ≤ (a : ℝ) / 100000 := by
  unfold Dy.toReal
  rw [div_le_div_iff₀ (by positivity) (by norm_num)]
  exact_mod_cast Iff.rfl

/-- **C62.** Every catalogue constituent except `Z0` lies in exactly one band, `Z0` in none. -/
theorem C62_catalogue (c : Con) (hc : c ∈ catalogue) :
    (c.name ≠ "Z0" → ∃! k : ℕ, ∃ b, noiseBands[k]? = some b ∧ InBand b c.freq.toReal) ∧
    (c.name = "Z0" → ∀ b ∈ noiseBands, ¬ InBand b c.freq.toReal) := by
  have h := List.all_eq_true.1 bandTable c hc
  constructor
  · intro hz
    simp only [beq_iff_eq, hz, if_false, List.any_eq_true, Bool.and_eq_true, decide_eq_true_eq] at h
    obtain ⟨b, hb, h1, h2⟩ := h
    obtain ⟨k, hk, hkb⟩ := List.mem_iff_getElem.1 hb
    have hin : noiseBands[k]? = some ((b.1 : ℝ) / 100000, (b.2 : ℝ) / 100000) := by
      rw [noiseBands_int, List.getElem?_map, List.getElem?_eq_getElem hk, hkb]
      rfl
    have hI : InBand ((b.1 : ℝ) / 100000, (b.2 : ℝ) / 100000) c.freq.toReal :=
      ⟨(int_le_freq _ _).1 h1, (freq_le_int _ _).1 h2⟩
    refine ⟨k, ⟨_, hin, hI⟩, ?_⟩
    rintro l ⟨b', hl, hI'⟩
    exact C62_unambiguous _ l k _ _ hl hin hI' hI
  · intro hz b hb hI
    simp only [hz, beq_self_eq_true, if_true, List.all_eq_true, Bool.not_eq_true', decide_eq_false_iff_not] at h
    rw [noiseBands_int] at hb
    obtain ⟨q, hq, rfl⟩ := List.mem_map.1 hb
    exact h q hq ((int_le_freq _ _).2 hI.1)

/-- Non-vacuity: `M2` is in the catalogue. -/
example : ∃ c ∈ catalogue, c.name = "M2" := by
  have : (catalogue.any fun c => c.name == "M2") = true := by decide +kernel
  obtain ⟨c, h1, h2⟩ := List.any_eq_true.1 this
  exact ⟨c, h1, by simpa using h2⟩

/-! ## Power at a constituent -/

/-- Overwriting: only the last matching entry counts. -/
theorem foldl_none {α β : Type} (p : α → Prop) [DecidablePred p] (val : α → β) (l : List α) (init : β) (h : ∀ x ∈ l, ¬ p x) :
    l.foldl (fun acc b => if p b then val b else acc) init = init := by
  induction l generalizing init with
  | nil => rfl
  | cons a l ih =>
    rw [List.foldl_cons, if_neg (h a (by simp))]
    exact ih _ fun x hx => h x (by simp [hx])

theorem foldl_unique {α β : Type} (p : α → Prop) [DecidablePred p] (val : α → β) (l : List α) (init : β) (k : ℕ)
    (hk : k < l.length) (hp : p l[k]) (h : ∀ j (hj : j < l.length), p l[j] → j = k) :
    l.foldl (fun acc b => if p b then val b else acc) init = val l[k] := by
  have hsplit : l = l.take k ++ l[k] :: l.drop (k + 1) := by
    rw [List.cons_getElem_drop_succ, List.take_append_drop]
  conv_lhs => rw [hsplit]
  rw [List.foldl_append, List.foldl_cons, if_pos hp]
  apply foldl_none
  intro x hx hpx
  obtain ⟨j, hj, rfl⟩ := List.mem_iff_getElem.1 hx
  rw [List.getElem_drop] at hpx
  have := h _ _ hpx
  omega

/-- **C62, noise power.** `band_averaged_psd_by_constit` computes nine band densities `ba` from the residual (on
the complete evenly spaced axis, gaps interpolated, or on the irregular axis). A constituent inside the `k`-th
band gets the density of that band divided by the record length in hours, a constituent outside all bands gets zero
power. -/
theorem C62_power (N : Num) (ed : Edited) (e : List ℂ) (frq : List ℝ) (pw : Power)
    (h : residualPower N ed e frq = .ok pw) :
    ∃ ba : BandPsd,
      (ed.equi = false → bandPsd N ed.t e frq false = .ok ba) ∧
      (ed.equi = true → ¬ ed.t.length < ed.tin.length → bandPsd N ed.tin e frq true = .ok ba) ∧
      (ed.equi = true → ed.t.length < ed.tin.length →
        ∃ e', complexInterp ed.tin ed.t e = .ok e' ∧ bandPsd N ed.tin e' frq true = .ok ba) ∧
      ∀ (i : ℕ) f, frq[i]? = some f →
        ((∀ b ∈ noiseBands, ¬ InBand b f) →
          pw.Puu[i]? = some (.fin 0) ∧ pw.Pvv[i]? = some (.fin 0) ∧ pw.Puv[i]? = some (.fin 0)) ∧
        (∀ (k : ℕ) b, noiseBands[k]? = some b → InBand b f →
          ∀ x y z, ba.Puu[k]? = some x → ba.Pvv[k]? = some y → ba.Puv[k]? = some z →
            pw.Puu[i]? = some (scalePower (.div (.fin 1) (ed.elor * .fin 24)) x) ∧
            pw.Pvv[i]? = some (scalePower (.div (.fin 1) (ed.elor * .fin 24)) y) ∧
            pw.Puv[i]? = some (scalePower (.div (.fin 1) (ed.elor * .fin 24)) z)) := by
  unfold residualPower at h
  simp only [bind, Except.bind] at h
  split at h
  · cases h
  rename_i ba hba
  refine ⟨ba, ?_, ?_, ?_, ?_⟩
  · intro he
    simpa [he] using hba
  · intro he hl
    simpa [he, hl] using hba
  · intro he hl
    simp only [he, if_true, hl] at hba
    split at hba
    · cases hba
    · rename_i e' he'
      exact ⟨e', he', hba⟩
  · intro i f hf
    simp only [pure, Except.pure, Except.ok.injEq] at h
    subst h
    simp only [List.getElem?_map, hf, Option.map_some, Option.some.injEq]
    have hin : ∀ q : ℚ × ℚ, ((q.1 : ℝ) ≤ f ∧ f ≤ (q.2 : ℝ)) ↔ InBand ((q.1 : ℝ), (q.2 : ℝ)) f := fun q => Iff.rfl
    constructor
    · intro hout
      have key : ∀ P df, powerAt P df f = .fin 0 := by
        intro P df
        unfold powerAt
        refine foldl_none (fun b : (ℚ × ℚ) × Option ℂ => (b.1.1 : ℝ) ≤ f ∧ f ≤ (b.1.2 : ℝ))
          (fun b => scalePower df b.2) _ _ ?_
        intro x hx
        have hx1 := (List.of_mem_zip (a := x.1) (b := x.2) hx).1
        refine hout ((x.1.1 : ℝ), (x.1.2 : ℝ)) ?_
        rw [← bands_eq]
        exact List.mem_map.2 ⟨_, hx1, rfl⟩
      exact ⟨key _ _, key _ _, key _ _⟩
    · intro k b hb hI x y z hx hy hz
      have key : ∀ (P : List (Option ℂ)) df v, P[k]? = some v → powerAt P df f = scalePower df v := by
        intro P df v hv
        obtain ⟨q, hq, rfl⟩ := bands_getElem k b hb
        obtain ⟨hk1, hk2⟩ := List.getElem?_eq_some_iff.1 hq
        obtain ⟨hv1, hv2⟩ := List.getElem?_eq_some_iff.1 hv
        have hkz : k < (freqBands.zip P).length := by simp [hk1, hv1]
        have e1 : (freqBands.zip P)[k] = (q, v) := by simp [hk2, hv2]
        unfold powerAt
        rw [foldl_unique (fun b : (ℚ × ℚ) × Option ℂ => (b.1.1 : ℝ) ≤ f ∧ f ≤ (b.1.2 : ℝ))
          (fun b => scalePower df b.2) _ _ k hkz (by rw [e1]; exact hI) ?_, e1]
        intro j hj hpj
        have hj' : j < freqBands.length := by
          have := hj; simp only [List.length_zip] at this; omega
        refine C62_unambiguous f j k ((freqBands[j].1 : ℝ), (freqBands[j].2 : ℝ)) _ ?_ hb ?_ hI
        · rw [← bands_eq, List.getElem?_map, List.getElem?_eq_getElem hj']; rfl
        · unfold InBand; simpa using hpj
      exact ⟨key _ _ _ hx, key _ _ _ hy, key _ _ _ hz⟩

/-- On an evenly sampled axis of four samples the spectra can be computed. -/
theorem bandPsd_even (N : Num) (t0 t1 t2 t3 : ℝ) (a b c d : ℂ) (frq : List ℝ) (h : t1 ≠ t0) :
    ∃ ba, bandPsd N [t0, t1, t2, t3] [a, b, c, d] frq true = .ok ba := by
  have hd : ¬ (24 * (t1 - t0) = 0) := by
    intro h0
    have : t1 - t0 = 0 := by linarith
    exact h (by linarith)
  have hs : ∃ s f, bandSpectra N [t0, t1, t2, t3] [a, b, c, d] true = .ok (s, f) ∧ f ≠ [] := by
    unfold bandSpectra
    simp only [if_true, if_neg hd]
    exact ⟨_, _, rfl, by simp⟩
  obtain ⟨s, f, h1, h2⟩ := hs
  have e : (if [a, b, c, d].length % 2 = 1 then [t0, t1, t2, t3].dropLast else [t0, t1, t2, t3]) =
    [t0, t1, t2, t3] := if_neg (by simp)
  have e' : evenPart [a, b, c, d] = [a, b, c, d] := if_neg (by simp)
  unfold bandPsd fbndavg
  rw [e, e', h1]
  simp only [bind, Except.bind, if_neg h2]
  exact ⟨_, rfl⟩

/-- Non-vacuity: four hourly residuals and the constituent `M2` (0.0805 cycles per hour, third band). -/
example (N : Num) : ∃ pw, residualPower N
    { tin := [0, 1 / 24, 2 / 24, 3 / 24], t := [0, 1 / 24, 2 / 24, 3 / 24], u := [0, 0, 0, 0], v := none,
      tref := 0, lor := 3 / 24, elor := .fin (4 / 24), equi := true } [1, -1, 2, 0] [0.0805] = .ok pw ∧
    InBand (0.07218, 0.08884) 0.0805 ∧ noiseBands[2]? = some ((0.07218, 0.08884) : ℝ × ℝ) := by
  obtain ⟨ba, hba⟩ := bandPsd_even N 0 (1 / 24) (2 / 24) (3 / 24) 1 (-1) 2 0 [0.0805] (by norm_num)
  have hex : ∃ pw, residualPower N
    { tin := [0, 1 / 24, 2 / 24, 3 / 24], t := [0, 1 / 24, 2 / 24, 3 / 24], u := [0, 0, 0, 0], v := none,
      tref := 0, lor := 3 / 24, elor := .fin (4 / 24), equi := true } [1, -1, 2, 0] [0.0805] = .ok pw := by
    unfold residualPower
    simp only [if_true, lt_irrefl, if_false, bind, Except.bind, hba]
    exact ⟨_, rfl⟩
  obtain ⟨pw, h⟩ := hex
  exact ⟨pw, h, ⟨by norm_num, by norm_num⟩, rfl⟩

/-! ## C63 -/

/-- Specification: the Fourier frequencies of `n` samples spread evenly over the time axis, without the zero and
Nyquist frequencies: whole numbers of cycles per record length, the record length being `n` mean intervals. -/
def IsFourier (t : List ℝ) (x : ℝ) : Prop :=
  ∃ k : ℕ, 1 ≤ k ∧ k < t.length / 2 ∧
    x * (t.length * ((t.getLastD 0 - t.headD 0) / (t.length - 1))) = k

theorem reclen_pos (t : List ℝ) (h : t.headD 0 < t.getLastD 0) :
    0 < (t.length : ℝ) * ((t.getLastD 0 - t.headD 0) / (t.length - 1)) := by
  have h2 : 2 ≤ t.length := by
    rcases t with _ | ⟨a, _ | ⟨b, l⟩⟩
    · simp at h
    · simp at h
    · simp
  have : (2 : ℝ) ≤ t.length := by exact_mod_cast h2
  refine mul_pos (by linarith) (div_pos (by linarith) (by linarith))

theorem fourier_mem (t : List ℝ) (h : t.headD 0 < t.getLastD 0) (x : ℝ) :
    x ∈ fourierFreqs t ↔ IsFourier t x := by
  have hp := reclen_pos t h
  unfold fourierFreqs IsFourier
  rw [List.mem_map]
  constructor
  · rintro ⟨k, hk, rfl⟩
    rw [List.mem_range] at hk
    refine ⟨k + 1, by omega, by omega, ?_⟩
    rw [div_mul_cancel₀ _ hp.ne']
    push_cast; rfl
  · rintro ⟨k, h1, h2, h3⟩
    refine ⟨k - 1, by rw [List.mem_range]; omega, ?_⟩
    rw [div_eq_iff hp.ne', h3]
    have : ((k - 1 : ℕ) : ℝ) = k - 1 := by rw [Nat.cast_sub h1]; simp
    rw [this]; ring

theorem fourier_sorted (t : List ℝ) (h : t.headD 0 < t.getLastD 0) : (fourierFreqs t).Pairwise (· < ·) := by
  have hp := reclen_pos t h
  unfold fourierFreqs
  rw [List.pairwise_map]
  refine List.pairwise_lt_range.imp ?_
  intro a b hab
  have : (a : ℝ) < b := by exact_mod_cast hab
  exact div_lt_div_of_pos_right (by linarith) hp

/-- The Fourier frequencies a band reaches: from its lower edge up to and including the first one that is not below
its upper edge. -/
def Reached (t : List ℝ) (b : ℝ × ℝ) (x : ℝ) : Prop :=
  IsFourier t x ∧ b.1 ≤ x ∧ ∀ y, IsFourier t y → y < x → y < b.2

theorem mem_slice (t : List ℝ) (h : t.headD 0 < t.getLastD 0) (q : ℚ × ℚ) (i : ℕ) (hi : i < (fourierFreqs t).length) :
    ((bandSlice (fourierFreqs t) q).1 ≤ i ∧ i < (bandSlice (fourierFreqs t) q).2) ↔
      Reached t ((q.1 : ℝ), (q.2 : ℝ)) (fourierFreqs t)[i] := by
  have hs := fourier_sorted t h
  have hs' := hs.imp le_of_lt
  unfold bandSlice Reached
  dsimp only
  rw [searchsorted_le_iff _ hs' _ i hi]
  have e : i < min (fourierFreqs t).length (searchsorted (fourierFreqs t) q.2 + 1) ↔
      i ≤ searchsorted (fourierFreqs t) q.2 := by omega
  rw [e, le_searchsorted _ hs' _ i hi]
  constructor
  · rintro ⟨h1, h2⟩
    refine ⟨(fourier_mem t h _).1 (List.getElem_mem _), h1, fun y hy hlt => ?_⟩
    obtain ⟨j, hj, rfl⟩ := List.mem_iff_getElem.1 ((fourier_mem t h y).2 hy)
    refine h2 j ?_
    by_contra hc
    rcases Nat.lt_or_eq_of_le (not_lt.mp hc) with hc | hc
    · have := List.pairwise_iff_getElem.1 hs i j hi hj hc
      linarith
    · subst hc; exact lt_irrefl _ hlt
  · rintro ⟨-, h1, h2⟩
    refine ⟨h1, fun j hj => h2 _ ((fourier_mem t h _).1 (List.getElem_mem _)) ?_⟩
    exact List.pairwise_iff_getElem.1 hs j i _ hi hj

/-- Specification of the grid of one band. -/
structure BandGrid (t : List ℝ) (b : ℝ × ℝ) (g : List ℝ) : Prop where
  few : g.length ≤ 500
  increasing : g.Pairwise (· < ·)
  between : ∀ x ∈ g, ∃ lo hi, Reached t b lo ∧ Reached t b hi ∧ lo ≤ x ∧ x ≤ hi
  exact_ : ∀ S : Finset ℝ, (∀ x, x ∈ S ↔ Reached t b x) → S.card ≤ 500 → ∀ x, x ∈ g ↔ Reached t b x
  ends : ∀ S : Finset ℝ, (∀ x, x ∈ S ↔ Reached t b x) → 500 < S.card → g.length = 500 ∧
    (∀ x ∈ S, g.headD 0 ≤ x ∧ x ≤ g.getLastD 0) ∧ Reached t b (g.headD 0) ∧ Reached t b (g.getLastD 0)

theorem slice_mem (l : List ℝ) (a b : ℕ) (x : ℝ) :
    x ∈ (l.take b).drop a ↔ ∃ i, ∃ h : i < l.length, (a ≤ i ∧ i < b) ∧ l[i] = x := by
  rw [List.mem_iff_getElem]
  constructor
  · rintro ⟨k, hk, rfl⟩
    simp only [List.length_drop, List.length_take] at hk
    exact ⟨a + k, by omega, by omega, by simp⟩
  · rintro ⟨i, h, ⟨h1, h2⟩, rfl⟩
    refine ⟨i - a, by simp only [List.length_drop, List.length_take]; omega, ?_⟩
    simp only [List.getElem_drop, List.getElem_take]
    congr 1
    omega

theorem linspace_sorted (a b : ℝ) (hab : a < b) : (linspace a b 500).Pairwise (· < ·) := by
  unfold linspace
  rw [List.pairwise_map]
  refine List.pairwise_lt_range.imp ?_
  intro i j hij
  have : (i : ℝ) < j := by exact_mod_cast hij
  have hd : 0 < (b - a) / (((500 : ℕ) : ℝ) - 1) := div_pos (by linarith) (by norm_num)
  nlinarith

theorem linspace_between (a b : ℝ) (hab : a ≤ b) : ∀ x ∈ linspace a b 500, a ≤ x ∧ x ≤ b := by
  intro x hx
  unfold linspace at hx
  obtain ⟨k, hk, rfl⟩ := List.mem_map.1 hx
  rw [List.mem_range] at hk
  have hk' : (k : ℝ) ≤ 499 := by exact_mod_cast (by omega : k ≤ 499)
  have h0 : (0 : ℝ) ≤ k := by positivity
  have e : ((500 : ℕ) : ℝ) - 1 = 499 := by norm_num
  rw [e]
  have hd : 0 ≤ (b - a) / 499 := div_nonneg (by linarith) (by norm_num)
  have hm : (k : ℝ) * ((b - a) / 499) ≤ 499 * ((b - a) / 499) := mul_le_mul_of_nonneg_right hk' hd
  constructor
  · have := mul_nonneg h0 hd
    linarith
  · linarith

/-- The reached Fourier frequencies as a list. -/
theorem slice_reached (t : List ℝ) (h : t.headD 0 < t.getLastD 0) (q : ℚ × ℚ) (x : ℝ) :
    x ∈ ((fourierFreqs t).take (bandSlice (fourierFreqs t) q).2).drop (bandSlice (fourierFreqs t) q).1 ↔
      Reached t ((q.1 : ℝ), (q.2 : ℝ)) x := by
  rw [slice_mem]
  constructor
  · rintro ⟨i, hi, hs, rfl⟩
    exact (mem_slice t h q i hi).1 hs
  · intro hr
    obtain ⟨i, hi, rfl⟩ := List.mem_iff_getElem.1 ((fourier_mem t h x).2 hr.1)
    exact ⟨i, hi, (mem_slice t h q i hi).2 hr, rfl⟩

theorem slice_card (t : List ℝ) (h : t.headD 0 < t.getLastD 0) (q : ℚ × ℚ) (S : Finset ℝ)
    (hS : ∀ x, x ∈ S ↔ Reached t ((q.1 : ℝ), (q.2 : ℝ)) x) :
    S.card = (bandSlice (fourierFreqs t) q).2 - (bandSlice (fourierFreqs t) q).1 := by
  have hnd : (((fourierFreqs t).take (bandSlice (fourierFreqs t) q).2).drop
      (bandSlice (fourierFreqs t) q).1).Nodup := by
    have h1 : (fourierFreqs t).Nodup := (fourier_sorted t h).imp fun hab => ne_of_lt hab
    exact (h1.sublist (List.take_sublist _ _)).sublist (List.drop_sublist _ _)
  have : S = (((fourierFreqs t).take (bandSlice (fourierFreqs t) q).2).drop
      (bandSlice (fourierFreqs t) q).1).toFinset := by
    ext x
    rw [hS, List.mem_toFinset, slice_reached t h]
  rw [this, List.toFinset_card_of_nodup hnd, List.length_drop, List.length_take]
  have : (bandSlice (fourierFreqs t) q).2 ≤ (fourierFreqs t).length := Nat.min_le_left _ _
  omega

theorem linspace_head (a b : ℝ) : (linspace a b 500).headD 0 = a := by
  unfold linspace
  rw [List.range_succ_eq_map]
  simp

theorem linspace_last (a b : ℝ) : (linspace a b 500).getLastD 0 = b := by
  unfold linspace
  rw [List.range_succ]
  simp
  ring

/-- **C63, one band.** -/
theorem lombBand_grid (t : List ℝ) (h : t.headD 0 < t.getLastD 0) (q : ℚ × ℚ) :
    BandGrid t ((q.1 : ℝ), (q.2 : ℝ)) (lombBand (fourierFreqs t) q) := by
  have hle : (bandSlice (fourierFreqs t) q).2 ≤ (fourierFreqs t).length := Nat.min_le_left _ _
  unfold lombBand
  dsimp only
  by_cases hmany : (bandSlice (fourierFreqs t) q).2 - (bandSlice (fourierFreqs t) q).1 > 500
  · rw [if_pos hmany]
    set i0 := (bandSlice (fourierFreqs t) q).1 with hi0
    set i1 := (bandSlice (fourierFreqs t) q).2 with hi1
    have h0 : i0 < (fourierFreqs t).length := by omega
    have h1 : i1 - 1 < (fourierFreqs t).length := by omega
    rw [List.getD_eq_getElem _ _ h0, List.getD_eq_getElem _ _ h1]
    have hlt : (fourierFreqs t)[i0] < (fourierFreqs t)[i1 - 1] :=
      List.pairwise_iff_getElem.1 (fourier_sorted t h) _ _ h0 h1 (by omega)
    have r0 := (mem_slice t h q i0 h0).1 ⟨le_refl _, by omega⟩
    have r1 := (mem_slice t h q (i1 - 1) h1).1 ⟨by omega, by omega⟩
    refine ⟨by simp [linspace], linspace_sorted _ _ hlt, ?_, ?_, ?_⟩
    · intro x hx
      obtain ⟨ha, hb⟩ := linspace_between _ _ hlt.le x hx
      exact ⟨_, _, r0, r1, ha, hb⟩
    · intro S hS hc
      rw [slice_card t h q S hS] at hc
      omega
    · intro S hS hc
      refine ⟨by simp [linspace], ?_, ?_, ?_⟩
      · intro x hx
        rw [linspace_head, linspace_last]
        obtain ⟨i, hi, rfl⟩ := List.mem_iff_getElem.1 ((fourier_mem t h x).2 ((hS x).1 hx).1)
        obtain ⟨ha, hb⟩ := (mem_slice t h q i hi).2 ((hS _).1 hx)
        have hmono : ∀ j k (hk : k < (fourierFreqs t).length) (hjk : j ≤ k),
            (fourierFreqs t)[j]'(lt_of_le_of_lt hjk hk) ≤ (fourierFreqs t)[k] := by
          intro j k hk hjk
          rcases Nat.lt_or_eq_of_le hjk with hc | hc
          · exact (List.pairwise_iff_getElem.1 (fourier_sorted t h) j k _ hk hc).le
          · subst hc; exact le_refl _
        exact ⟨hmono i0 i hi ha, hmono i (i1 - 1) h1 (by omega)⟩
      · rw [linspace_head]; exact r0
      · rw [linspace_last]; exact r1
  · rw [if_neg hmany]
    refine ⟨?_, ?_, ?_, ?_, ?_⟩
    · rw [List.length_drop, List.length_take]; omega
    · exact ((fourier_sorted t h).sublist (List.take_sublist _ _)).sublist (List.drop_sublist _ _)
    · intro x hx
      have := (slice_reached t h q x).1 hx
      exact ⟨x, x, this, this, le_refl _, le_refl _⟩
    · intro S hS hc x
      exact slice_reached t h q x
    · intro S hS hc
      rw [slice_card t h q S hS] at hc
      omega

/-- **C63.** For every time axis whose last time is later than its first, the Lomb-Scargle grid consists of nine
parts, one per band. Each has at most 500 frequencies in increasing order, all lying between Fourier frequencies of
the record that the band reaches; if the band reaches at most 500 of them, the part consists of exactly these,
otherwise of 500 frequencies from the first to the last of them. -/
theorem C63_grid (t : List ℝ) (h : t.headD 0 < t.getLastD 0) :
    ∃ grid : List (List ℝ), lombFreqs t = grid.flatten ∧ grid.length = noiseBands.length ∧
      ∀ (k : ℕ) b g, noiseBands[k]? = some b → grid[k]? = some g → BandGrid t b g := by
  refine ⟨freqBands.map (lombBand (fourierFreqs t)), ?_, ?_, ?_⟩
  · unfold lombFreqs; rw [List.flatMap_def]
  · rw [← bands_eq]; simp
  · intro k b g hb hg
    obtain ⟨q, hq, rfl⟩ := bands_getElem k b hb
    rw [List.getElem?_map, hq, Option.map_some, Option.some.injEq] at hg
    subst hg
    exact lombBand_grid t h q

/-- **C63, order.** The whole grid is in (weakly) increasing order: `fbndavg` gets an ordered grid. -/
theorem C63_sorted (t : List ℝ) (h : t.headD 0 < t.getLastD 0) : (lombFreqs t).Pairwise (· ≤ ·) := by
  unfold lombFreqs
  rw [List.flatMap_def, List.pairwise_flatten]
  constructor
  · intro g hg
    obtain ⟨q, -, rfl⟩ := List.mem_map.1 hg
    exact (lombBand_grid t h q).increasing.imp le_of_lt
  · rw [List.pairwise_map]
    have hp : freqBands.Pairwise fun a b => (a.2 : ℝ) < (b.1 : ℝ) := by
      have := C62_bands.2
      rwa [← bands_eq, List.pairwise_map] at this
    refine hp.imp ?_
    intro a b hab x hx y hy
    obtain ⟨lo, hi, -, r1, -, h1⟩ := (lombBand_grid t h a).between x hx
    obtain ⟨lo', hi', r2, -, h2, -⟩ := (lombBand_grid t h b).between y hy
    have h3 : (b.1 : ℝ) ≤ lo' := r2.2.1
    by_contra hc
    have hc := not_le.mp hc
    have : lo' < a.2 := r1.2.2 lo' r2.1 (by linarith)
    linarith

/-- Non-vacuity: four hourly samples; the only Fourier frequency is one cycle in four hours. -/
example : (([0, 1, 2, 3] : List ℝ).headD 0 < ([0, 1, 2, 3] : List ℝ).getLastD 0) ∧
    IsFourier [0, 1, 2, 3] 0.25 ∧ Reached [0, 1, 2, 3] (0.2332, 0.251) 0.25 := by
  have hf : IsFourier [0, 1, 2, 3] 0.25 := ⟨1, le_refl _, by simp, by norm_num⟩
  refine ⟨by norm_num, hf, hf, by norm_num, ?_⟩
  rintro y ⟨k, h1, h2, h3⟩ hlt
  norm_num at h3 ⊢
  linarith

end

end Props

end UTide
