import Verif.Props.NodalProps

/-!
# The automatic selection against the record: numbers and frequencies
-/

namespace UTide

open Props

noncomputable section

/-! ## How many constituents a record of given length gets -/

/-- How many catalogue entries have a resolution `df` at least that of entry `c`. -/
def dfRank (c : Con) : ℕ := (catalogue.filter fun d => c.df.le d.df).length

/-- Twice the rank plus one, times `df`, is less than one. -/
def rankFits (c : Con) : Bool := decide ((2 * dfRank c + 1 : ℤ) * c.df.num < 2 ^ c.df.exp)

theorem rank_table : (catalogue.all fun c => decide (c.df.num ≤ 0) || rankFits c) = true := by decide +kernel

theorem dy_pos {d : Dy} (h : 0 < d.toReal) : 0 < d.num := by
  unfold Dy.toReal at h
  have h2 : (0 : ℝ) < 2 ^ d.exp := by positivity
  have := (div_pos_iff_of_pos_right h2).1 h
  exact_mod_cast this

theorem exists_min_df (l : List Con) (h : l ≠ []) : ∃ c ∈ l, ∀ d ∈ l, c.df.toReal ≤ d.df.toReal := by
  induction l with
  | nil => exact absurd rfl h
  | cons a l ih =>
    by_cases hl : l = []
    · subst hl; exact ⟨a, by simp, by simp⟩
    · obtain ⟨c, hc, hmin⟩ := ih hl
      rcases le_total a.df.toReal c.df.toReal with h1 | h1
      · exact ⟨a, by simp, fun d hd => by
          rcases List.mem_cons.1 hd with rfl | hd
          · exact le_rfl
          · exact h1.trans (hmin d hd)⟩
      · exact ⟨c, List.mem_cons_of_mem _ hc, fun d hd => by
          rcases List.mem_cons.1 hd with rfl | hd
          · exact h1
          · exact hmin d hd⟩

open Classical in
/-- Less than `(T - 1)/2` catalogue entries can be resolved with `T` hours, or none. -/
theorem resolved_few (T : ℝ) (hT : 0 < T) (m : ℝ) (hm : 1 / T ≤ m) :
    (catalogue.filter fun c => decide (m ≤ c.df.toReal)) = [] ∨
    2 * ((catalogue.filter fun c => decide (m ≤ c.df.toReal)).length : ℝ) + 1 < T := by
  have hm0 : 0 < m := lt_of_lt_of_le (by positivity) hm
  by_cases hne : (catalogue.filter fun c => decide (m ≤ c.df.toReal)) = []
  · exact .inl hne
  refine .inr ?_
  obtain ⟨c, hc, hmin⟩ := exists_min_df _ hne
  rw [List.mem_filter, decide_eq_true_eq] at hc
  have hle : (catalogue.filter fun c => decide (m ≤ c.df.toReal)).length ≤ dfRank c := by
    unfold dfRank
    rw [← List.countP_eq_length_filter, ← List.countP_eq_length_filter]
    refine List.countP_mono_left fun d hd h => ?_
    rw [Dy.le_iff]
    exact hmin d (List.mem_filter.2 ⟨hd, h⟩)
  have hpos := dy_pos (hm0.trans_le hc.2)
  have htab := List.all_eq_true.1 rank_table c hc.1
  rw [Bool.or_eq_true, decide_eq_true_eq] at htab
  have hfit := htab.resolve_left (not_le.2 hpos)
  unfold rankFits at hfit
  rw [decide_eq_true_eq] at hfit
  have hfit' : (2 * (dfRank c : ℝ) + 1) * c.df.toReal < 1 := by
    unfold Dy.toReal
    rw [← mul_div_assoc, div_lt_one (by positivity)]
    exact_mod_cast hfit
  have h1 : 1 / T ≤ c.df.toReal := hm.trans hc.2
  have h2 : (2 * ((catalogue.filter fun c => decide (m ≤ c.df.toReal)).length : ℝ) + 1) ≤ 2 * (dfRank c : ℝ) + 1 := by
    have : ((catalogue.filter fun c => decide (m ≤ c.df.toReal)).length : ℝ) ≤ dfRank c := by exact_mod_cast hle
    linarith
  have h3 : (2 * (dfRank c : ℝ) + 1) * (1 / T) < 1 := lt_of_le_of_lt (mul_le_mul_of_nonneg_left h1 (by positivity)) hfit'
  rw [mul_one_div, div_lt_one hT] at h3
  linarith

/-! ## The frequencies -/

/-- The rates of `ut_astron` (cycles per day) without their slow changes. -/
def rateMid (d : Doodson) : ℚ :=
  d.d1 * (1 + 0.9856473354 / 360 - 13.1763965268 / 360) + d.d2 * (13.1763965268 / 360) + d.d3 * (0.9856473354 / 360) +
    d.d4 * (0.1114040803 / 360) + d.d5 * (0.0529539222 / 360) + d.d6 * (0.0000470684 / 360)

/-- Sum of the absolute Doodson numbers (the first counts twice, `tau` having two slowly changing terms). -/
def rateSize (d : Doodson) : ℚ := 2 * |(d.d1 : ℚ)| + |(d.d2 : ℚ)| + |(d.d3 : ℚ)| + |(d.d4 : ℚ)| + |(d.d5 : ℚ)| + |(d.d6 : ℚ)|

/-- Greatest slow change of a rate, cycles per day, in the first ten thousand years. -/
def rateEps : ℚ := 2 / 10 ^ 7

def primMid (k : ℕ) : ℚ := match kindOf k with
  | some (.primary d _) => rateMid d / 24
  | _ => 0

def primDev (k : ℕ) : ℚ := match kindOf k with
  | some (.primary d _) => rateSize d * rateEps / 24
  | _ => 0

/-- Frequency (cycles per hour) without slow changes, and bound on those. -/
def freqMid (k : ℕ) : ℚ := match kindOf k with
  | some (.shallow parts) => (parts.map fun q => dyRat q.2 * primMid q.1).sum
  | _ => primMid k

def freqDev (k : ℕ) : ℚ := match kindOf k with
  | some (.shallow parts) => (parts.map fun q => |dyRat q.2| * primDev q.1).sum
  | _ => primDev k

/-- The catalogue positions that are ever selected automatically. -/
def selectable : List ℕ := (List.range 146).filter fun k => match catalogue[k]? with
  | some c => decide (0 < c.df.num)
  | none => false

/-- Positive, below half a cycle per hour, and in increasing order, all with their margins. -/
def freqsOk : Bool :=
  (selectable.all fun k => decide (0 < freqMid k - freqDev k) && decide (freqMid k + freqDev k < 1 / 2)) &&
  (List.zipWith (fun j k => decide (freqMid j + freqDev j < freqMid k - freqDev k)) selectable selectable.tail).all id

theorem freq_table : freqsOk = true := by decide +kernel

/-! ## The bound -/

theorem dargs_close (c : Cubic) (tref : ℝ) (h0 : 0 ≤ tref) (h1 : tref ≤ 4000000) (h2 : |c.c2| ≤ 0.0007739)
    (h3 : |c.c3| ≤ 0.00000026) : |c.dotDargs tref / 360.0 - c.c1 / 360| ≤ (rateEps : ℝ) := by
  unfold Cubic.dotDargs daten
  dsimp only
  generalize hD : (tref - 693595.5) / 10000 = D
  have hD1 : |D| ≤ 331 := by
    rw [← hD, abs_le]
    constructor <;> linarith
  have e : (c.c0 * 0 + c.c1 * 1 + c.c2 * (2.0e-4 * D) + c.c3 * (3.0e-4 * D * D)) / 360.0 - c.c1 / 360 =
      (c.c2 * (2.0e-4 * D) + c.c3 * (3.0e-4 * D * D)) / 360 := by norm_num; ring
  simp only [e]
  rw [abs_div, abs_of_pos (show (0 : ℝ) < 360 by norm_num), div_le_iff₀ (by norm_num)]
  have a1 : |c.c2 * (2.0e-4 * D)| ≤ 0.0007739 * (2.0e-4 * 331) := by
    rw [abs_mul, abs_mul, abs_of_pos (show (0 : ℝ) < 2.0e-4 by norm_num)]
    gcongr
  have a2 : |c.c3 * (3.0e-4 * D * D)| ≤ 0.00000026 * (3.0e-4 * 331 * 331) := by
    rw [abs_mul, abs_mul, abs_mul, abs_of_pos (show (0 : ℝ) < 3.0e-4 by norm_num)]
    gcongr
  refine (abs_add_le _ _).trans ((add_le_add a1 a2).trans ?_)
  unfold rateEps
  norm_num

theorem rate_close (d : Doodson) (tref : ℝ) (h0 : 0 ≤ tref) (h1 : tref ≤ 4000000) :
    |d.dot (ader tref) - (rateMid d : ℝ)| ≤ ((rateSize d * rateEps : ℚ) : ℝ) := by
  have hs := dargs_close scCoef tref h0 h1 (by norm_num [scCoef]) (by norm_num [scCoef])
  have hh := dargs_close hcCoef tref h0 h1 (by norm_num [hcCoef]) (by norm_num [hcCoef])
  have hp := dargs_close pcCoef tref h0 h1 (by norm_num [pcCoef]) (by norm_num [pcCoef])
  have hn := dargs_close npcCoef tref h0 h1 (by norm_num [npcCoef]) (by norm_num [npcCoef])
  have hpp := dargs_close ppcCoef tref h0 h1 (by norm_num [ppcCoef]) (by norm_num [ppcCoef])
  have hc : scCoef.c1 = 13.1763965268 ∧ hcCoef.c1 = 0.9856473354 ∧ pcCoef.c1 = 0.1114040803 ∧
      npcCoef.c1 = 0.0529539222 ∧ ppcCoef.c1 = 0.0000470684 := ⟨rfl, rfl, rfl, rfl, rfl⟩
  rw [hc.1] at hs; rw [hc.2.1] at hh; rw [hc.2.2.1] at hp; rw [hc.2.2.2.1] at hn; rw [hc.2.2.2.2] at hpp
  unfold Doodson.dot ader
  dsimp only
  generalize scCoef.dotDargs tref / 360.0 = s at hs
  generalize hcCoef.dotDargs tref / 360.0 = h at hh
  generalize pcCoef.dotDargs tref / 360.0 = p at hp
  generalize npcCoef.dotDargs tref / 360.0 = n at hn
  generalize ppcCoef.dotDargs tref / 360.0 = pp at hpp
  rw [Rat.cast_mul]
  generalize (rateEps : ℝ) = ε at hs hh hp hn hpp ⊢
  have hε : 0 ≤ ε := (abs_nonneg _).trans hs
  unfold rateMid rateSize
  push_cast
  have key : ∀ (k : ℤ) (x : ℝ), |x| ≤ ε → |(k : ℝ) * x| ≤ |(k : ℝ)| * ε := fun k x hx => by
    rw [abs_mul]; exact mul_le_mul_of_nonneg_left hx (abs_nonneg _)
  have e : (d.d1 : ℝ) * (1.0 + h - s) + d.d2 * s + d.d3 * h + d.d4 * p + d.d5 * n + d.d6 * pp -
      ((d.d1 : ℝ) * (1 + 0.9856473354 / 360 - 13.1763965268 / 360) + d.d2 * (13.1763965268 / 360) +
        d.d3 * (0.9856473354 / 360) + d.d4 * (0.1114040803 / 360) + d.d5 * (0.0529539222 / 360) +
        d.d6 * (0.0000470684 / 360)) =
      d.d1 * (h - 0.9856473354 / 360) + d.d1 * (-(s - 13.1763965268 / 360)) + d.d2 * (s - 13.1763965268 / 360) +
        d.d3 * (h - 0.9856473354 / 360) + d.d4 * (p - 0.1114040803 / 360) + d.d5 * (n - 0.0529539222 / 360) +
        d.d6 * (pp - 0.0000470684 / 360) := by
    norm_num; ring
  have f : ∀ x y z w a b c : ℝ, |x + y + z + w + a + b + c| ≤ |x| + |y| + |z| + |w| + |a| + |b| + |c| := by
    intro x y z w a b c
    refine (abs_add_le _ _).trans ?_
    gcongr
    refine (abs_add_le _ _).trans ?_
    gcongr
    refine (abs_add_le _ _).trans ?_
    gcongr
    refine (abs_add_le _ _).trans ?_
    gcongr
    refine (abs_add_le _ _).trans ?_
    gcongr
    exact abs_add_le _ _
  have g := f (d.d1 * (h - 0.9856473354 / 360)) (d.d1 * (-(s - 13.1763965268 / 360))) (d.d2 * (s - 13.1763965268 / 360))
    (d.d3 * (h - 0.9856473354 / 360)) (d.d4 * (p - 0.1114040803 / 360)) (d.d5 * (n - 0.0529539222 / 360))
    (d.d6 * (pp - 0.0000470684 / 360))
  have k1 := key d.d1 _ hh
  have k2 := key d.d1 (-(s - 13.1763965268 / 360)) (by rwa [abs_neg])
  have k3 := key d.d2 _ hs
  have k4 := key d.d3 _ hh
  have k5 := key d.d4 _ hp
  have k6 := key d.d5 _ hn
  have k7 := key d.d6 _ hpp
  calc _ = _ := congrArg abs e
    _ ≤ _ := g
    _ ≤ _ := by linarith

theorem prim_close (tref : ℝ) (h0 : 0 ≤ tref) (h1 : tref ≤ 4000000) {k : ℕ} {d : Doodson} {s : Dy}
    (h : kindOf k = some (.primary d s)) : |linFreqs tref k - (primMid k : ℝ)| ≤ (primDev k : ℝ) := by
  rw [linFreqs_primary tref h]
  unfold primMid primDev
  rw [h]
  have := rate_close d tref h0 h1
  push_cast at this ⊢
  rw [← sub_div, abs_div, abs_of_pos (show (0 : ℝ) < 24 by norm_num)]
  gcongr

theorem sum_close {ι : Type} (l : List ι) (a b r : ι → ℝ) (h : ∀ x ∈ l, |a x - b x| ≤ r x) :
    |(l.map a).sum - (l.map b).sum| ≤ (l.map r).sum := by
  induction l with
  | nil => simp
  | cons x l ih =>
    simp only [List.map_cons, List.sum_cons]
    have h1 := h x (by simp)
    have h2 := ih fun y hy => h y (List.mem_cons_of_mem _ hy)
    have e : a x + (l.map a).sum - (b x + (l.map b).sum) = (a x - b x) + ((l.map a).sum - (l.map b).sum) := by ring
    rw [e]
    exact (abs_add_le _ _).trans (add_le_add h1 h2)

/-- Frequencies stay close to their long-term values. -/
theorem freq_close (tref : ℝ) (h0 : 0 ≤ tref) (h1 : tref ≤ 4000000) (k : ℕ) (hk : k < 146) :
    |linFreqs tref k - (freqMid k : ℝ)| ≤ (freqDev k : ℝ) := by
  have hsome : ∃ x, kindOf k = some x := by
    have : k < catalogue.length := by rw [catalogue_length]; exact hk
    exact ⟨catalogue[k].kind, by unfold kindOf; rw [List.getElem?_eq_getElem this]; rfl⟩
  obtain ⟨x, hx⟩ := hsome
  cases x with
  | primary d s =>
    have := prim_close tref h0 h1 hx
    unfold freqMid freqDev
    rw [hx]
    exact this
  | shallow parts =>
    rw [linFreqs_shallow tref hx]
    unfold freqMid freqDev
    rw [hx]
    dsimp only
    have c1 : (((parts.map fun q => dyRat q.2 * primMid q.1).sum : ℚ) : ℝ) =
        (parts.map fun q => q.2.toReal * (primMid q.1 : ℝ)).sum := by
      rw [Rat.cast_list_sum, List.map_map]
      refine congrArg List.sum (List.map_congr_left fun q _ => ?_)
      simp only [Function.comp, Rat.cast_mul, dyRat_cast]
    have c2 : (((parts.map fun q => |dyRat q.2| * primDev q.1).sum : ℚ) : ℝ) =
        (parts.map fun q => |q.2.toReal| * (primDev q.1 : ℝ)).sum := by
      rw [Rat.cast_list_sum, List.map_map]
      refine congrArg List.sum (List.map_congr_left fun q _ => ?_)
      simp only [Function.comp, Rat.cast_mul, Rat.cast_abs, dyRat_cast]
    rw [c1, c2]
    refine sum_close _ _ _ _ fun q hq => ?_
    obtain ⟨d, s, hd⟩ := kindOf_parent hx hq
    rw [← mul_sub, abs_mul]
    exact mul_le_mul_of_nonneg_left (prim_close tref h0 h1 hd) (abs_nonneg _)

theorem primDev_nonneg (k : ℕ) : 0 ≤ primDev k := by
  unfold primDev
  split
  · unfold rateSize rateEps; positivity
  · exact le_rfl

theorem freqDev_nonneg (k : ℕ) : 0 ≤ freqDev k := by
  unfold freqDev
  split
  · refine List.sum_nonneg fun x hx => ?_
    obtain ⟨q, -, rfl⟩ := List.mem_map.1 hx
    exact mul_nonneg (abs_nonneg _) (primDev_nonneg _)
  · exact primDev_nonneg k

theorem zip_chain (R : ℕ → ℕ → Prop) (hR : ∀ a b c, R a b → R b c → R a c) (l : List ℕ)
    (f : ℕ → ℕ → Bool) (hf : ∀ a b, f a b = true → R a b) (h : (List.zipWith f l l.tail).all id = true) :
    l.Pairwise R := by
  induction l with
  | nil => exact List.Pairwise.nil
  | cons a l ih =>
    cases l with
    | nil => simp
    | cons b l =>
      simp only [List.tail_cons, List.zipWith_cons_cons, List.all_cons, id, Bool.and_eq_true] at h
      have h2 := ih h.2
      refine List.pairwise_cons.2 ⟨fun c hc => ?_, h2⟩
      have h1 := hf a b h.1
      rcases List.mem_cons.1 hc with rfl | hc
      · exact h1
      · exact hR _ _ _ h1 ((List.pairwise_cons.1 h2).1 c hc)

theorem mem_selectable (k : ℕ) (c : Con) (hk : catalogue[k]? = some c) (h : 0 < c.df.toReal) : k ∈ selectable := by
  unfold selectable
  rw [List.mem_filter, List.mem_range, ← catalogue_length]
  refine ⟨(List.getElem?_eq_some_iff.1 hk).1, ?_⟩
  rw [hk]
  simpa using dy_pos h

/-- In the first ten thousand years the frequencies of the constituents that can be selected automatically are
positive, below half a cycle per hour, and in the order of the catalogue. -/
theorem freq_good (tref : ℝ) (h0 : 0 ≤ tref) (h1 : tref ≤ 4000000) :
    (∀ k ∈ selectable, 0 < linFreqs tref k ∧ linFreqs tref k < 1 / 2) ∧
    selectable.Pairwise fun j k => linFreqs tref j < linFreqs tref k := by
  have hlt : ∀ k ∈ selectable, k < 146 := fun k hk => List.mem_range.1 (List.mem_filter.1 hk).1
  have ht := freq_table
  unfold freqsOk at ht
  rw [Bool.and_eq_true] at ht
  constructor
  · intro k hk
    have := List.all_eq_true.1 ht.1 k hk
    rw [Bool.and_eq_true, decide_eq_true_eq, decide_eq_true_eq] at this
    have e1 : (0 : ℝ) < (freqMid k : ℝ) - (freqDev k : ℝ) := by exact_mod_cast this.1
    have e2 : (freqMid k : ℝ) + (freqDev k : ℝ) < 1 / 2 := by
      have := (Rat.cast_lt (K := ℝ)).2 this.2
      push_cast at this
      exact this
    have := abs_le.1 (freq_close tref h0 h1 k (hlt k hk))
    constructor <;> linarith
  · have hp := zip_chain (fun j k => (freqMid j + freqDev j : ℝ) < freqMid k - freqDev k ∧ 0 ≤ (freqDev k : ℝ)) ?_
      selectable _ ?_ ht.2
    · refine hp.imp_of_mem fun {j k} hj hk h => ?_
      have a1 := abs_le.1 (freq_close tref h0 h1 k (hlt k hk))
      have a2 := abs_le.1 (freq_close tref h0 h1 j (hlt j hj))
      linarith
    · intro a b c h1 h2
      exact ⟨by linarith [h1.1, h2.1, h1.2], h2.2⟩
    · intro a b hab
      rw [decide_eq_true_eq] at hab
      exact ⟨by exact_mod_cast hab, by exact_mod_cast freqDev_nonneg b⟩

end

end UTide
