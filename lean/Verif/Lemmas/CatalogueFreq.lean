import Verif.Lemmas.Rayleigh

/-!
# Linearised frequencies against the frequencies of the catalogue
-/

namespace UTide

open Props

noncomputable section

/-! ## Frequencies as polynomials in time -/

/-- The three coefficients of the rates of `ut_astron`: constant, linear and quadratic in `D`, in degrees per day. -/
def rateRow (d : Doodson) (full s h p np pp : ℚ) : ℚ :=
  (d.d1 * (full + h - s) + d.d2 * s + d.d3 * h + d.d4 * p + d.d5 * np + d.d6 * pp) / 8640

def rateCoef (j : ℕ) (d : Doodson) : ℚ := match j with
  | 0 => rateRow d 360 13.1763965268 0.9856473354 0.1114040803 0.0529539222 0.0000470684
  | 1 => rateRow d 0 (-0.0000850 * 2.0e-4) (0.00002267 * 2.0e-4) (-0.0007739 * 2.0e-4) (-0.0001557 * 2.0e-4) (0.0000339 * 2.0e-4)
  | _ => rateRow d 0 (0.000000039 * 3.0e-4) 0 (-0.00000026 * 3.0e-4) (-0.000000050 * 3.0e-4) (0.000000070 * 3.0e-4)

def primCoef (j k : ℕ) : ℚ := match kindOf k with
  | some (.primary d _) => rateCoef j d
  | _ => 0

def freqCoef (j k : ℕ) : ℚ := match kindOf k with
  | some (.shallow parts) => (parts.map fun q => dyRat q.2 * primCoef j q.1).sum
  | _ => primCoef j k

theorem rate_poly (d : Doodson) (tref : ℝ) : d.dot (ader tref) / 24 = (rateCoef 0 d : ℝ) +
    rateCoef 1 d * ((tref - daten) / 10000) + rateCoef 2 d * ((tref - daten) / 10000) ^ 2 := by
  unfold Doodson.dot ader rateCoef rateRow Cubic.dotDargs
  dsimp only
  generalize (tref - daten) / 10000 = D
  simp only [scCoef, hcCoef, pcCoef, npcCoef, ppcCoef]
  push_cast
  norm_num
  ring

theorem sum_poly (parts : List (ℕ × Dy)) (x : ℝ) (f : ℕ → ℝ) (h : ∀ q ∈ parts, f q.1 = (primCoef 0 q.1 : ℝ) +
    primCoef 1 q.1 * x + primCoef 2 q.1 * x ^ 2) :
    (parts.map fun q => q.2.toReal * f q.1).sum = (((parts.map fun q => dyRat q.2 * primCoef 0 q.1).sum : ℚ) : ℝ) +
      ((parts.map fun q => dyRat q.2 * primCoef 1 q.1).sum : ℚ) * x +
      ((parts.map fun q => dyRat q.2 * primCoef 2 q.1).sum : ℚ) * x ^ 2 := by
  induction parts with
  | nil => simp
  | cons a l ih =>
    simp only [List.map_cons, List.sum_cons]
    rw [h a (by simp), ih fun q hq => h q (List.mem_cons_of_mem _ hq)]
    push_cast
    rw [dyRat_cast]
    ring

/-- The linearised frequency is a quadratic polynomial in the reference time. -/
theorem freq_poly (tref : ℝ) (k : ℕ) (hk : k < 146) : linFreqs tref k = (freqCoef 0 k : ℝ) +
    freqCoef 1 k * ((tref - daten) / 10000) + freqCoef 2 k * ((tref - daten) / 10000) ^ 2 := by
  have hsome : ∃ x, kindOf k = some x := by
    have : k < catalogue.length := by rw [catalogue_length]; exact hk
    exact ⟨catalogue[k].kind, by unfold kindOf; rw [List.getElem?_eq_getElem this]; rfl⟩
  obtain ⟨x, hx⟩ := hsome
  have prim : ∀ {j : ℕ} {d : Doodson} {s : Dy}, kindOf j = some (.primary d s) → linFreqs tref j = (primCoef 0 j : ℝ) +
      primCoef 1 j * ((tref - daten) / 10000) + primCoef 2 j * ((tref - daten) / 10000) ^ 2 := by
    intro j d s hj
    rw [linFreqs_primary tref hj, rate_poly]
    unfold primCoef
    rw [hj]
  cases x with
  | primary d s =>
    rw [prim hx]
    unfold freqCoef
    rw [hx]
  | shallow parts =>
    rw [linFreqs_shallow tref hx]
    unfold freqCoef
    rw [hx]
    dsimp only
    refine sum_poly parts _ (linFreqs tref) fun q hq => ?_
    obtain ⟨d, s, hd⟩ := kindOf_parent hx hq
    exact prim hd

/-! ## Tables -/

/-- The catalogue frequency at position `k`. -/
def catFreq (k : ℕ) : ℚ := match catalogue[k]? with
  | some c => dyRat c.freq
  | none => 0

/-- Four hundred years before and after 1900: within 1e-9 cycles per hour. -/
theorem near_table : ((List.range 146).all fun k => decide (|freqCoef 0 k - catFreq k| + |freqCoef 1 k| * 14.61 +
    |freqCoef 2 k| * 14.61 ^ 2 ≤ 1 / 10 ^ 9)) = true := by decide +kernel

/-- In the first ten thousand years: within 1e-6 cycles per hour. -/
theorem far_table : ((List.range 146).all fun k => decide (|freqMid k - catFreq k| + freqDev k ≤ 1 / 10 ^ 6)) = true := by
  decide +kernel

/-- Different catalogue frequencies are at least 1e-5 cycles per hour apart. -/
theorem gap_table : (catalogue.all fun a => catalogue.all fun b => (a.name == b.name) ||
    decide (dyRat a.freq + 1 / 10 ^ 5 ≤ dyRat b.freq) || decide (dyRat b.freq + 1 / 10 ^ 5 ≤ dyRat a.freq)) = true := by
  decide +kernel

end

end UTide
