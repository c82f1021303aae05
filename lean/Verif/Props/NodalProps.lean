import Mathlib.Analysis.SpecialFunctions.Trigonometric.Bounds
import Mathlib.Analysis.Real.Pi.Bounds
import Verif.Props.HarmonicProps
import Verif.Lemmas.Fit

/-!
# Size of the nodal corrections: C92
-/

namespace UTide.Props

noncomputable section

/-! ## Specification -/

/-- How far the nodal correction of a constituent can be from one, at any time and any latitude: the sum of the
amplitude ratios of its satellites, at the most unfavourable latitude. -/
def modulationBound : List (String × ℚ) :=
  [("Z0", 0), ("SA", 0), ("SSA", 0), ("MSM", 0), ("MM", 0), ("MSF", 0), ("MF", 0), ("T2", 0),
   ("ALP1", 0.336), ("2Q1", 0.542), ("SIG1", 0.242), ("Q1", 0.378), ("RHO1", 0.322), ("O1", 0.218), ("TAU1", 0.476),
   ("BET1", 0.227), ("CHI1", 0.247), ("PI1", 0.008), ("P1", 0.016), ("S1", 0.380), ("K1", 0.164), ("PSI1", 0.019),
   ("PHI1", 0.116), ("THE1", 0.318), ("J1", 0.746), ("OQ2", 0.310), ("EPS2", 0.162), ("2N2", 0.251), ("MU2", 0.070),
   ("N2", 0.043), ("NU2", 0.057), ("GAM2", 0.253), ("H1", 0.068), ("M2", 0.044), ("H2", 0.022), ("LDA2", 0.045),
   ("L2", 0.418), ("S2", 0.003), ("R2", 0.268), ("K2", 0.351), ("ETA2", 0.853), ("M3", 0.057)]

/-- The constituents whose satellites together may exceed the main line. -/
def strongSatellites : List String := ["NO1", "OO1", "UPS1"]

/-- A latitude at which the corrections are defined (C43). -/
def GoodLat (lat : ℝ) : Prop := -90 ≤ lat ∧ lat ≤ 90 ∧ lat ≠ 0

/-- Amplitude factor `F` and phase shift `U` (cycles) are those of a complex number at most `b` away from one. -/
structure Moderate (F U b : ℝ) : Prop where
  lower : 1 - b ≤ F
  upper : F ≤ 1 + b
  shift : |Real.sin (2 * Real.pi * U)| ≤ b
  forward : b < 1 → 0 < Real.cos (2 * Real.pi * U)

/-! ## Lemmas -/

theorem sin_five : (0.0871 : ℝ) < Real.sin (5 * Real.pi / 180) := by
  have h1 := Real.pi_gt_d6
  have h2 := Real.pi_lt_d6
  have h3 := Real.sin_gt_sub_cube (x := 5 * Real.pi / 180) (by positivity)
  have h4 : (5 * Real.pi / 180) ^ 3 ≤ (0.0873 : ℝ) ^ 3 := by
    apply pow_le_pow_left₀ (by positivity)
    linarith
  norm_num at h4
  linarith

theorem slat_band {lat : ℝ} (h : GoodLat lat) : 0.0871 ≤ |slat lat| ∧ |slat lat| ≤ 1 := by
  refine ⟨?_, Real.abs_sin_le_one _⟩
  obtain ⟨h1, h2, h0⟩ := h
  have hpi := Real.pi_pos
  have key : ∀ x : ℝ, 5 ≤ x → x ≤ 90 → (0.0871 : ℝ) ≤ Real.sin (x * Real.pi / 180) := by
    intro x hx hx'
    refine sin_five.le.trans (Real.sin_le_sin_of_le_of_le_pi_div_two ?_ ?_ ?_)
    · have : 0 < 5 * Real.pi / 180 := by positivity
      linarith
    · rw [div_le_iff₀ (by norm_num)]; nlinarith
    · rw [div_le_div_iff_of_pos_right (by norm_num)]; nlinarith
  have neg : ∀ x : ℝ, x ≤ -5 → -90 ≤ x → (0.0871 : ℝ) ≤ |Real.sin (x * Real.pi / 180)| := by
    intro x hx hx'
    have := key (-x) (by linarith) (by linarith)
    rw [show -x * Real.pi / 180 = -(x * Real.pi / 180) by ring, Real.sin_neg] at this
    exact this.trans (neg_le_abs _)
  unfold slat clampLat
  split
  · rcases lt_or_gt_of_ne h0 with h | h
    · rw [sign_neg h]; exact neg _ (by norm_num) (by norm_num)
    · rw [sign_pos h]; exact (key _ (by norm_num) (by norm_num)).trans (le_abs_self _)
  · rename_i h5
    rcases lt_or_gt_of_ne h0 with h | h
    · rw [abs_of_neg h] at h5; exact neg _ (by linarith) h1
    · rw [abs_of_pos h] at h5; exact (key _ (by linarith) h2).trans (le_abs_self _)

theorem diurnal_factor {s : ℝ} (h1 : 0.0871 ≤ |s|) (h2 : |s| ≤ 1) : |0.36309 * (1.0 - 5.0 * s ^ 2) / s| ≤ 4.02 := by
  have h0 : 0 < |s| := by linarith
  rw [abs_div, abs_mul, div_le_iff₀ h0, abs_of_pos (by norm_num : (0 : ℝ) < 0.36309), ← sq_abs s]
  have : |1.0 - 5.0 * |s| ^ 2| ≤ 11.071 * |s| := by
    rw [abs_le]
    constructor <;> nlinarith
  nlinarith

/-- The largest value of the latitude factor. -/
def latMax (s : Sat) : ℚ := if s.ilatfac = 1 then 4.02 else if s.ilatfac = 2 then 2.6 else 1

def dyRat (d : Dy) : ℚ := d.num / 2 ^ d.exp

theorem dyRat_cast (d : Dy) : ((dyRat d : ℚ) : ℝ) = d.toReal := by
  unfold dyRat Dy.toReal; push_cast; rfl

theorem satRatio_le {lat : ℝ} (h : GoodLat lat) (s : Sat) : |satRatio lat s| ≤ ((|dyRat s.amprat| * latMax s : ℚ) : ℝ) := by
  obtain ⟨h1, h2⟩ := slat_band h
  unfold satRatio latMax
  push_cast
  rw [dyRat_cast]
  split_ifs with ha hb
  · rw [abs_mul]
    refine mul_le_mul_of_nonneg_left ?_ (abs_nonneg _)
    have := diurnal_factor h1 h2
    norm_num at this ⊢
    exact this
  · rw [abs_mul, abs_mul]
    refine mul_le_mul_of_nonneg_left ?_ (abs_nonneg _)
    rw [abs_of_pos (by norm_num : (0 : ℝ) < 2.59808)]
    norm_num
    linarith
  · simp

def satBound (k : ℕ) : ℚ := ((satsOf k).map fun s => |dyRat s.amprat| * latMax s).sum

theorem satSum_near {lat : ℝ} (h : GoodLat lat) (t : ℝ) (k : ℕ) : ‖satSum lat t k - 1‖ ≤ ((satBound k : ℚ) : ℝ) := by
  unfold satSum satBound
  rw [add_sub_cancel_left]
  induction satsOf k with
  | nil => simp
  | cons s l ih =>
    simp only [List.map_cons, List.sum_cons]
    push_cast
    refine (norm_add_le _ _).trans (add_le_add ?_ (by simpa using ih))
    rw [norm_mul, Complex.norm_real, Real.norm_eq_abs]
    have e : Complex.exp (Complex.I * 2 * Real.pi * satPhase (astro t) s) =
        Complex.exp (((2 * Real.pi * satPhase (astro t) s : ℝ) : ℂ) * Complex.I) := by
      congr 1; push_cast; ring
    rw [e, Complex.norm_exp_ofReal_mul_I, mul_one]
    exact_mod_cast satRatio_le h s

theorem bound_table : (modulationBound.all fun q => decide (constitNames.idxOf q.1 < 146) && isPrimary (constitNames.idxOf q.1) &&
    decide (satBound (constitNames.idxOf q.1) ≤ q.2) && decide (0 ≤ q.2) && decide (q.2 < 1)) = true := by decide +kernel

theorem primary_table : ((List.range 146).all fun k => !isPrimary k ||
    (modulationBound.map Prod.fst).contains (nameAt k) || strongSatellites.contains (nameAt k)) = true := by decide +kernel

theorem parents_table : (shallowRows.all fun r => r.2.all fun p => (modulationBound.map Prod.fst).contains (nameAt p.1)) = true := by
  decide +kernel

theorem moderate_of_near {z : ℂ} {b : ℝ} (h : ‖z - 1‖ ≤ b) :
    Moderate ‖z‖ (Complex.arg z / (2 * Real.pi)) b := by
  have hpi := Real.pi_pos
  have e : 2 * Real.pi * (Complex.arg z / (2 * Real.pi)) = Complex.arg z := by field_simp
  have h1 : ‖z‖ ≤ 1 + b := by
    have := norm_add_le (z - 1) 1
    rw [sub_add_cancel, norm_one] at this
    linarith
  have h2 : 1 - b ≤ ‖z‖ := by
    have := norm_sub_norm_le (1 : ℂ) (1 - z)
    rw [norm_one, sub_sub_cancel, norm_sub_rev] at this
    linarith
  have hb : 0 ≤ b := (norm_nonneg _).trans h
  refine ⟨h2, h1, ?_, ?_⟩
  · rw [e]
    by_cases hz : z = 0
    · simp [hz, hb]
    · have h3 : z = ‖z‖ * Complex.exp (Complex.arg z * Complex.I) := (Complex.norm_mul_exp_arg_mul_I z).symm
      have h4 : (z - 1) * Complex.exp (((-Complex.arg z : ℝ) : ℂ) * Complex.I) =
          ‖z‖ - Complex.exp (((-Complex.arg z : ℝ) : ℂ) * Complex.I) := by
        have h5 : Complex.exp (Complex.arg z * Complex.I) * Complex.exp (((-Complex.arg z : ℝ) : ℂ) * Complex.I) = 1 := by
          rw [← Complex.exp_add]
          simp
        nth_rewrite 1 [h3]
        rw [sub_mul, mul_assoc, h5]; simp
      have h6 := congrArg Complex.im h4
      have h7 : ((z - 1) * Complex.exp (((-Complex.arg z : ℝ) : ℂ) * Complex.I)).im = Real.sin (Complex.arg z) := by
        rw [h6, Complex.sub_im, Complex.ofReal_im, Complex.exp_ofReal_mul_I_im, Real.sin_neg]; ring
      rw [← h7]
      refine (Complex.abs_im_le_norm _).trans ?_
      rw [norm_mul, Complex.norm_exp_ofReal_mul_I, mul_one]
      exact h
  · intro hb1
    rw [e]
    have h3 : 0 < z.re := by
      have := Complex.abs_re_le_norm (z - 1)
      rw [Complex.sub_re, Complex.one_re] at this
      have := (abs_le.1 (this.trans h)).1
      linarith
    have hz : 0 < ‖z‖ := by
      rw [norm_pos_iff]; rintro rfl; simp at h3
    rw [Complex.cos_arg (norm_pos_iff.1 hz)]
    positivity

theorem moderate_one {b : ℝ} (hb : 0 ≤ b) : Moderate 1 0 b :=
  ⟨by linarith, by linarith, by simpa using hb, fun _ => by simp⟩

/-! ## C92 -/

/-- **C92**, primary constituents: at every time, every latitude and in every mode of nodal correction. -/
theorem C92_primary (fl : Flags) (tref lat t : ℝ) (h : GoodLat lat) (n : String) (b : ℚ) (hn : (n, b) ∈ modulationBound) :
    Moderate (nodF fl tref lat t (constitNames.idxOf n)) (nodU fl tref lat t (constitNames.idxOf n)) b := by
  have hT := List.all_eq_true.1 bound_table _ hn
  simp only [Bool.and_eq_true, decide_eq_true_eq] at hT
  obtain ⟨⟨⟨⟨-, h2⟩, h3⟩, h4⟩, -⟩ := hT
  have hp : ∀ parts, kindOf (constitNames.idxOf n) ≠ some (.shallow parts) := by
    intro parts hk
    unfold isPrimary at h2
    rw [hk] at h2
    cases h2
  have h5 : ((satBound (constitNames.idxOf n) : ℚ) : ℝ) ≤ b := by exact_mod_cast h3
  unfold nodF nodU
  split_ifs
  · exact moderate_one (by exact_mod_cast h4)
  all_goals
    rw [loop_not_shallow _ _ hp, loop_not_shallow _ _ hp]
    exact moderate_of_near ((satSum_near h _ _).trans h5)

theorem bound_lt_one {n : String} {b : ℚ} (hn : (n, b) ∈ modulationBound) : (b : ℝ) < 1 := by
  have hT := List.all_eq_true.1 bound_table _ hn
  simp only [Bool.and_eq_true, decide_eq_true_eq] at hT
  exact_mod_cast hT.2

/-- **C92**, compounds: factors between the products of the bounds of the parents. -/
theorem C92_compound (fl : Flags) (tref lat t : ℝ) (h : GoodLat lat) (k : ℕ) (parts : List (ℕ × Dy))
    (hk : kindOf k = some (.shallow parts)) : ∃ b : ℕ → ℚ, (∀ p ∈ parts, (nameAt p.1, b p.1) ∈ modulationBound) ∧
      (parts.map fun p => (1 - (b p.1 : ℝ)) ^ |p.2.toReal|).prod ≤ nodF fl tref lat t k ∧
      nodF fl tref lat t k ≤ (parts.map fun p => (1 + (b p.1 : ℝ)) ^ |p.2.toReal|).prod := by
  have hpar : ∀ p ∈ parts, ∃ b, (nameAt p.1, b) ∈ modulationBound := by
    intro p hp
    have := List.all_eq_true.1 (List.all_eq_true.1 parents_table _ ((mem_shallowRows k parts).2 hk)) p hp
    rw [List.contains_iff_mem, List.mem_map] at this
    obtain ⟨⟨n, b⟩, h1, h2⟩ := this
    exact ⟨b, h2 ▸ h1⟩
  have hb : ∀ j : ℕ, ∃ b : ℚ, (∃ p ∈ parts, p.1 = j) → (nameAt j, b) ∈ modulationBound := by
    intro j
    by_cases hj : ∃ p ∈ parts, p.1 = j
    · obtain ⟨p, hp, rfl⟩ := hj
      obtain ⟨b, hb⟩ := hpar p hp
      exact ⟨b, fun _ => hb⟩
    · exact ⟨0, fun h => absurd h hj⟩
  choose b hb using hb
  have hmem : ∀ p ∈ parts, (nameAt p.1, b p.1) ∈ modulationBound := fun p hp => hb _ ⟨p, hp, rfl⟩
  have hlt : ∀ p ∈ parts, p.1 < 146 := by
    intro p hp
    by_contra hge
    have h1 := List.all_eq_true.1 (List.all_eq_true.1 parents_primary_bool _ ((mem_shallowRows k parts).2 hk)) p hp
    unfold isPrimary kindOf at h1
    rw [List.getElem?_eq_none (by rw [catalogue_length]; omega)] at h1
    cases h1
  have hmod : ∀ p ∈ parts, 0 ≤ 1 - (b p.1 : ℝ) ∧ 1 - (b p.1 : ℝ) ≤ nodF fl tref lat t p.1 ∧
      nodF fl tref lat t p.1 ≤ 1 + (b p.1 : ℝ) := by
    intro p hp
    have h1 := C92_primary fl tref lat t h _ _ (hmem p hp)
    rw [idxOf_nameAt (hlt p hp)] at h1
    have h2 := bound_lt_one (hmem p hp)
    exact ⟨by linarith, h1.lower, h1.upper⟩
  refine ⟨b, hmem, ?_, ?_⟩
  · rw [(C39_nodal fl tref lat t k parts hk).2]
    clear hpar hb hmem hlt hk
    induction parts with
    | nil => simp
    | cons p l ih =>
      simp only [List.map_cons, List.prod_cons]
      obtain ⟨h0, h1, h2⟩ := hmod p (by simp)
      refine mul_le_mul (Real.rpow_le_rpow h0 h1 (abs_nonneg _)) (ih fun q hq => hmod q (by simp [hq])) ?_
        (Real.rpow_nonneg (h0.trans h1) _)
      refine List.prod_nonneg ?_
      simp only [List.mem_map]
      rintro _ ⟨q, hq, rfl⟩
      exact Real.rpow_nonneg (hmod q (by simp [hq])).1 _
  · rw [(C39_nodal fl tref lat t k parts hk).2]
    clear hpar hb hmem hlt hk
    induction parts with
    | nil => simp
    | cons p l ih =>
      simp only [List.map_cons, List.prod_cons]
      obtain ⟨h0, h1, h2⟩ := hmod p (by simp)
      refine mul_le_mul (Real.rpow_le_rpow (h0.trans h1) h2 (abs_nonneg _)) (ih fun q hq => hmod q (by simp [hq])) ?_
        (Real.rpow_nonneg (h0.trans (h1.trans h2)) _)
      refine List.prod_nonneg ?_
      simp only [List.mem_map]
      rintro _ ⟨q, hq, rfl⟩
      obtain ⟨h3, h4, -⟩ := hmod q (by simp [hq])
      exact Real.rpow_nonneg (h3.trans h4) _

/-- **C92**, consequence: no harmonic ever vanishes, the three with strong satellites excepted. -/
theorem C92_never_zero (fl : Flags) (tref lat t frq : ℝ) (h : GoodLat lat) (k : ℕ) (hk : k < 146)
    (hn : nameAt k ∉ strongSatellites) : 0 < nodF fl tref lat t k ∧ utE fl tref lat t frq k ≠ 0 := by
  have hF : 0 < nodF fl tref lat t k := by
    cases hkind : kindOf k with
    | none =>
      unfold kindOf at hkind
      rw [List.getElem?_eq_getElem (by rw [catalogue_length]; exact hk)] at hkind
      cases hkind
    | some kd =>
      cases kd with
      | primary d s =>
        have h1 := List.all_eq_true.1 primary_table k (List.mem_range.2 hk)
        have h2 : isPrimary k = true := by unfold isPrimary; rw [hkind]
        rw [h2] at h1
        simp only [Bool.not_true, Bool.false_or, Bool.or_eq_true, List.contains_iff_mem] at h1
        obtain ⟨⟨n, b⟩, h3, h4⟩ := List.mem_map.1 (h1.resolve_right hn)
        have h5 := C92_primary fl tref lat t h n b h3
        have h6 := bound_lt_one h3
        have h7 : n = nameAt k := h4
        rw [h7, idxOf_nameAt hk] at h5
        have := h5.lower
        linarith
      | shallow parts =>
        obtain ⟨b, h1, h2, -⟩ := C92_compound fl tref lat t h k parts hkind
        refine lt_of_lt_of_le (List.prod_pos ?_) h2
        simp only [List.mem_map]
        rintro _ ⟨p, hp, rfl⟩
        exact Real.rpow_pos_of_pos (by have := bound_lt_one (h1 p hp); linarith) _
  refine ⟨hF, ?_⟩
  unfold utE
  split_ifs
  · exact mul_ne_zero (by simp) (Complex.exp_ne_zero _)
  · exact mul_ne_zero (by exact_mod_cast hF.ne') (Complex.exp_ne_zero _)

/-- The bound for M2: the famous 3.7 per cent, and what the smaller satellites add. -/
example (t : ℝ) : |nodF ⟨false, false, false, false⟩ 0 45 t 47 - 1| ≤ 0.044 := by
  have h := C92_primary ⟨false, false, false, false⟩ 0 45 t ⟨by norm_num, by norm_num, by norm_num⟩ "M2" 0.044
    (by simp [modulationBound])
  rw [show constitNames.idxOf "M2" = 47 by decide +kernel] at h
  have h1 := h.lower
  have h2 := h.upper
  push_cast at h1 h2
  rw [abs_le]
  constructor <;> linarith

end

end UTide.Props
