import Verif.Lemmas.Basis
import Verif.Props.AstroProps
import Mathlib.Analysis.SpecialFunctions.Trigonometric.Bounds

/-!
# C39-C43: basis functions

Specification vocabulary: `kindOf k = some (.shallow parts)` says that the data file lists entry `k` as the
compound with the given (parent, weight) pairs; `nodF`, `nodU`, `gwV` are the three arrays `F`, `U`, `V`
of `FUV`, `utE` the array `E` of `ut_E`.
-/

namespace UTide.Props

noncomputable section

/-! ## C39 -/

/-- The weighted sum over the parents of a compound. -/
def weightedSum (parts : List (ℕ × Dy)) (x : ℕ → ℝ) : ℝ := (parts.map fun p => p.2.toReal * x p.1).sum

/-- **C39, frequency.** -/
theorem C39_frequency (tref : ℝ) (k : ℕ) (parts : List (ℕ × Dy)) (h : kindOf k = some (.shallow parts)) :
    linFreqs tref k = weightedSum parts (linFreqs tref) := linFreqs_shallow tref h

/-- **C39, astronomical argument**, in every phase mode. -/
theorem C39_argument (fl : Flags) (tref t : ℝ) (k : ℕ) (parts : List (ℕ × Dy))
    (h : kindOf k = some (.shallow parts)) :
    gwV fl tref t k = weightedSum parts (gwV fl tref t) := gwV_shallow fl tref t h

/-- **C39, nodal phase and amplitude**, in every nodal mode. -/
theorem C39_nodal (fl : Flags) (tref lat t : ℝ) (k : ℕ) (parts : List (ℕ × Dy))
    (h : kindOf k = some (.shallow parts)) :
    nodU fl tref lat t k = weightedSum parts (nodU fl tref lat t) ∧
    nodF fl tref lat t k = (parts.map fun p => nodF fl tref lat t p.1 ^ |p.2.toReal|).prod :=
  ⟨nodU_shallow fl tref lat t h, nodF_shallow fl tref lat t h⟩

/-- All weights are whole numbers, `M7` being the only exception. -/
theorem C39_integer_weights (k : ℕ) (parts : List (ℕ × Dy)) (h : kindOf k = some (.shallow parts))
    (hk : constitNames[k]? ≠ some "M7") (p : ℕ × Dy) (hp : p ∈ parts) : p.2.toReal = p.2.num := by
  refine weight_integer h (fun e => hk ?_) hp
  subst e
  decide +kernel

/-- The unit phase factor of constituent `k`. -/
def phaseFactor (fl : Flags) (tref lat t : ℝ) (k : ℕ) : ℂ :=
  Complex.exp (2 * Real.pi * Complex.I * (nodU fl tref lat t k + gwV fl tref t k : ℝ))

theorem phaseFactor_eq (fl : Flags) (tref lat t : ℝ) (k : ℕ) :
    phaseFactor fl tref lat t k = cis (nodU fl tref lat t k + gwV fl tref t k) := by
  unfold phaseFactor cis; congr 1; ring

/-- **C39, phase factors multiply**: the phase factor of a compound is the product of its parents' to the
power of the weights. -/
theorem C39_phase_factor (fl : Flags) (tref lat t : ℝ) (k : ℕ) (parts : List (ℕ × Dy))
    (h : kindOf k = some (.shallow parts)) (hk : constitNames[k]? ≠ some "M7") :
    phaseFactor fl tref lat t k = (parts.map fun p => phaseFactor fl tref lat t p.1 ^ p.2.num).prod := by
  simp only [phaseFactor_eq]
  rw [nodU_shallow fl tref lat t h, gwV_shallow fl tref t h, ← sum_map_add, cis_list_sum, List.map_map]
  congr 1
  refine List.map_congr_left fun p hp => ?_
  simp only [Function.comp_apply]
  rw [← cis_int_mul, C39_integer_weights k parts h hk p hp, mul_add]

/-- **C39, basis functions multiply**: the column of a compound in the model matrix is the product of the
parents' columns, a negative weight meaning the complex conjugate. -/
theorem C39_basis_function (fl : Flags) (tref lat t : ℝ) (k : ℕ) (parts : List (ℕ × Dy))
    (h : kindOf k = some (.shallow parts)) (hk : constitNames[k]? ≠ some "M7") :
    utE fl tref lat t (linFreqs tref k) k =
      (parts.map fun p =>
        if 0 ≤ p.2.num then utE fl tref lat t (linFreqs tref p.1) p.1 ^ p.2.num.toNat
        else (starRingEnd ℂ) (utE fl tref lat t (linFreqs tref p.1) p.1) ^ (-p.2.num).toNat).prod := by
  simp only [utE_eq_gen]
  exact utEgen_shallow fl tref lat t h fun e => hk (by subst e; decide +kernel)

/-- **C39, the order in which the catalogue is processed does not matter**: running the loop over the
compounds in any other order gives the same arrays (frequencies, arguments, nodal corrections alike). -/
theorem C39_order_irrelevant (rows : List (ℕ × List (ℕ × Dy))) (hp : rows.Perm shallowRows) (v : ℕ → ℝ) :
    loopShallow sumStep rows v = loopShallow sumStep shallowRows v ∧
    loopShallow prodStep rows v = loopShallow prodStep shallowRows v := by
  have key : ∀ step : (ℕ → ℝ) → List (ℕ × Dy) → ℝ, LocalStep step →
      loopShallow step rows v = loopShallow step shallowRows v := by
    intro step hs
    funext k
    have hmem : ∀ j, j ∈ rows.map Prod.fst ↔ j ∈ shallowRows.map Prod.fst := fun j =>
      (hp.map Prod.fst).mem_iff
    by_cases hk : k ∈ shallowRows.map Prod.fst
    · obtain ⟨⟨k', parts⟩, hr, rfl⟩ := List.mem_map.1 hk
      rw [loopShallow_on step hs shallowRows shallowRows_keys_nodup shallow_parents_off v _ hr,
        loopShallow_on step hs rows ((hp.map Prod.fst).nodup_iff.2 shallowRows_keys_nodup)
          (fun r hr' p hp' hm => shallow_parents_off r (hp.mem_iff.1 hr') p hp' ((hmem _).1 hm)) v _
          (hp.mem_iff.2 hr)]
    · rw [loopShallow_off step shallowRows v k hk, loopShallow_off step rows v k (fun h => hk ((hmem k).1 h))]
  exact ⟨key _ localStep_sum, key _ localStep_prod⟩

/-- The value the array `V` holds for compounds before the loop (NaN in the data file) is never read. -/
theorem C39_placeholder_unused (junk : ℕ → ℝ) (t : ℝ) (k : ℕ) (hk : k < 146) :
    loopShallow sumStep shallowRows (vPrimary junk t) k = vGreenwich t k := by
  obtain ⟨x, hx⟩ := kindOf_of_lt hk
  unfold vGreenwich
  cases x with
  | primary d s =>
    have : ∀ parts, kindOf k ≠ some (.shallow parts) := by intro p hp; rw [hx] at hp; cases hp
    rw [loop_not_shallow _ _ this, loop_not_shallow _ _ this]
    unfold vPrimary
    rw [hx]
  | shallow parts =>
    rw [loop_shallow localStep_sum _ hx, loop_shallow localStep_sum _ hx]
    apply localStep_sum
    intro p hp
    obtain ⟨d, s, e⟩ := kindOf_parent hx hp
    unfold vPrimary
    rw [e]

/-- Non-vacuity: `M4` (position 81) is twice `M2` (position 47), so its column is the square of the
`M2` column. -/
example (fl : Flags) (tref lat t : ℝ) :
    constitNames[81]? = some "M4" ∧ constitNames[47]? = some "M2" ∧
    utE fl tref lat t (linFreqs tref 81) 81 = utE fl tref lat t (linFreqs tref 47) 47 ^ 2 := by
  refine ⟨by decide +kernel, by decide +kernel, ?_⟩
  have h : kindOf 81 = some (.shallow [(47, ⟨2, 0⟩)]) := by rfl
  rw [C39_basis_function fl tref lat t 81 _ h (by decide +kernel)]
  simp

/-! ## C40 -/

/-- Exact Greenwich phase. -/
def ExactPhase (fl : Flags) : Prop := fl.gwchnone = false ∧ fl.gwchlint = false

/-- **C40 as stated.** In terms of observable effects: with exact Greenwich phase every basis function is
a continuous function of time (the angles jump by whole cycles whenever they are reduced to one turn, and
these jumps must not be seen). -/
def C40_full : Prop :=
  ∀ (fl : Flags) (tref lat : ℝ) (k : ℕ), k < 146 → ExactPhase fl →
    Continuous fun t => utE fl tref lat t (linFreqs tref k) k

theorem dot_lift_continuous (d : Doodson) : Continuous fun t => d.dot (astroLift t) := by
  have c : ∀ c : Cubic, Continuous c.cycles := fun c =>
    continuous_iff_continuousAt.2 fun t => (c.hasDerivAt t).continuousAt
  unfold Doodson.dot astroLift
  dsimp only
  have := c scCoef; have := c hcCoef; have := c pcCoef; have := c npcCoef; have := c ppcCoef
  fun_prop

theorem dot_congr_lift (d : Doodson) (t : ℝ) : ∃ n : ℤ, d.dot (astro t) - d.dot (astroLift t) = n := by
  obtain ⟨⟨a, ha⟩, ⟨b, hb⟩, ⟨c, hc⟩, ⟨e, he⟩, ⟨f, hf⟩, ⟨g, hg⟩⟩ := astro_congr_lift t
  refine ⟨d.d1 * a + d.d2 * b + d.d3 * c + d.d4 * e + d.d5 * f + d.d6 * g, ?_⟩
  push_cast
  rw [← ha, ← hb, ← hc, ← he, ← hf, ← hg]
  unfold Doodson.dot
  ring

theorem cis_vGreenwich (t : ℝ) {k : ℕ} {d : Doodson} {s : Dy} (h : kindOf k = some (.primary d s)) :
    cis (vGreenwich t k) = cis (d.dot (astroLift t) + s.toReal) := by
  rw [vGreenwich_primary t h]
  obtain ⟨n, hn⟩ := fmod1_congr (d.dot (astro t) + s.toReal)
  obtain ⟨m, hm⟩ := dot_congr_lift d t
  exact cis_congr ⟨n + m, by push_cast; linarith⟩

theorem satSum_continuous (lat : ℝ) (k : ℕ) : Continuous fun t => satSum lat t k := by
  have hterm : ∀ s : Sat, Continuous fun t : ℝ =>
      (satRatio lat s : ℂ) * Complex.exp (Complex.I * 2 * Real.pi * satPhase (astro t) s) := by
    intro s
    have hcyc : ∀ c : Cubic, Continuous c.cycles := fun c =>
      continuous_iff_continuousAt.2 fun t => (c.hasDerivAt t).continuousAt
    have : (fun t : ℝ => (satRatio lat s : ℂ) * Complex.exp (Complex.I * 2 * Real.pi *
        satPhase (astro t) s)) = fun t => (satRatio lat s : ℂ) *
          cis (s.d4 * pcCoef.cycles t + s.d5 * npcCoef.cycles t + s.d6 * ppcCoef.cycles t +
            s.phcorr.toReal) := by
      funext t
      congr 1
      rw [show Complex.exp (Complex.I * 2 * Real.pi * satPhase (astro t) s) = cis (satPhase (astro t) s) by
        unfold cis; congr 1; ring]
      unfold satPhase
      obtain ⟨-, -, -, ⟨a, ha⟩, ⟨b, hb⟩, ⟨c, hc⟩⟩ := astro_congr_lift t
      obtain ⟨n, hn⟩ := fmod1_congr (s.d4 * (astro t).p + s.d5 * (astro t).np + s.d6 * (astro t).pp +
        s.phcorr.toReal)
      refine cis_congr ⟨n + s.d4 * a + s.d5 * b + s.d6 * c, ?_⟩
      push_cast
      rw [← ha, ← hb, ← hc, ← hn]
      unfold astroLift
      ring
    rw [this]
    have := hcyc pcCoef; have := hcyc npcCoef; have := hcyc ppcCoef
    exact continuous_const.mul (continuous_cis.comp (by fun_prop))
  unfold satSum
  refine continuous_const.add ?_
  generalize satsOf k = l
  induction l with
  | nil => simpa using continuous_const
  | cons a l ih =>
    simp only [List.map_cons, List.sum_cons]
    exact (hterm a).add ih

theorem nodZ_continuous (fl : Flags) (tref lat : ℝ) (k : ℕ) : Continuous fun t => nodZ fl tref lat t k := by
  unfold nodZ
  split
  · exact continuous_const
  · split
    · exact continuous_const
    · exact satSum_continuous lat k

theorem utEgen_primary_continuous (fl : Flags) (tref lat : ℝ) {k : ℕ} {d : Doodson} {s : Dy}
    (h : kindOf k = some (.primary d s)) (hf : ExactPhase fl) :
    Continuous fun t => utEgen fl tref lat t k := by
  have hns : ∀ parts, kindOf k ≠ some (.shallow parts) := by intro p hp; rw [h] at hp; cases hp
  have : (fun t => utEgen fl tref lat t k) =
      fun t => nodZ fl tref lat t k * cis (d.dot (astroLift t) + s.toReal) := by
    funext t
    rw [utEgen_primary fl tref lat t hns, ← cis_vGreenwich t h]
    unfold gwV
    rw [hf.1, hf.2]
    rfl
  rw [this]
  exact (nodZ_continuous fl tref lat k).mul
    (continuous_cis.comp ((dot_lift_continuous d).add continuous_const))

theorem powW_continuous (n : ℤ) : Continuous fun z => powW z n := by
  unfold powW
  split
  · exact continuous_pow _
  · exact Complex.continuous_conj.pow _

/-- **C40, the part that holds**: every constituent except `M7` has a continuous basis function, in every
nodal mode. -/
theorem C40_continuous_partial (fl : Flags) (tref lat : ℝ) (k : ℕ) (hk : k < 146)
    (hM : constitNames[k]? ≠ some "M7") (hf : ExactPhase fl) :
    Continuous fun t => utE fl tref lat t (linFreqs tref k) k := by
  simp only [utE_eq_gen]
  obtain ⟨x, hx⟩ := kindOf_of_lt hk
  cases x with
  | primary d s => exact utEgen_primary_continuous fl tref lat hx hf
  | shallow parts =>
    have hM' : k ≠ M7 := fun e => hM (by subst e; decide +kernel)
    have : (fun t => utEgen fl tref lat t k) =
        fun t => (parts.map fun p => powW (utEgen fl tref lat t p.1) p.2.num).prod := by
      funext t; exact utEgen_shallow fl tref lat t hx hM'
    rw [this]
    have hc : ∀ p ∈ parts, Continuous fun t => powW (utEgen fl tref lat t p.1) p.2.num := by
      intro p hp
      obtain ⟨d, s, e⟩ := kindOf_parent hx hp
      exact (powW_continuous _).comp (utEgen_primary_continuous fl tref lat e hf)
    clear this hx
    induction parts with
    | nil => simpa using continuous_const
    | cons a l ih =>
      simp only [List.map_cons, List.prod_cons]
      exact (hc a (by simp)).mul (ih fun p hp => hc p (List.mem_cons_of_mem _ hp))

/-- **C40, whole-cycle shifts** of the parents' arguments leave the phase factor of every constituent
except `M7` unchanged. `v` is the array of arguments of the primary constituents. -/
theorem C40_shift_partial (v v' : ℕ → ℝ) (hv : ∀ j, ∃ n : ℤ, v j - v' j = n) (k : ℕ)
    (hM : constitNames[k]? ≠ some "M7") :
    cis (loopShallow sumStep shallowRows v k) = cis (loopShallow sumStep shallowRows v' k) := by
  by_cases h : ∃ parts, kindOf k = some (.shallow parts)
  · obtain ⟨parts, h⟩ := h
    rw [loop_shallow localStep_sum v h, loop_shallow localStep_sum v' h]
    unfold sumStep
    rw [cis_list_sum, cis_list_sum, List.map_map, List.map_map]
    congr 1
    refine List.map_congr_left fun p hp => ?_
    simp only [Function.comp_apply]
    obtain ⟨n, hn⟩ := hv p.1
    apply cis_congr
    refine ⟨n * p.2.num, ?_⟩
    rw [C39_integer_weights k parts h hM p hp]
    push_cast
    rw [← hn]; ring
  · push Not at h
    rw [loop_not_shallow _ _ h, loop_not_shallow _ _ h]
    exact cis_congr (hv k)

/-! ### The exception: `M7` -/

/-- Midnight before 1900-01-02, in days. -/
def jumpDay : ℝ := 693597

theorem fmod1_of_nonneg_lt {x : ℝ} (h0 : 0 ≤ x) (h1 : x < 1) : fmod1 x = x := by
  unfold fmod1 truncR
  rw [if_pos h0, Int.floor_eq_zero_iff.2 ⟨h0, h1⟩]; simp

theorem fmod1_of_one_le {x : ℝ} (h0 : 1 ≤ x) (h1 : x < 2) : fmod1 x = x - 1 := by
  unfold fmod1 truncR
  rw [if_pos (by linarith), show ⌊x⌋ = 1 from Int.floor_eq_iff.2 ⟨by simpa using h0, by norm_num; linarith⟩]
  simp

theorem fmod1_of_neg {x : ℝ} (h0 : -1 < x) (h1 : x < 0) : fmod1 x = x := by
  unfold fmod1 truncR
  rw [if_neg (by linarith), show ⌈x⌉ = 0 from Int.ceil_eq_iff.2 ⟨by norm_num; linarith, by norm_num; linarith⟩]
  simp

theorem longitudes_near_jump {t : ℝ} (h0 : jumpDay - 0.01 < t) (h1 : t ≤ jumpDay) :
    (0 ≤ scCoef.dotArgs t / 360 ∧ scCoef.dotArgs t / 360 < 1) ∧
    (0 ≤ hcCoef.dotArgs t / 360 ∧ hcCoef.dotArgs t / 360 < 1) ∧
    -0.04 < hcCoef.dotArgs t / 360 - scCoef.dotArgs t / 360 ∧
    hcCoef.dotArgs t / 360 - scCoef.dotArgs t / 360 < -0.01 := by
  unfold scCoef hcCoef Cubic.dotArgs
  dsimp only
  unfold jumpDay at h0 h1
  have e0 : 1.49 < t - daten := by unfold daten; norm_num at h0 ⊢; linarith
  have e1 : t - daten ≤ 1.5 := by unfold daten; norm_num; linarith
  generalize t - daten = d at e0 e1
  have hD0 : 0 ≤ d / 10000 := by norm_num at e0; apply div_nonneg <;> linarith
  have hD1 : d / 10000 ≤ 1 := by norm_num at e1; linarith
  generalize hD : d / 10000 = D at hD0 hD1
  have h2 : 0 ≤ D * D := by positivity
  have h2' : D * D ≤ 1 := by nlinarith
  have h3 : 0 ≤ D ^ 3 := by positivity
  have h3' : D ^ 3 ≤ 1 := pow_le_one₀ hD0 hD1
  norm_num at e0 e1 ⊢
  refine ⟨⟨?_, ?_⟩, ⟨?_, ?_⟩, ?_, ?_⟩ <;> nlinarith

theorem kind_M7 : kindOf M7 = some (.shallow [(47, ⟨7, 1⟩)]) := m7_parts_bool

theorem kind_M2 : kindOf 47 = some (.primary ⟨2, 0, 0, 0, 0, 0⟩ ⟨0, 0⟩) := by rfl

theorem vM2_eq (t : ℝ) : vGreenwich t 47 = fmod1 (2 * (astro t).tau) := by
  rw [vGreenwich_primary t kind_M2]
  unfold Doodson.dot Dy.toReal
  simp

theorem tau_near_jump {t : ℝ} (h0 : jumpDay - 0.01 < t) (h1 : t ≤ jumpDay) :
    (astro t).tau = Int.fract t + (hcCoef.dotArgs t / 360 - scCoef.dotArgs t / 360) := by
  obtain ⟨⟨a, b⟩, ⟨c, d⟩, -⟩ := longitudes_near_jump h0 h1
  unfold astro
  dsimp only
  rw [fmod1_of_nonneg_lt a b, fmod1_of_nonneg_lt c d]
  ring

theorem vM2_before {t : ℝ} (h0 : jumpDay - 0.01 < t) (h1 : t < jumpDay) :
    vGreenwich t 47 =
      2 * (t - jumpDay + (hcCoef.dotArgs t / 360 - scCoef.dotArgs t / 360)) + 1 := by
  obtain ⟨-, -, e, f⟩ := longitudes_near_jump h0 h1.le
  have hfr : Int.fract t = t - jumpDay + 1 := by
    rw [Int.fract_eq_iff]
    unfold jumpDay at *
    norm_num at h0 ⊢
    refine ⟨by linarith, by linarith, 693596, by push_cast; ring⟩
  rw [vM2_eq, tau_near_jump h0 h1.le, hfr]
  norm_num at h0 e f
  rw [fmod1_of_one_le] <;> linarith

theorem vM2_at : vGreenwich jumpDay 47 =
    2 * (hcCoef.dotArgs jumpDay / 360 - scCoef.dotArgs jumpDay / 360) := by
  obtain ⟨-, -, e, f⟩ := longitudes_near_jump (t := jumpDay) (by norm_num) le_rfl
  have hfr : Int.fract jumpDay = 0 := by
    unfold jumpDay
    rw [Int.fract_eq_iff]
    exact ⟨le_rfl, by norm_num, 693597, by norm_num⟩
  rw [vM2_eq, tau_near_jump (by norm_num) le_rfl, hfr]
  norm_num at e f
  rw [fmod1_of_neg] <;> linarith

/-- Exact Greenwich phase without nodal corrections. -/
def rawNodal : Flags := ⟨false, true, false, false⟩

theorem utE_M7 (tref lat t : ℝ) :
    utE rawNodal tref lat t (linFreqs tref M7) M7 = cis (7 / 2 * vGreenwich t 47) := by
  rw [utE_eq_gen]
  unfold utEgen nodF nodU gwV rawNodal
  simp only [if_true, Bool.false_eq_true, if_false, zero_add, Complex.ofReal_one, one_mul]
  rw [vGreenwich_shallow t kind_M7]
  simp [Dy.toReal]

/-- **C40 is false of the code**: because `M7` is taken as 3.5 times `M2` after the argument of `M2` was
reduced to one cycle, the basis function of `M7` changes sign abruptly, for instance at midnight before
1900-01-02. -/
theorem C40_false : ¬ C40_full := by
  intro h
  have hc := (h rawNodal 0 0 M7 (by decide) ⟨rfl, rfl⟩).tendsto jumpDay
  have hf : (fun t => utE rawNodal 0 0 t (linFreqs 0 M7) M7) = fun t => cis (7 / 2 * vGreenwich t 47) :=
    funext fun t => utE_M7 0 0 t
  rw [hf, utE_M7] at hc
  have hpoly : ∀ c : Cubic, Continuous fun t => c.dotArgs t / 360 := fun c =>
    continuous_iff_continuousAt.2 fun t => (c.hasDerivAt t).continuousAt
  have hc1 : Filter.Tendsto (fun t => cis (7 / 2 * vGreenwich t 47)) (nhdsWithin jumpDay (Set.Iio jumpDay))
      (nhds (cis (7 / 2 * vGreenwich jumpDay 47))) := hc.mono_left nhdsWithin_le_nhds
  have hψ : Continuous fun t => cis (7 / 2 *
      (2 * (t - jumpDay + (hcCoef.dotArgs t / 360 - scCoef.dotArgs t / 360)) + 1)) := by
    have := hpoly scCoef; have := hpoly hcCoef
    exact continuous_cis.comp (by fun_prop)
  have hc2 : Filter.Tendsto (fun t => cis (7 / 2 * vGreenwich t 47)) (nhdsWithin jumpDay (Set.Iio jumpDay))
      (nhds (cis (7 / 2 * (2 * (jumpDay - jumpDay +
        (hcCoef.dotArgs jumpDay / 360 - scCoef.dotArgs jumpDay / 360)) + 1)))) := by
    refine ((hψ.tendsto jumpDay).mono_left nhdsWithin_le_nhds).congr' ?_
    have : Set.Ioo (jumpDay - 0.01) jumpDay ∈ nhdsWithin jumpDay (Set.Iio jumpDay) :=
      Ioo_mem_nhdsLT (by norm_num)
    filter_upwards [this] with t ht
    rw [vM2_before ht.1 ht.2]
  have heq := tendsto_nhds_unique hc1 hc2
  rw [vM2_at, sub_self, zero_add] at heq
  set x := hcCoef.dotArgs jumpDay / 360 - scCoef.dotArgs jumpDay / 360
  rw [show 7 / 2 * (2 * x + 1) = 7 / 2 * (2 * x) + (1 / 2 + ((3 : ℤ) : ℝ)) by push_cast; ring, cis_add, cis_add,
    cis_int, mul_one] at heq
  have hhalf : cis (1 / 2) = -1 := by
    rw [cis_eq, show 2 * Real.pi * (1 / 2) = Real.pi by ring, Complex.exp_pi_mul_I]
  rw [hhalf, mul_neg_one] at heq
  exact cis_ne_zero _ (self_eq_neg.1 heq)

/-! ## C41 -/

/-- The flags with the corrections taken at the exact times instead of the reference time. -/
def exactly (fl : Flags) : Flags := { fl with nodsatlint := false, gwchlint := false }

/-- **C41, same factors at the reference time**: whatever of `nodal` and `phase` is `'linear_time'`, at the
reference time amplitude factor, nodal phase, argument and basis function equal those of the exact mode. -/
theorem C41_agree_at_reference (fl : Flags) (tref lat frq : ℝ) (k : ℕ) :
    nodF fl tref lat tref k = nodF (exactly fl) tref lat tref k ∧
    nodU fl tref lat tref k = nodU (exactly fl) tref lat tref k ∧
    gwV fl tref tref k = gwV (exactly fl) tref tref k ∧
    utE fl tref lat tref frq k = utE (exactly fl) tref lat tref frq k := by
  have h1 : nodF fl tref lat tref k = nodF (exactly fl) tref lat tref k := by
    unfold nodF exactly; simp
  have h2 : nodU fl tref lat tref k = nodU (exactly fl) tref lat tref k := by
    unfold nodU exactly; simp
  have h3 : gwV fl tref tref k = gwV (exactly fl) tref tref k := by
    unfold gwV exactly; simp
  refine ⟨h1, h2, h3, ?_⟩
  unfold utE
  rw [h1, h2, h3]
  rfl

/-- Phase `'linear_time'` and exact phase. -/
def linPhase (fl : Flags) : Flags := { fl with gwchlint := true, gwchnone := false }
def exactPhase (fl : Flags) : Flags := { fl with gwchlint := false, gwchnone := false }

/-- The linear-time argument `lin` is the first-order expansion at `t0` of the angle `exact`: up to whole
cycles the exact angle is a function `φ` that touches the straight line `lin` at `t0` with the same
derivative. -/
def FirstOrder (exact lin : ℝ → ℝ) (t0 : ℝ) : Prop :=
  (∃ m, ∀ t, lin t = lin t0 + m * (t - t0)) ∧
  ∃ φ : ℝ → ℝ, SameAngle exact φ ∧ φ t0 = lin t0 ∧ HasDerivAt (fun t => φ t - lin t) 0 t0

/-- **C41, first-order expansion**, for every constituent that is not a compound. -/
theorem C41_first_order (fl : Flags) (tref : ℝ) (k : ℕ) (d : Doodson) (s : Dy)
    (h : kindOf k = some (.primary d s)) :
    FirstOrder (fun t => gwV (exactPhase fl) tref t k) (fun t => gwV (linPhase fl) tref t k) tref := by
  have hex : ∀ t, gwV (exactPhase fl) tref t k = vGreenwich t k := fun t => by
    unfold gwV exactPhase; simp
  have hlin : ∀ t, gwV (linPhase fl) tref t k = vGreenwich tref k + 24 * (t - tref) * linFreqs tref k :=
    fun t => by unfold gwV linPhase; simp
  simp only [hex, hlin]
  refine ⟨⟨24 * linFreqs tref k, fun t => by ring⟩, ?_⟩
  have hlift : ∀ t, ∃ n : ℤ, vGreenwich t k - (d.dot (astroLift t) + s.toReal) = n := fun t => by
    rw [vGreenwich_primary t h]
    obtain ⟨n, hn⟩ := fmod1_congr (d.dot (astro t) + s.toReal)
    obtain ⟨m, hm⟩ := dot_congr_lift d t
    exact ⟨n + m, by push_cast; linarith⟩
  obtain ⟨n0, hn0⟩ := hlift tref
  refine ⟨fun t => d.dot (astroLift t) + s.toReal + n0, fun t => ?_, ?_, ?_⟩
  · obtain ⟨n, hn⟩ := hlift t
    exact ⟨n - n0, by push_cast; linarith⟩
  · dsimp only; linarith
  · obtain ⟨h1, h2, h3, h4, h5, h6⟩ := astroLift_deriv tref
    have hd : HasDerivAt (fun t => d.dot (astroLift t)) (d.dot (ader tref)) tref := by
      unfold Doodson.dot
      exact (((((h1.const_mul _).add (h2.const_mul _)).add (h3.const_mul _)).add (h4.const_mul _)).add
        (h5.const_mul _)).add (h6.const_mul _)
    have hl : HasDerivAt (fun t => vGreenwich tref k + 24 * (t - tref) * linFreqs tref k)
        (24 * 1 * linFreqs tref k) tref :=
      (((((hasDerivAt_id tref).sub_const tref).const_mul 24).mul_const (linFreqs tref k)).const_add _)
    refine ((((hd.add_const s.toReal).add_const (n0 : ℝ))).sub hl).congr_deriv ?_
    rw [linFreqs_primary tref h]
    ring

/-- Non-vacuity: `O1` (position 12) is not a compound. -/
example : constitNames[12]? = some "O1" ∧
    kindOf 12 = some (.primary ⟨1, -1, 0, 0, 0, 0⟩ ⟨-1, 2⟩) := ⟨by decide +kernel, by rfl⟩

/-! ## C42 -/

/-- **C42.** With `nodal=False`, `phase='raw'` the basis function is a pure sinusoid of the given frequency:
its value at every time, its modulus, its value at the reference time, and multiplicativity in time. -/
theorem C42_raw_sinusoid (fl : Flags) (hn : fl.nodsatnone = true) (hg : fl.gwchnone = true)
    (tref lat frq : ℝ) (k : ℕ) :
    (∀ t, utE fl tref lat t frq k = Complex.exp (2 * Real.pi * Complex.I * (24 * frq * (t - tref) : ℝ))) ∧
    (∀ t, ‖utE fl tref lat t frq k‖ = 1) ∧
    utE fl tref lat tref frq k = 1 ∧
    ∀ a b, utE fl tref lat (tref + (a + b)) frq k =
      utE fl tref lat (tref + a) frq k * utE fl tref lat (tref + b) frq k := by
  have h : ∀ t, utE fl tref lat t frq k = cis (24 * frq * (t - tref)) := fun t => by
    unfold utE cis
    rw [if_pos ⟨hn, hg⟩]
    simp only [Complex.ofReal_one, one_mul, zero_add]
    congr 1; push_cast; ring
  refine ⟨fun t => ?_, fun t => ?_, ?_, fun a b => ?_⟩
  · rw [h]; unfold cis; congr 1; ring
  · rw [h, norm_cis]
  · rw [h]; simp [cis_zero]
  · rw [h, h, h, ← cis_add]; congr 1; ring

/-- Non-vacuity: `nodal=False`, `phase='raw'` are these flags. -/
example : (⟨false, true, false, true⟩ : Flags).nodsatnone = true ∧
    (⟨false, true, false, true⟩ : Flags).gwchnone = true := ⟨rfl, rfl⟩

/-! ## C43 -/

/-- **C43 as stated**: defined for every latitude from -90 to 90. `nodalSingular` is the event that
harmonics.py 128 divides by zero with effect on the basis function of `k`. -/
def C43_full : Prop :=
  ∀ (fl : Flags) (lat : ℝ), -90 ≤ lat → lat ≤ 90 → ∀ k, nodalSingular fl lat k = false

/-- **C43 is false at the equator**: at latitude exactly 0 the nodal correction of `K1` is a division by
zero (`np.sign(0) * 5` is 0). -/
theorem C43_false : ¬ C43_full := by
  intro h
  have := h ⟨false, false, false, false⟩ 0 (by norm_num) (by norm_num) 20
  unfold nodalSingular at this
  have h0 : slat 0 = 0 := by unfold slat clampLat; simp
  have h1 : latSensitive 20 = true := by decide +kernel
  simp [h0, h1] at this

theorem slat_ne_zero {lat : ℝ} (h1 : -90 ≤ lat) (h2 : lat ≤ 90) (h0 : lat ≠ 0) : slat lat ≠ 0 := by
  have hpos : ∀ x : ℝ, 0 < x → x ≤ 90 → Real.sin (x * Real.pi / 180) ≠ 0 := fun x hx hx' => by
    have hpi := Real.pi_pos
    apply ne_of_gt
    apply Real.sin_pos_of_pos_of_lt_pi
    · positivity
    · rw [div_lt_iff₀ (by norm_num)]
      nlinarith
  have hneg : ∀ x : ℝ, x < 0 → -90 ≤ x → Real.sin (x * Real.pi / 180) ≠ 0 := fun x hx hx' => by
    have := hpos (-x) (by linarith) (by linarith)
    rw [show -x * Real.pi / 180 = -(x * Real.pi / 180) by ring, Real.sin_neg] at this
    exact fun h => this (by rw [h]; simp)
  unfold slat clampLat
  split
  · rcases lt_or_gt_of_ne h0 with h | h
    · rw [sign_neg h]; exact hneg _ (by norm_num) (by norm_num)
    · rw [sign_pos h]; exact hpos _ (by norm_num) (by norm_num)
  · rcases lt_or_gt_of_ne h0 with h | h
    · exact hneg _ h h1
    · exact hpos _ h h2

/-- **C43, the part that holds**: defined for every latitude from -90 to 90 other than 0. -/
theorem C43_defined_partial (fl : Flags) (lat : ℝ) (h1 : -90 ≤ lat) (h2 : lat ≤ 90) (h0 : lat ≠ 0) (k : ℕ) :
    nodalSingular fl lat k = false := by
  unfold nodalSingular
  simp [slat_ne_zero h1 h2 h0]

/-- **C43**, latitudes within 5 degrees of the equator, on either side, are treated as 5 degrees. -/
theorem C43_near_equator (fl : Flags) (tref t lat frq : ℝ) (k : ℕ) :
    (0 < lat → lat < 5 → utE fl tref lat t frq k = utE fl tref 5 t frq k) ∧
    (lat < 0 → -5 < lat → utE fl tref lat t frq k = utE fl tref (-5) t frq k) := by
  have key : ∀ a b, slat a = slat b → utE fl tref a t frq k = utE fl tref b t frq k := by
    intro a b hab
    have : ∀ tt j, satSum a tt j = satSum b tt j := fun tt j => by
      unfold satSum satRatio; rw [hab]
    unfold utE nodF nodU
    simp only [this]
  have h5 : slat 5 = Real.sin (5 * Real.pi / 180) := by unfold slat clampLat; norm_num
  have h5' : slat (-5) = Real.sin (-5 * Real.pi / 180) := by unfold slat clampLat; norm_num
  constructor
  · intro h h'
    apply key
    rw [h5]
    unfold slat clampLat
    rw [if_pos (abs_lt.2 ⟨by linarith, h'⟩), sign_pos h]
    norm_num
  · intro h h'
    apply key
    rw [h5']
    unfold slat clampLat
    rw [if_pos (abs_lt.2 ⟨h', by linarith⟩), sign_neg h]
    norm_num

/-- **C43**, latitude is irrelevant when `nodal=False`. -/
theorem C43_irrelevant (fl : Flags) (hn : fl.nodsatnone = true) (tref t lat lat' frq : ℝ) (k : ℕ) :
    utE fl tref lat t frq k = utE fl tref lat' t frq k ∧ nodalSingular fl lat k = false := by
  unfold utE nodF nodU nodalSingular
  simp [hn]

/-- Latitude does matter otherwise: outside the 5 degree strip nothing is changed. -/
theorem C43_elsewhere (lat : ℝ) (h : 5 ≤ |lat|) : slat lat = Real.sin (lat * Real.pi / 180) := by
  unfold slat clampLat
  rw [if_neg (not_lt.2 h)]

end

end UTide.Props
