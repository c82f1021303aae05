import Verif.Props.LinearTime
import Verif.Props.EnergyProps

/-!
# How much freezing the nodal corrections costs: C133
-/

namespace UTide.Props

noncomputable section

open Classical

local notation "conj" => starRingEnd ℂ

/-! ## Specification -/

/-- How fast the phase of a satellite moves against its main line, in cycles per day: lunar perigee at most 0.1115, node
0.0531 and solar perigee 0.00005 degrees per day. -/
def satelliteRate (s : Sat) : ℝ := (|(s.d4 : ℝ)| * 0.1115 + |(s.d5 : ℝ)| * 0.0531 + |(s.d6 : ℝ)| * 0.00005) / 360

/-- How fast the modulation of a primary line may change, per day; its greatest possible modulus. -/
def lineRate (lat : ℝ) (k : ℕ) : ℝ :=
  ((satellites k).map fun s => |satelliteRatio lat s| * (2 * Real.pi * satelliteRate s)).sum

def lineMax (lat : ℝ) (k : ℕ) : ℝ := 1 + ((satellites k).map fun s => |satelliteRatio lat s|).sum

/-- How fast the nodal correction of a catalogue entry may change, per day. -/
def nodalRate (lat : ℝ) (k : ℕ) : ℝ := match kindOf k with
  | some (.primary _ _) => lineRate lat k
  | some (.shallow parts) => (parts.map fun q => q.2.num.natAbs * lineRate lat q.1).sum *
      (parts.map fun q => lineMax lat q.1 ^ q.2.num.natAbs).prod
  | none => 0

/-! ## Arguments of the satellites -/

theorem longitude_rate (a b c d r tref t : ℝ) (ht : Era t) (hr : Era tref)
    (hb : |b| + |c| * 0.02 + |d| * 3 ≤ r) :
    |longitude a b c d t - longitude a b c d tref| ≤ r / 360 * |t - tref| := by
  unfold Era at ht hr
  have e : longitude a b c d t - longitude a b c d tref = (t - tref) / 360 *
      (b + c * (((t - 693595.5) / 10000 + (tref - 693595.5) / 10000) / 10000) +
        d * ((((t - 693595.5) / 10000) ^ 2 + ((t - 693595.5) / 10000) * ((tref - 693595.5) / 10000) +
          ((tref - 693595.5) / 10000) ^ 2) / 10000)) := by
    unfold longitude
    ring
  have hx : |(t - 693595.5) / 10000| ≤ 100 := by rw [abs_div]; norm_num at ht ⊢; linarith
  have hy : |(tref - 693595.5) / 10000| ≤ 100 := by rw [abs_div]; norm_num at hr ⊢; linarith
  rw [e]
  generalize (t - 693595.5) / 10000 = x at hx
  generalize (tref - 693595.5) / 10000 = y at hy
  have h1 : |(x + y) / 10000| ≤ 0.02 := by
    rw [abs_le] at hx hy ⊢
    constructor <;> norm_num <;> linarith
  have h2 : |(x ^ 2 + x * y + y ^ 2) / 10000| ≤ 3 := by
    rw [abs_div, show |(10000 : ℝ)| = 10000 by norm_num, div_le_iff₀ (by norm_num)]
    have p1 : |x ^ 2| ≤ 10000 := by rw [abs_pow]; nlinarith [abs_nonneg x]
    have p2 : |y ^ 2| ≤ 10000 := by rw [abs_pow]; nlinarith [abs_nonneg y]
    have p3 : |x * y| ≤ 10000 := by
      rw [abs_mul]
      have := mul_le_mul hx hy (abs_nonneg y) (by norm_num)
      linarith
    have := abs_add_le (x ^ 2 + x * y) (y ^ 2)
    have := abs_add_le (x ^ 2) (x * y)
    linarith
  rw [abs_mul, abs_div, show |(360 : ℝ)| = 360 by norm_num]
  have h3 : |b + c * ((x + y) / 10000) + d * ((x ^ 2 + x * y + y ^ 2) / 10000)| ≤ r := by
    refine le_trans ((abs_add_le _ _).trans (add_le_add (abs_add_le _ _) le_rfl)) (le_trans ?_ hb)
    rw [abs_mul, abs_mul]
    exact add_le_add (add_le_add le_rfl (mul_le_mul_of_nonneg_left h1 (abs_nonneg _)))
      (mul_le_mul_of_nonneg_left h2 (abs_nonneg _))
  have := mul_le_mul_of_nonneg_left h3 (show 0 ≤ |t - tref| / 360 by positivity)
  linarith

theorem satellitePhase_rate (s : Sat) (tref t : ℝ) (ht : Era t) (hr : Era tref) :
    |satellitePhase t s - satellitePhase tref s| ≤ satelliteRate s * |t - tref| := by
  have h1 : |perigeeL t - perigeeL tref| ≤ 0.1115 / 360 * |t - tref| :=
    longitude_rate _ _ _ _ _ _ _ ht hr (by norm_num [abs_of_nonneg, abs_of_neg])
  have h2 : |nodeL t - nodeL tref| ≤ 0.0531 / 360 * |t - tref| :=
    longitude_rate _ _ _ _ _ _ _ ht hr (by norm_num [abs_of_nonneg, abs_of_neg])
  have h3 : |sunPerigeeL t - sunPerigeeL tref| ≤ 0.00005 / 360 * |t - tref| :=
    longitude_rate _ _ _ _ _ _ _ ht hr (by norm_num [abs_of_nonneg, abs_of_neg])
  have e : satellitePhase t s - satellitePhase tref s = s.d4 * (perigeeL t - perigeeL tref) +
      s.d5 * (nodeL t - nodeL tref) + s.d6 * (sunPerigeeL t - sunPerigeeL tref) := by
    unfold satellitePhase
    ring
  rw [e]
  refine ((abs_add_le _ _).trans (add_le_add (abs_add_le _ _) le_rfl)).trans ?_
  rw [abs_mul, abs_mul, abs_mul]
  unfold satelliteRate
  have g1 := mul_le_mul_of_nonneg_left h1 (abs_nonneg (s.d4 : ℝ))
  have g2 := mul_le_mul_of_nonneg_left h2 (abs_nonneg (s.d5 : ℝ))
  have g3 := mul_le_mul_of_nonneg_left h3 (abs_nonneg (s.d6 : ℝ))
  linarith

/-! ## Nodal corrections -/

theorem norm_phasor_sub (x y : ℝ) : ‖phasor x - phasor y‖ ≤ 2 * Real.pi * |x - y| := by
  have : phasor x - phasor y = phasor y * (phasor (x - y) - 1) := by
    rw [mul_sub, ← phasor_add, mul_one]
    congr 2
    ring
  rw [this, norm_mul, norm_phasor, one_mul]
  exact norm_phasor_sub_one _

theorem modulation_rate (lat tref t : ℝ) (k : ℕ) (ht : Era t) (hr : Era tref) :
    ‖modulation lat t k - modulation lat tref k‖ ≤ lineRate lat k * |t - tref| := by
  unfold modulation lineRate
  rw [add_sub_add_left_eq_sub, map_sum_sub, ← List.sum_map_mul_right]
  refine (norm_list_sum_le _ _).trans (List.sum_le_sum fun s _ => ?_)
  rw [← mul_sub, norm_mul, Complex.norm_real, Real.norm_eq_abs, mul_assoc]
  refine mul_le_mul_of_nonneg_left ((norm_phasor_sub _ _).trans ?_) (abs_nonneg _)
  rw [mul_assoc (2 * Real.pi)]
  exact mul_le_mul_of_nonneg_left (satellitePhase_rate s tref t ht hr) (by positivity)

theorem norm_modulation_le (lat t : ℝ) (k : ℕ) : ‖modulation lat t k‖ ≤ lineMax lat k := by
  unfold modulation lineMax
  refine (norm_add_le _ _).trans (add_le_add (by simp) ((norm_list_sum_le _ _).trans (List.sum_le_sum fun s _ => ?_)))
  rw [norm_mul, norm_phasor, mul_one, Complex.norm_real, Real.norm_eq_abs]

theorem one_le_lineMax (lat : ℝ) (k : ℕ) : 1 ≤ lineMax lat k := by
  unfold lineMax
  refine le_add_of_nonneg_right (List.sum_nonneg fun x hx => ?_)
  obtain ⟨s, -, rfl⟩ := List.mem_map.1 hx
  exact abs_nonneg _

theorem lineRate_nonneg (lat : ℝ) (k : ℕ) : 0 ≤ lineRate lat k := by
  unfold lineRate
  refine List.sum_nonneg fun x hx => ?_
  obtain ⟨s, -, rfl⟩ := List.mem_map.1 hx
  unfold satelliteRate
  positivity

theorem pow_difference (a b : ℂ) (G δ : ℝ) (hG : 1 ≤ G) (ha : ‖a‖ ≤ G) (hb : ‖b‖ ≤ G) (hd : ‖a - b‖ ≤ δ) (n : ℕ) :
    ‖a ^ n - b ^ n‖ ≤ n * δ * G ^ n := by
  have h0 : 0 ≤ δ := (norm_nonneg _).trans hd
  induction n with
  | zero => simp
  | succ n ih =>
    have e : a ^ (n + 1) - b ^ (n + 1) = (a ^ n - b ^ n) * a + b ^ n * (a - b) := by ring
    rw [e]
    refine (norm_add_le _ _).trans ?_
    rw [norm_mul, norm_mul, norm_pow]
    have h1 := mul_le_mul ih ha (norm_nonneg _) (by positivity)
    have h2 := mul_le_mul (pow_le_pow_left₀ (norm_nonneg b) hb n) hd (norm_nonneg _) (by positivity)
    have h3 : G ^ n * δ ≤ G ^ n * δ * G := le_mul_of_one_le_right (by positivity) hG
    push_cast
    rw [pow_succ]
    nlinarith

theorem powW_difference (a b : ℂ) (G δ : ℝ) (hG : 1 ≤ G) (ha : ‖a‖ ≤ G) (hb : ‖b‖ ≤ G) (hd : ‖a - b‖ ≤ δ) (n : ℤ) :
    ‖powW a n - powW b n‖ ≤ n.natAbs * δ * G ^ n.natAbs := by
  unfold powW
  split
  · rename_i h
    rw [show n.toNat = n.natAbs by omega]
    exact pow_difference a b G δ hG ha hb hd _
  · rename_i h
    rw [show (-n).toNat = n.natAbs by omega]
    refine pow_difference _ _ G δ hG (by rwa [Complex.norm_conj]) (by rwa [Complex.norm_conj]) ?_ _
    rwa [← map_sub, Complex.norm_conj]

theorem prod_difference (parts : List (ℕ × Dy)) (f g : ℕ → ℂ) (G δ : ℕ → ℝ) (hG : ∀ k, 1 ≤ G k)
    (hf : ∀ k, ‖f k‖ ≤ G k) (hg : ∀ k, ‖g k‖ ≤ G k) (hd : ∀ k, ‖f k - g k‖ ≤ δ k) :
    ‖(parts.map fun q => powW (f q.1) q.2.num).prod - (parts.map fun q => powW (g q.1) q.2.num).prod‖ ≤
      (parts.map fun q => q.2.num.natAbs * δ q.1).sum * (parts.map fun q => G q.1 ^ q.2.num.natAbs).prod ∧
    ‖(parts.map fun q => powW (f q.1) q.2.num).prod‖ ≤ (parts.map fun q => G q.1 ^ q.2.num.natAbs).prod := by
  induction parts with
  | nil => simp
  | cons q l ih =>
    simp only [List.map_cons, List.prod_cons, List.sum_cons]
    obtain ⟨i1, i2⟩ := ih
    have hG0 := fun k => (zero_le_one.trans (hG k))
    have p1 := powW_difference (f q.1) (g q.1) (G q.1) (δ q.1) (hG _) (hf _) (hg _) (hd _) q.2.num
    have p2 : ‖powW (g q.1) q.2.num‖ ≤ G q.1 ^ q.2.num.natAbs := by
      rw [norm_powW]; exact pow_le_pow_left₀ (norm_nonneg _) (hg _) _
    have p3 : ‖powW (f q.1) q.2.num‖ ≤ G q.1 ^ q.2.num.natAbs := by
      rw [norm_powW]; exact pow_le_pow_left₀ (norm_nonneg _) (hf _) _
    have hδ := (norm_nonneg _).trans (hd q.1)
    have hg0 := hG0 q.1
    generalize (l.map fun q => powW (f q.1) q.2.num).prod = A at *
    generalize (l.map fun q => powW (g q.1) q.2.num).prod = B at *
    constructor
    · have e : powW (f q.1) q.2.num * A - powW (g q.1) q.2.num * B =
          (powW (f q.1) q.2.num - powW (g q.1) q.2.num) * A + powW (g q.1) q.2.num * (A - B) := by ring
      rw [e]
      refine (norm_add_le _ _).trans ?_
      rw [norm_mul, norm_mul]
      have h1 := mul_le_mul p1 i2 (norm_nonneg _) (by positivity)
      have h2 := mul_le_mul p2 i1 (norm_nonneg _) (by positivity)
      refine (add_le_add h1 h2).trans (le_of_eq ?_)
      ring
    · rw [norm_mul]
      exact mul_le_mul p3 i2 (norm_nonneg _) (by positivity)

theorem nodalCorrection_rate (lat tref t : ℝ) (k : ℕ) (ht : Era t) (hr : Era tref) :
    ‖nodalCorrection lat t k - nodalCorrection lat tref k‖ ≤ nodalRate lat k * |t - tref| := by
  unfold nodalCorrection nodalRate
  cases hk : kindOf k with
  | none => simp
  | some kd =>
    cases kd with
    | primary d s => exact modulation_rate lat tref t k ht hr
    | shallow parts =>
      dsimp only
      have := (prod_difference parts (modulation lat t) (modulation lat tref) (lineMax lat)
        (fun k => lineRate lat k * |t - tref|) (one_le_lineMax lat) (norm_modulation_le lat t)
        (norm_modulation_le lat tref) fun k => modulation_rate lat tref t k ht hr).1
      refine this.trans (le_of_eq ?_)
      simp only [← mul_assoc]
      rw [List.sum_map_mul_right]
      ring

theorem textbook_nodal_exact (mp : Mode) (tref lat t : ℝ) (k : ℕ) :
    textbook .exact mp tref lat t k = nodalCorrection lat t k * textbook .off mp tref lat t k := by
  have line : ∀ j d s, kindOf j = some (.primary d s) → tidalLine .exact mp tref lat t j =
      modulation lat t j * tidalLine .off mp tref lat t j := by
    intro j d s hj
    unfold tidalLine nodalAt
    rw [hj]
    dsimp only
    rw [one_mul]
  unfold textbook nodalCorrection
  cases hk : kindOf k with
  | none => simp
  | some kd =>
    cases kd with
    | primary d s => exact line _ _ _ hk
    | shallow parts =>
      dsimp only
      have hh := fun q (hq : q ∈ parts) => kindOf_parent hk hq
      clear hk
      induction parts with
      | nil => simp
      | cons q parts ih =>
        rw [List.map_cons, List.map_cons, List.map_cons, List.prod_cons, List.prod_cons, List.prod_cons,
          ih fun x hx => hh x (by simp [hx])]
        obtain ⟨d, s, hq⟩ := hh q (by simp)
        rw [line _ _ _ hq, powW_mul]
        ring

theorem norm_textbook_off (mp : Mode) (tref lat t : ℝ) (k : ℕ) : ‖textbook .off mp tref lat t k‖ ≤ 1 := by
  have line : ∀ j, ‖tidalLine .off mp tref lat t j‖ ≤ 1 := by
    intro j
    unfold tidalLine nodalAt
    split
    · rw [norm_mul, norm_phasor]; simp
    · simp
  unfold textbook
  cases hk : kindOf k with
  | none => simp
  | some kd =>
    cases kd with
    | primary d s => exact line k
    | shallow parts =>
      dsimp only
      clear hk
      induction parts with
      | nil => simp
      | cons q parts ih =>
        rw [List.map_cons, List.prod_cons, norm_mul, norm_powW]
        exact mul_le_one₀ (pow_le_one₀ (norm_nonneg _) (line _)) (norm_nonneg _) ih

/-! ## C133 -/

section
variable {E : Env} {t : TimeArg} {u : Series} {v : Option Series} {lat : Option ℝ} {opts opts' : Dict PyVal} {c c' : Coef}

/-- **C133**, nodal corrections: those of `nodal=True` against those of `nodal='linear_time'`, kept at the reference
time. The harmonics move apart no faster than the satellites allow. -/
theorem C133_nodal (C : OtherCorrections E t u v lat opts opts' c c') (R : Ready E t u v) (mp : Mode)
    (hp : (requested opts "phase").bind phaseMode = some mp) (hp' : (requested opts' "phase").bind phaseMode = some mp)
    (hn : (requested opts "nodal").bind nodalMode = some .exact)
    (hn' : (requested opts' "nodal").bind nodalMode = some .atReference)
    (hlat : c.lat ≠ 0) (hr : Era c.reftime) (n : String) (hnc : n ∈ c.name) (hM : n ≠ "M7") (τ : ℝ) (hτ : Era τ) :
    ‖harmonic c' n τ - harmonic c n τ‖ ≤ nodalRate c.lat (constitNames.idxOf n) * |τ - c.reftime| := by
  obtain ⟨hperm, href, hcl⟩ := C.shared R
  obtain ⟨i, hi⟩ := List.mem_iff_getElem?.1 hnc
  obtain ⟨j, hj⟩ := List.mem_iff_getElem?.1 (hperm.mem_iff.2 hnc)
  have h1 := (C20_harmonics E t u v lat opts C.keys c C.run _ _ hn hp (.inl hlat) i n hi hM τ).1
  have h2 := (C20_harmonics E t u v lat opts' C.keys' c' C.run' _ _ hn' hp' (.inl (by rw [hcl]; exact hlat)) j n hj hM τ).1
  rw [h1, h2, href, hcl, textbook_nodal, textbook_nodal_exact, ← sub_mul, norm_mul, norm_sub_rev]
  have := nodalCorrection_rate c.lat c.reftime τ (constitNames.idxOf n) hτ hr
  exact (mul_le_of_le_one_right (norm_nonneg _) (norm_textbook_off _ _ _ _ _)).trans this

/-- **C133**, nodal corrections, fits: the misfit (root of the sum of squares) with either option exceeds that with the
other by at most `d √N` times the sum of the amplitudes of the other, each times the rate at which its correction may
change. -/
theorem C133_nodal_fits (C : OtherCorrections E t u v lat opts opts' c c') (R : Ready E t u v) (mp : Mode)
    (hp : (requested opts "phase").bind phaseMode = some mp) (hp' : (requested opts' "phase").bind phaseMode = some mp)
    (hn : (requested opts "nodal").bind nodalMode = some .exact)
    (hn' : (requested opts' "nodal").bind nodalMode = some .atReference)
    (hlat : c.lat ≠ 0) (hr : Era c.reftime) (hM : "M7" ∉ c.name) (tn : List Fl)
    (htn : normalizeTime E.dt64 t.arr c.opt.epoch = .ok tn) (d : ℝ)
    (hs : ∀ τ, SampleTime tn u.data (v.map Series.data) τ → Era τ ∧ |τ - c.reftime| ≤ d) :
    ∃ x x', Residual E t u v c x ∧ Residual E t u v c' x' ∧
      Real.sqrt x' ≤ Real.sqrt x + d * Real.sqrt (samples tn (sampleValues u.data (v.map Series.data))).length *
        ((List.range c.name.length).map fun i =>
          nodalRate c.lat (constitNames.idxOf (c.name.getD i "")) * amplitude c i).sum ∧
      Real.sqrt x ≤ Real.sqrt x' + d * Real.sqrt (samples tn (sampleValues u.data (v.map Series.data))).length *
        ((List.range c'.name.length).map fun i =>
          nodalRate c.lat (constitNames.idxOf (c'.name.getD i "")) * amplitude c' i).sum := by
  have hz := C133_nodal C R mp hp hp' hn hn' hlat hr
  obtain ⟨hperm, href, hcl⟩ := C.shared R
  have hnr : ∀ k, 0 ≤ nodalRate c.lat k := by
    intro k
    unfold nodalRate
    split
    · exact lineRate_nonneg _ _
    · refine mul_nonneg (List.sum_nonneg fun x hx => ?_) (List.prod_nonneg fun x hx => ?_)
      · obtain ⟨q, -, rfl⟩ := List.mem_map.1 hx
        exact mul_nonneg (Nat.cast_nonneg _) (lineRate_nonneg _ _)
      · obtain ⟨q, -, rfl⟩ := List.mem_map.1 hx
        have := one_le_lineMax c.lat q.1
        positivity
    · exact le_rfl
  have htn' : normalizeTime E.dt64 t.arr c'.opt.epoch = .ok tn := by
    obtain ⟨tn0, H, H', -⟩ := C.runs R
    obtain rfl : tn0 = tn := Except.ok.inj (H.time.symm.trans htn)
    exact H'.time
  obtain ⟨x, x', r1, r2, l1⟩ := C.near R (fun _ => 1) tn htn (fun n τ => d * nodalRate c.lat (constitNames.idxOf n))
    fun n hnc τ hτ => by
      obtain ⟨h1, h2⟩ := hs τ hτ
      rw [one_mul, mul_comm]
      exact (hz n hnc (by rintro rfl; exact hM hnc) τ h1).trans (mul_le_mul_of_nonneg_left h2 (hnr _))
  obtain ⟨y', y, r3, r4, l2⟩ := (C.symm R).near R (fun _ => 1) tn htn'
    (fun n τ => d * nodalRate c.lat (constitNames.idxOf n)) fun n hnc τ hτ => by
      obtain ⟨h1, h2⟩ := hs τ hτ
      have hnc := hperm.mem_iff.1 hnc
      rw [one_mul, mul_comm, norm_sub_rev]
      exact (hz n hnc (by rintro rfl; exact hM hnc) τ h1).trans (mul_le_mul_of_nonneg_left h2 (hnr _))
  obtain rfl := residual_unique r1 r4
  obtain rfl := residual_unique r2 r3
  have hd : samples tn (sampleValues u.data (v.map Series.data)) = [] ∨ 0 ≤ d := by
    rcases hl : samples tn (sampleValues u.data (v.map Series.data)) with _ | ⟨s, l⟩
    · exact .inl rfl
    · right
      obtain ⟨i, h1, h2⟩ := (mem_samples _ _ s).1 (by rw [hl]; simp)
      exact (abs_nonneg _).trans (hs s.1 ⟨i, s.2, h1, h2⟩).2
  rcases hd with hd | hd
  · rw [hd] at l1 l2 ⊢
    exact ⟨x, x', r1, r2, by simpa using l1, by simpa using l2⟩
  have b1 := root_bound (samples tn (sampleValues u.data (v.map Series.data))) (List.range c.name.length) (amplitude c)
    (fun s i => nodalRate c.lat (constitNames.idxOf (c.name.getD i ""))) d _ hd
    (fun i _ => run_amplitude_nonneg R C.keys C.run i) (fun _ _ => hnr _) fun s hsam => le_rfl
  have b2 := root_bound (samples tn (sampleValues u.data (v.map Series.data))) (List.range c'.name.length) (amplitude c')
    (fun s i => nodalRate c.lat (constitNames.idxOf (c'.name.getD i ""))) d _ hd
    (fun i _ => run_amplitude_nonneg R C.keys' C.run' i) (fun _ _ => hnr _) fun s hsam => le_rfl
  exact ⟨x, x', r1, r2, by linarith, by linarith⟩

end

/-! ## The main constituents -/

/-- Greatest change per day of the nodal corrections of the main constituents, relative to the main line, at any
latitude. -/
def mainRates : List (String × ℚ) :=
  [("M2", 5 / 10 ^ 5), ("S2", 3 / 10 ^ 6), ("N2", 6 / 10 ^ 5), ("K2", 37 / 10 ^ 5), ("K1", 17 / 10 ^ 5),
   ("O1", 25 / 10 ^ 5), ("P1", 23 / 10 ^ 6), ("Q1", 62 / 10 ^ 5)]

def satRateQ (s : Sat) : ℚ := (|(s.d4 : ℚ)| * 0.1115 + |(s.d5 : ℚ)| * 0.0531 + |(s.d6 : ℚ)| * 0.00005) / 360

def lineRateQ (k : ℕ) : ℚ := ((satellites k).map fun s => |dyRat s.amprat| * latMax s * satRateQ s).sum

theorem satRateQ_cast (s : Sat) : ((satRateQ s : ℚ) : ℝ) = satelliteRate s := by
  unfold satRateQ satelliteRate
  push_cast
  norm_num

theorem lineRate_le {lat : ℝ} (h : GoodLat lat) (k : ℕ) : lineRate lat k ≤ 2 * Real.pi * ((lineRateQ k : ℚ) : ℝ) := by
  unfold lineRate lineRateQ
  rw [Rat.cast_list_sum, List.map_map, ← List.sum_map_mul_left]
  refine List.sum_le_sum fun s _ => ?_
  have h1 := satRatio_le h s
  rw [satelliteRatio_eq] at h1
  have h2 : 0 ≤ satelliteRate s := by unfold satelliteRate; positivity
  rw [Function.comp_apply, Rat.cast_mul, satRateQ_cast]
  have := mul_le_mul_of_nonneg_right h1 (show 0 ≤ 2 * Real.pi * satelliteRate s by positivity)
  linarith

theorem rates_table : (mainRates.all fun q => isPrimary (constitNames.idxOf q.1) &&
    decide (6.2832 * lineRateQ (constitNames.idxOf q.1) ≤ q.2 ∧ 0 ≤ lineRateQ (constitNames.idxOf q.1))) = true := by
  decide +kernel

/-- **C133**, the rates in figures: 5e-5 per day for M2 (0.9% in half a year), 2.5e-4 for O1, and so on. -/
theorem C133_rates (lat : ℝ) (h : GoodLat lat) (n : String) (b : ℚ) (hn : (n, b) ∈ mainRates) :
    nodalRate lat (constitNames.idxOf n) ≤ b := by
  have hT := List.all_eq_true.1 rates_table _ hn
  simp only [Bool.and_eq_true, decide_eq_true_eq] at hT
  obtain ⟨h1, h2, h3⟩ := hT
  have e : nodalRate lat (constitNames.idxOf n) = lineRate lat (constitNames.idxOf n) := by
    unfold isPrimary at h1
    unfold nodalRate
    split at h1
    · rename_i d s hk; rw [hk]
    · cases h1
  rw [e]
  refine (lineRate_le h _).trans ?_
  have h2 := (Rat.cast_le (K := ℝ)).2 h2
  have h3 : (0 : ℝ) ≤ (lineRateQ (constitNames.idxOf n) : ℝ) := by exact_mod_cast h3
  push_cast at h2
  refine le_trans (mul_le_mul_of_nonneg_right ?_ h3) h2
  have := Real.pi_lt_d4
  norm_num at this ⊢
  linarith

/-! ## Examples -/

theorem mode_reftime {no ph : PyVal} {a b d : ℝ} {c : Coef}
    (h : solve idealEnv dayT (daySeries a b d) none (some 45) (modeOpts no ph) = .ok c) (hep : c.opt.epoch = .str "python") :
    c.reftime = 0.5 := by
  have R := day_ready a b d none (.inl rfl)
  obtain ⟨opt, p, tn, constit, m, W, rf, full, o, ind, F⟩ := solve_facts R h
  have htn := F.prep.init.time
  rw [← F.copt, hep, day_times] at htn
  cases Except.ok.inj htn
  rw [F.creftime]
  have hus := day_usable a b d none (.inl rfl)
  obtain ⟨-, -, -, -, h5⟩ := editData_usable _ _ _ (F.samples R).1 _ F.prep.init.edit
  have e1 : finiteTimes [.fin 0, .fin 0.5, .fin 1] = [0, 0.5, 1] := by simp [finiteTimes, Fl.toReal?]
  rw [e1, hus] at h5
  unfold timeStats at h5
  by_cases he : isEqui [0, 0.5, 1]
  · simp only [he, if_true] at h5
    have h6 := congrArg Prod.fst (Except.ok.inj h5)
    exact h6.symm.trans (by show (0.5 : ℝ) * (0 + 1) = 0.5; norm_num)
  · simp only [he] at h5
    have h6 := congrArg Prod.fst (Except.ok.inj h5)
    exact h6.symm.trans (by show (0.5 : ℝ) * (0 + 1) = 0.5; norm_num)

theorem day_sample (a b d τ : ℝ) (h : SampleTime [.fin 0, .fin 0.5, .fin 1] (daySeries a b d).data none τ) :
    τ = 0 ∨ τ = 0.5 ∨ τ = 1 := by
  obtain ⟨i, x, h1, -⟩ := h
  match i, h1 with
  | 0, h1 => exact .inl (Fl.fin.inj (Option.some.inj h1)).symm
  | 1, h1 => exact .inr (.inl (Fl.fin.inj (Option.some.inj h1)).symm)
  | 2, h1 => exact .inr (.inr (Fl.fin.inj (Option.some.inj h1)).symm)

/-- Three values: M2 with exact and with linearised phases. -/
example : ∃ c c' x x', solve idealEnv dayT (daySeries 1 5 3) none (some 45) (modeOpts (.bool false) (.str "Greenwich")) = .ok c ∧
    solve idealEnv dayT (daySeries 1 5 3) none (some 45) (modeOpts (.bool false) (.str "raw")) = .ok c' ∧
    Residual idealEnv dayT (daySeries 1 5 3) none c x ∧ Residual idealEnv dayT (daySeries 1 5 3) none c' x' ∧
    Real.sqrt x' ≤ Real.sqrt x + 2 * Real.pi * curvature 0.5 * Real.sqrt 3 * amplitude c 0 := by
  obtain ⟨c, c', C, n1, n2, hl, hep⟩ := mode_other (.bool false) (.str "Greenwich") (.bool false) (.str "raw") rfl rfl rfl
    rfl 1 5 3
  have R := day_ready 1 5 3 none (.inl rfl)
  have hr := mode_reftime C.run hep
  obtain ⟨x, x', r1, r2, l1, -⟩ := C133_fits C R .off rfl rfl rfl (.inr rfl) (.inr rfl)
    (by rw [hr]; unfold Era; norm_num [abs_of_neg]) (by rw [n1]; decide) [.fin 0, .fin 0.5, .fin 1]
    (by rw [hep]; exact day_times) 0.5 (amplitude c 0) (amplitude c' 0) (by
      intro τ hτ
      rw [n1, n2, hr]
      have e1 := norm_harmonic_off C.keys C.run R rfl "M2" (by rw [n1]; simp) τ
      have e2 := norm_harmonic_off C.keys' C.run' R rfl "M2" (by rw [n2]; simp) τ
      have ht : Era τ ∧ |τ - 0.5| ≤ 0.5 := by
        rcases day_sample 1 5 3 τ hτ with rfl | rfl | rfl <;> unfold Era <;> norm_num [abs_of_neg]
      refine ⟨ht.1, ht.2, ?_, ?_⟩
      · simp [List.range_succ, e1]
      · simp [List.range_succ, e2])
  exact ⟨c, c', x, x', C.run, C.run', r1, r2, l1⟩

/-- Three values: M2 with varying and with frozen nodal corrections. -/
example : ∃ c c' x x', solve idealEnv dayT (daySeries 1 5 3) none (some 45) (modeOpts (.bool true) (.str "raw")) = .ok c ∧
    solve idealEnv dayT (daySeries 1 5 3) none (some 45) (modeOpts (.str "linear_time") (.str "raw")) = .ok c' ∧
    Residual idealEnv dayT (daySeries 1 5 3) none c x ∧ Residual idealEnv dayT (daySeries 1 5 3) none c' x' ∧
    Real.sqrt x' ≤ Real.sqrt x + 0.5 * Real.sqrt 3 * (5 / 10 ^ 5 * amplitude c 0) := by
  obtain ⟨c, c', C, n1, n2, hl, hep⟩ := mode_other (.bool true) (.str "raw") (.str "linear_time") (.str "raw") rfl rfl rfl
    rfl 1 5 3
  have R := day_ready 1 5 3 none (.inl rfl)
  have hr := mode_reftime C.run hep
  obtain ⟨x, x', r1, r2, l1, -⟩ := C133_nodal_fits C R .off rfl rfl rfl rfl (by rw [hl]; norm_num)
    (by rw [hr]; unfold Era; norm_num [abs_of_neg]) (by rw [n1]; decide) [.fin 0, .fin 0.5, .fin 1]
    (by rw [hep]; exact day_times) 0.5 (by
      intro τ hτ
      rw [hr]
      rcases day_sample 1 5 3 τ hτ with rfl | rfl | rfl <;> unfold Era <;> norm_num [abs_of_neg])
  refine ⟨c, c', x, x', C.run, C.run', r1, r2, l1.trans ?_⟩
  have h0 := run_amplitude_nonneg R C.keys C.run 0
  have hb := C133_rates 45 ⟨by norm_num, by norm_num, by norm_num⟩ "M2" (5 / 10 ^ 5) (by simp [mainRates])
  push_cast at hb
  have h3 : (samples [.fin 0, .fin 0.5, .fin 1] (sampleValues (daySeries 1 5 3).data none)).length = 3 := rfl
  rw [n1, hl]
  simp only [List.length_singleton, List.range_one, List.map_singleton, List.sum_singleton, List.getD_cons_zero,
    Option.map_none]
  rw [h3]
  norm_num
  gcongr
  linarith

end

end UTide.Props
