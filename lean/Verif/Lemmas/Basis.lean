import Verif.Lemmas.Harmonics
import Verif.Lemmas.Astronomy
import Mathlib.Analysis.SpecialFunctions.Complex.Circle
import Mathlib.Topology.Algebra.Monoid

/-!
# The basis functions as products of parents' basis functions
-/

namespace UTide

noncomputable section

open Complex (I)

/-- `exp(2 pi i x)`. -/
def cis (x : ℝ) : ℂ := Complex.exp (I * (x : ℂ) * 2 * Real.pi)

theorem cis_eq (x : ℝ) : cis x = Complex.exp (((2 * Real.pi * x : ℝ) : ℂ) * I) := by
  unfold cis; congr 1; push_cast; ring

theorem cis_add (x y : ℝ) : cis (x + y) = cis x * cis y := by
  unfold cis; rw [← Complex.exp_add]; congr 1; push_cast; ring

theorem cis_zero : cis 0 = 1 := by unfold cis; simp

theorem cis_int (n : ℤ) : cis n = 1 := by
  unfold cis
  rw [Complex.exp_eq_one_iff]
  exact ⟨n, by push_cast; ring⟩

theorem cis_congr {x y : ℝ} (h : ∃ n : ℤ, x - y = n) : cis x = cis y := by
  obtain ⟨n, hn⟩ := h
  rw [show x = y + (n : ℝ) by linarith, cis_add, cis_int, mul_one]

theorem norm_cis (x : ℝ) : ‖cis x‖ = 1 := by
  rw [cis_eq, Complex.norm_exp_ofReal_mul_I]

theorem cis_ne_zero (x : ℝ) : cis x ≠ 0 := Complex.exp_ne_zero _

theorem cis_neg (x : ℝ) : cis (-x) = (cis x)⁻¹ := by
  unfold cis; rw [← Complex.exp_neg]; congr 1; push_cast; ring

theorem cis_sub (x y : ℝ) : cis (x - y) = cis x * (cis y)⁻¹ := by
  rw [sub_eq_add_neg, cis_add, cis_neg]

theorem conj_cis (x : ℝ) : (starRingEnd ℂ) (cis x) = cis (-x) := by
  unfold cis
  rw [← Complex.exp_conj]
  congr 1
  have h2 : (starRingEnd ℂ) 2 = 2 := Complex.conj_ofNat 2
  simp only [map_mul, Complex.conj_I, Complex.conj_ofReal, h2]
  push_cast; ring

theorem cis_int_mul (n : ℤ) (x : ℝ) : cis (n * x) = cis x ^ n := by
  unfold cis
  rw [← Complex.exp_int_mul]
  congr 1
  push_cast; ring

theorem cis_nat_mul (n : ℕ) (x : ℝ) : cis (n * x) = cis x ^ n := by
  have := cis_int_mul n x
  rw [zpow_natCast] at this
  exact_mod_cast this

theorem cis_list_sum (l : List ℝ) : cis l.sum = (l.map cis).prod := by
  induction l with
  | nil => simpa using cis_zero
  | cons a l ih => rw [List.sum_cons, cis_add, ih, List.map_cons, List.prod_cons]

theorem continuous_cis : Continuous cis := by
  unfold cis
  fun_prop

/-- `|z| exp(i arg z) = z`. -/
theorem norm_mul_cis_arg (z : ℂ) : (‖z‖ : ℂ) * cis (Complex.arg z / (2 * Real.pi)) = z := by
  rw [cis_eq, show 2 * Real.pi * (Complex.arg z / (2 * Real.pi)) = Complex.arg z by
    field_simp]
  exact Complex.norm_mul_exp_arg_mul_I z

/-! ## Per-constituent values -/

theorem linFreqs_primary (tref : ℝ) {k : ℕ} {d : Doodson} {s : Dy} (h : kindOf k = some (.primary d s)) :
    linFreqs tref k = d.dot (ader tref) / 24 := by
  unfold linFreqs
  rw [loop_not_shallow]
  · unfold kindOf at h
    rw [Option.map_eq_some_iff] at h
    obtain ⟨c, hc, hk⟩ := h
    rw [hc]
    dsimp only
    rw [hk]
  · intro p hp
    rw [h] at hp
    cases hp

theorem sumStep_loop (v : ℕ → ℝ) {k : ℕ} {parts : List (ℕ × Dy)}
    (h : kindOf k = some (.shallow parts)) :
    loopShallow sumStep shallowRows v k =
      (parts.map fun p => p.2.toReal * loopShallow sumStep shallowRows v p.1).sum := by
  rw [loop_shallow localStep_sum v h]
  unfold sumStep
  congr 1
  refine List.map_congr_left fun p hp => ?_
  have := loop_parent sumStep v h hp
  unfold sumStep at this
  rw [this, mul_comm]

theorem prodStep_loop (v : ℕ → ℝ) {k : ℕ} {parts : List (ℕ × Dy)}
    (h : kindOf k = some (.shallow parts)) :
    loopShallow prodStep shallowRows v k =
      (parts.map fun p => loopShallow prodStep shallowRows v p.1 ^ |p.2.toReal|).prod := by
  rw [loop_shallow localStep_prod v h]
  unfold prodStep
  congr 1
  refine List.map_congr_left fun p hp => ?_
  have := loop_parent prodStep v h hp
  unfold prodStep at this
  rw [this]

theorem linFreqs_shallow (tref : ℝ) {k : ℕ} {parts : List (ℕ × Dy)}
    (h : kindOf k = some (.shallow parts)) :
    linFreqs tref k = (parts.map fun p => p.2.toReal * linFreqs tref p.1).sum :=
  sumStep_loop _ h

theorem vGreenwich_shallow (t : ℝ) {k : ℕ} {parts : List (ℕ × Dy)}
    (h : kindOf k = some (.shallow parts)) :
    vGreenwich t k = (parts.map fun p => p.2.toReal * vGreenwich t p.1).sum :=
  sumStep_loop _ h

theorem vGreenwich_primary (t : ℝ) {k : ℕ} {d : Doodson} {s : Dy} (h : kindOf k = some (.primary d s)) :
    vGreenwich t k = fmod1 (d.dot (astro t) + s.toReal) := by
  unfold vGreenwich
  rw [loop_not_shallow]
  · unfold vPrimary; rw [h]
  · intro p hp; rw [h] at hp; cases hp

theorem nodU_shallow (fl : Flags) (tref lat t : ℝ) {k : ℕ} {parts : List (ℕ × Dy)}
    (h : kindOf k = some (.shallow parts)) :
    nodU fl tref lat t k = (parts.map fun p => p.2.toReal * nodU fl tref lat t p.1).sum := by
  unfold nodU
  split
  · simp
  · exact sumStep_loop _ h

theorem nodF_shallow (fl : Flags) (tref lat t : ℝ) {k : ℕ} {parts : List (ℕ × Dy)}
    (h : kindOf k = some (.shallow parts)) :
    nodF fl tref lat t k = (parts.map fun p => nodF fl tref lat t p.1 ^ |p.2.toReal|).prod := by
  unfold nodF
  split
  · simp
  · exact prodStep_loop _ h

theorem sum_map_add {ι : Type} (l : List ι) (f g : ι → ℝ) :
    (l.map fun x => f x + g x).sum = (l.map f).sum + (l.map g).sum := by
  induction l with
  | nil => simp
  | cons a l ih => simp only [List.map_cons, List.sum_cons, ih]; ring

theorem sum_map_mul {ι : Type} (l : List ι) (c : ℝ) (f : ι → ℝ) :
    (l.map fun x => c * f x).sum = c * (l.map f).sum := by
  induction l with
  | nil => simp
  | cons a l ih => simp only [List.map_cons, List.sum_cons, ih]; ring

theorem gwV_shallow (fl : Flags) (tref t : ℝ) {k : ℕ} {parts : List (ℕ × Dy)}
    (h : kindOf k = some (.shallow parts)) :
    gwV fl tref t k = (parts.map fun p => p.2.toReal * gwV fl tref t p.1).sum := by
  unfold gwV
  split
  · rw [linFreqs_shallow tref h, ← sum_map_mul]
    congr 1
    exact List.map_congr_left fun p _ => by ring
  · split
    · rw [linFreqs_shallow tref h, vGreenwich_shallow tref h, ← sum_map_mul, ← sum_map_add]
      congr 1
      exact List.map_congr_left fun p _ => by ring
    · exact vGreenwich_shallow t h

/-- The general branch of `ut_E`. -/
def utEgen (fl : Flags) (tref lat t : ℝ) (k : ℕ) : ℂ :=
  (nodF fl tref lat t k : ℂ) * cis (nodU fl tref lat t k + gwV fl tref t k)

theorem utE_general (fl : Flags) (tref lat t frq : ℝ) (k : ℕ) (h : ¬ (fl.nodsatnone ∧ fl.gwchnone)) :
    utE fl tref lat t frq k = utEgen fl tref lat t k := by
  unfold utE utEgen cis
  rw [if_neg h]

/-- The shortcut of `ut_E` agrees with the general branch when the frequency is the one at the reference
time. -/
theorem utE_eq_gen (fl : Flags) (tref lat t : ℝ) (k : ℕ) :
    utE fl tref lat t (linFreqs tref k) k = utEgen fl tref lat t k := by
  by_cases h : fl.nodsatnone ∧ fl.gwchnone
  · unfold utE utEgen cis nodF nodU gwV
    simp only [h.1, h.2, and_self, if_true]
  · exact utE_general fl tref lat t _ k h

/-- The complex nodal correction of a primary constituent. -/
def nodZ (fl : Flags) (tref lat t : ℝ) (k : ℕ) : ℂ :=
  if fl.nodsatnone then 1 else satSum lat (if fl.nodsatlint then tref else t) k

theorem utEgen_primary (fl : Flags) (tref lat t : ℝ) {k : ℕ} (h : ∀ parts, kindOf k ≠ some (.shallow parts)) :
    utEgen fl tref lat t k = nodZ fl tref lat t k * cis (gwV fl tref t k) := by
  unfold utEgen nodZ nodF nodU
  split
  · simp
  · dsimp only
    rw [loop_not_shallow _ _ h, loop_not_shallow _ _ h, cis_add, ← mul_assoc, norm_mul_cis_arg]

theorem nodF_nonneg_primary (fl : Flags) (tref lat t : ℝ) {k : ℕ}
    (h : ∀ parts, kindOf k ≠ some (.shallow parts)) : 0 ≤ nodF fl tref lat t k := by
  unfold nodF
  split
  · norm_num
  · dsimp only
    rw [loop_not_shallow _ _ h]
    exact norm_nonneg _

/-- A power of a basis function with integer weight: negative weights mean the complex conjugate. -/
def powW (z : ℂ) (n : ℤ) : ℂ := if 0 ≤ n then z ^ n.toNat else (starRingEnd ℂ z) ^ (-n).toNat

theorem powW_polar (r x : ℝ) (hr : 0 ≤ r) (n : ℤ) :
    powW (r * cis x) n = ((r ^ |(n : ℝ)| : ℝ) : ℂ) * cis (n * x) := by
  unfold powW
  split
  · rename_i h
    obtain ⟨m, rfl⟩ := Int.eq_ofNat_of_zero_le h
    simp only [Int.toNat_natCast, Int.cast_natCast, Nat.abs_cast, Real.rpow_natCast]
    rw [mul_pow, cis_nat_mul]
    push_cast; ring
  · rename_i h
    obtain ⟨m, hm⟩ := Int.eq_ofNat_of_zero_le (show 0 ≤ -n by omega)
    have : n = -(m : ℤ) := by omega
    subst this
    simp only [neg_neg, Int.toNat_natCast, Int.cast_neg, Int.cast_natCast, abs_neg, Nat.abs_cast,
      Real.rpow_natCast]
    rw [map_mul, Complex.conj_ofReal, conj_cis, mul_pow, ← cis_nat_mul]
    push_cast
    congr 2
    ring

/-- A compound with integer weights is the product of the powers of its parents. -/
theorem utEgen_shallow (fl : Flags) (tref lat t : ℝ) {k : ℕ} {parts : List (ℕ × Dy)}
    (h : kindOf k = some (.shallow parts)) (hk : k ≠ M7) :
    utEgen fl tref lat t k = (parts.map fun p => powW (utEgen fl tref lat t p.1) p.2.num).prod := by
  have hmap : (parts.map fun p => powW (utEgen fl tref lat t p.1) p.2.num) =
      parts.map fun p => ((nodF fl tref lat t p.1 ^ |p.2.toReal| : ℝ) : ℂ) *
        cis (p.2.toReal * (nodU fl tref lat t p.1 + gwV fl tref t p.1)) := by
    refine List.map_congr_left fun p hp => ?_
    unfold utEgen
    rw [powW_polar _ _ (nodF_nonneg_primary fl tref lat t (fun q => parent_not_shallow h hp q)),
      weight_integer h hk hp]
  rw [hmap, List.prod_map_mul]
  unfold utEgen
  congr 1
  · rw [nodF_shallow fl tref lat t h]
    rw [show ∀ l : List ℝ, ((l.prod : ℝ) : ℂ) = (l.map fun x : ℝ => (x : ℂ)).prod from fun l => by
      induction l with
      | nil => simp
      | cons a l ih => rw [List.prod_cons, List.map_cons, List.prod_cons, ← ih]; push_cast; ring]
    rw [List.map_map]; rfl
  · rw [nodU_shallow fl tref lat t h, gwV_shallow fl tref t h, ← sum_map_add, cis_list_sum, List.map_map]
    congr 1
    refine List.map_congr_left fun p _ => ?_
    simp only [Function.comp_apply]
    congr 1; ring

end

end UTide
