import Verif.Props.TimeProps

/-!
# Numbers without an epoch (C27)
-/

namespace UTide
namespace Props

/-- `n` is `t` without its fraction. -/
def DropsFraction (t : ℝ) (n : ℤ) : Prop := |(n : ℝ)| ≤ |t| ∧ |t| < |(n : ℝ)| + 1 ∧ 0 ≤ t * n

/-- There is one such number. -/
theorem dropsFraction_unique (t : ℝ) (m n : ℤ) (hm : DropsFraction t m) (hn : DropsFraction t n) : m = n := by
  obtain ⟨a1, a2, a3⟩ := hm
  obtain ⟨b1, b2, b3⟩ := hn
  have h1 : |m| = |n| := by
    have u : ((|m| : ℤ) : ℝ) < (|n| : ℤ) + 1 := by push_cast; linarith
    have v : ((|n| : ℤ) : ℝ) < (|m| : ℤ) + 1 := by push_cast; linarith
    have u' : |m| < |n| + 1 := by exact_mod_cast u
    have v' : |n| < |m| + 1 := by exact_mod_cast v
    omega
  rcases abs_eq_abs.mp h1 with h | h
  · exact h
  · subst h
    rcases lt_trichotomy n 0 with hn0 | hn0 | hn0
    · have hr : (n : ℝ) < 0 := by exact_mod_cast hn0
      push_cast at a3
      have ht : t = 0 := by
        by_contra hne
        rcases lt_or_gt_of_ne hne with h | h <;> nlinarith
      rw [ht, abs_zero] at b1
      have := abs_pos.mpr hr.ne
      linarith
    · omega
    · have hr : (0 : ℝ) < n := by exact_mod_cast hn0
      push_cast at a3
      have ht : t = 0 := by
        by_contra hne
        rcases lt_or_gt_of_ne hne with h | h <;> nlinarith
      rw [ht, abs_zero] at b1
      have := abs_pos.mpr hr.ne'
      linarith

theorem truncZ_drops (t : ℝ) : DropsFraction t (truncZ t) := by
  unfold truncZ
  split
  · rename_i h
    have h0 : (0 : ℝ) ≤ ⌊t⌋ := by exact_mod_cast Int.floor_nonneg.mpr h
    refine ⟨?_, ?_, mul_nonneg h h0⟩
    · rw [abs_of_nonneg h0, abs_of_nonneg h]
      exact Int.floor_le t
    · rw [abs_of_nonneg h0, abs_of_nonneg h]
      exact Int.lt_floor_add_one t
  · rename_i h
    push Not at h
    have h0 : ((⌈t⌉ : ℤ) : ℝ) ≤ 0 := by exact_mod_cast Int.ceil_le.mpr (by simpa using h.le)
    refine ⟨?_, ?_, mul_nonneg_of_nonpos_of_nonpos h.le h0⟩
    · rw [abs_of_nonpos h0, abs_of_neg h]
      linarith [Int.le_ceil t]
    · rw [abs_of_nonpos h0, abs_of_neg h]
      linarith [Int.ceil_lt_add_one t]

/-- C27: without an epoch a finite number counts as milliseconds since 1970-01-01 with its fraction dropped, before 1970
as well as after; NaN and the infinities become NaN. -/
theorem C27_milliseconds (dt64 : String → Option ℤ) (xs : List Fl) :
    ∃ days, normalizeTime dt64 (.float xs) .none = .ok days ∧
      List.Forall₂ (fun x d => (∀ t n, x = .fin t → DropsFraction t n → d = .fin (n / 86400000 + 719163)) ∧
        (x.isFinite = false → d = .nan)) xs days := by
  refine ⟨xs.map fun x => (date2num (flToMs x)).add (.fin (dayToGregorianEpoch : ℝ)), ?_, ?_⟩
  · simp [normalizeTime, pythonGregorianDatenum, astypeMs, ok_bind, pure_eq_ok]
  · rw [List.forall₂_map_right_iff]
    refine List.forall₂_same.mpr fun x _ => ⟨?_, ?_⟩
    · rintro t n rfl hn
      rw [dropsFraction_unique t n _ hn (truncZ_drops t)]
      simp [flToMs, date2num, Fl.add, msPerDay, dayToGregorianEpoch]
    · intro h
      cases x <;> simp_all [flToMs, date2num, Fl.add, Fl.isFinite]

/-- C27 for arrays of integers, of unsigned integers and of booleans. -/
theorem C27_integers (dt64 : String → Option ℤ) (ns : List ℤ) (us : List ℕ) (bs : List Bool) :
    normalizeTime dt64 (.int ns) .none = .ok (ns.map fun n : ℤ => .fin (n / 86400000 + 719163)) ∧
    normalizeTime dt64 (.uint us) .none = .ok (us.map fun n : ℕ => .fin (n / 86400000 + 719163)) ∧
    normalizeTime dt64 (.bool bs) .none
      = .ok (bs.map fun b => .fin ((if b = true then 1 else 0) / 86400000 + 719163)) := by
  refine ⟨?_, ?_, ?_⟩
  · simp [normalizeTime, pythonGregorianDatenum, astypeMs, ok_bind, pure_eq_ok, date2num, Fl.add, msPerDay,
      dayToGregorianEpoch]
  · simp [normalizeTime, pythonGregorianDatenum, astypeMs, ok_bind, pure_eq_ok, date2num, Fl.add, msPerDay,
      dayToGregorianEpoch]
  · simp [normalizeTime, pythonGregorianDatenum, astypeMs, ok_bind, pure_eq_ok, date2num, Fl.add, msPerDay,
      dayToGregorianEpoch]

/-- One and a half milliseconds before 1970 is one millisecond before 1970. -/
example : DropsFraction (-1.5) (-1) := by
  refine ⟨?_, ?_, ?_⟩ <;> norm_num [abs_of_neg]

example (dt64 : String → Option ℤ) : normalizeTime dt64 (.float [.fin (-1.5)]) .none
    = .ok [.fin ((-1 : ℤ) / 86400000 + 719163)] := by
  obtain ⟨days, h, hf⟩ := C27_milliseconds dt64 [.fin (-1.5)]
  rw [h]
  cases hf with
  | cons h1 h2 =>
    cases h2
    rw [h1.1 (-1.5) (-1) rfl (by refine ⟨?_, ?_, ?_⟩ <;> norm_num [abs_of_neg])]

end Props
end UTide
