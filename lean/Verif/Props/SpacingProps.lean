import Verif.Props.SlvInitProps

/-!
# C68: what counts as evenly spaced
-/

namespace UTide.Props

noncomputable section

open Classical

theorem mean_within (l : List ℝ) (hl : l ≠ []) (lo hi : ℝ) (h : ∀ y ∈ l, lo ≤ y ∧ y ≤ hi) : lo ≤ mean l ∧ mean l ≤ hi := by
  have hn : (0 : ℝ) < l.length := by exact_mod_cast List.length_pos_iff.2 hl
  have h1 := List.card_nsmul_le_sum l lo fun y hy => (h y hy).1
  have h2 := List.sum_le_card_nsmul l hi fun y hy => (h y hy).2
  rw [nsmul_eq_mul] at h1 h2
  unfold mean
  rw [le_div_iff₀ hn, div_le_iff₀ hn]
  constructor <;> linarith

/-- **C68**, the tolerance. Spacings (days) that all agree to within some `δ < 2^-26`, about 1.3 milliseconds, are taken
for even ones. For `n` times of which two spacings differ by `sqrt(2 n) 2^-26` or more they are not. -/
theorem C68_tolerance (x : List ℝ) :
    (2 ≤ x.length → (∃ δ < 1 / 2 ^ 26, ∀ (i j : ℕ) (a b a' b' : ℝ), x[i]? = some a → x[i + 1]? = some b →
      x[j]? = some a' → x[j + 1]? = some b' → |(b - a) - (b' - a')| ≤ δ) → isEqui x = true) ∧
    ∀ (i j : ℕ) (a b a' b' : ℝ), x[i]? = some a → x[i + 1]? = some b → x[j]? = some a' → x[j + 1]? = some b' →
      Real.sqrt (2 * x.length) / 2 ^ 26 ≤ |(b - a) - (b' - a')| → isEqui x = false := by
  constructor
  · rintro h2 ⟨δ, hδ, h⟩
    have hmem : ∀ p ∈ uniq (diffs x), p ∈ diffs x := fun p hp => by
      unfold uniq at hp
      rwa [List.mem_dedup] at hp
    have hne : uniq (diffs x) ≠ [] := by
      intro h0
      have hl := diffs_length x
      cases hx : diffs x with
      | nil => rw [hx] at hl; simp at hl; omega
      | cons a l =>
        have : a ∈ uniq (diffs x) := by unfold uniq; rw [List.mem_dedup, hx]; simp
        rw [h0] at this
        simp at this
    have hd : ∀ p ∈ uniq (diffs x), ∀ q ∈ uniq (diffs x), |p - q| ≤ δ := by
      intro p hp q hq
      obtain ⟨i, a, b, h1, h2, rfl⟩ := mem_diffs x p (hmem p hp)
      obtain ⟨j, a', b', h3, h4, rfl⟩ := mem_diffs x q (hmem q hq)
      exact h i j a b a' b' h1 h2 h3 h4
    obtain ⟨l, hl⟩ : ∃ l, l = uniq (diffs x) := ⟨_, rfl⟩
    unfold isEqui
    rw [← hl] at hne hd ⊢
    unfold variance
    rw [if_neg hne]
    simp only [decide_eq_true_eq]
    show mean (l.map fun z => (z - mean l) ^ 2) < 1 / 2 ^ 52
    have hdev : ∀ p ∈ l, |p - mean l| ≤ δ := by
      intro p hp
      obtain ⟨h1, h2⟩ := mean_within l hne (p - δ) (p + δ) fun y hy => by
        have := abs_le.1 (hd p hp y hy)
        constructor <;> linarith [this.1, this.2]
      rw [abs_le]
      constructor <;> linarith
    have hδ0 : 0 ≤ δ := by
      obtain ⟨p, hp⟩ := List.exists_mem_of_ne_nil l hne
      exact (abs_nonneg _).trans (hdev p hp)
    refine lt_of_le_of_lt (mean_within _ (by simpa using hne) 0 (δ ^ 2) fun y hy => ?_).2 ?_
    · obtain ⟨p, hp, rfl⟩ := List.mem_map.1 hy
      exact ⟨sq_nonneg _, sq_le_sq' (by linarith [(abs_le.1 (hdev p hp)).1]) (abs_le.1 (hdev p hp)).2⟩
    · calc δ ^ 2 < (1 / 2 ^ 26) ^ 2 := pow_lt_pow_left₀ hδ hδ0 two_ne_zero
        _ = 1 / 2 ^ 52 := by norm_num
  · intro i j a b a' b' h1 h2 h3 h4 h
    refine C68_uneven x i j a b a' b' h1 h2 h3 h4 ?_
    have he : eps = 1 / 2 ^ 52 := rfl
    have h5 := pow_le_pow_left₀ (by positivity) h 2
    rw [div_pow, Real.sq_sqrt (by positivity), sq_abs] at h5
    rw [he]
    refine le_trans (le_of_eq ?_) h5
    norm_num
    ring

/-- **C68**, two spacings: times whose spacings take exactly two values `p` and `q`, no matter how often each, are taken for
evenly spaced if and only if these differ by less than `2^-25` days (2.6 milliseconds). A single odd spacing in a long
record counts as much as many. -/
theorem C68_two_spacings (x : List ℝ) (p q : ℝ) (hpq : p ≠ q)
    (h : ∀ (i : ℕ) (a b : ℝ), x[i]? = some a → x[i + 1]? = some b → b - a = p ∨ b - a = q)
    (hp : ∃ (i : ℕ) (a b : ℝ), x[i]? = some a ∧ x[i + 1]? = some b ∧ b - a = p)
    (hq : ∃ (i : ℕ) (a b : ℝ), x[i]? = some a ∧ x[i + 1]? = some b ∧ b - a = q) :
    isEqui x = true ↔ |p - q| < 1 / 2 ^ 25 := by
  have hperm : (uniq (diffs x)).Perm [p, q] := by
    refine (List.perm_ext_iff_of_nodup (List.nodup_dedup _) (by simpa using hpq)).2 fun y => ?_
    rw [List.mem_dedup]
    constructor
    · intro hy
      obtain ⟨i, a, b, h1, h2, rfl⟩ := mem_diffs x y hy
      simpa using h i a b h1 h2
    · intro hy
      simp only [List.mem_cons, List.not_mem_nil, or_false] at hy
      rcases hy with rfl | rfl
      · obtain ⟨i, a, b, h1, h2, rfl⟩ := hp
        exact diffs_mem x i a b h1 h2
      · obtain ⟨i, a, b, h1, h2, rfl⟩ := hq
        exact diffs_mem x i a b h1 h2
  have hmean : ∀ l l' : List ℝ, l.Perm l' → mean l = mean l' := by
    intro l l' hl
    unfold mean
    rw [hl.sum_eq, hl.length_eq]
  have hvar : variance (uniq (diffs x)) = .fin (((p - q) / 2) ^ 2) := by
    unfold variance
    rw [if_neg (fun h0 => by rw [h0] at hperm; exact absurd hperm.length_eq (by simp)), hmean _ _ hperm,
      hmean _ _ (hperm.map _)]
    congr 1
    simp [mean]
    ring
  unfold isEqui
  rw [hvar]
  simp only [decide_eq_true_eq]
  show ((p - q) / 2) ^ 2 < 1 / 2 ^ 52 ↔ _
  rw [show (1 : ℝ) / 2 ^ 52 = (1 / 2 ^ 26) ^ 2 by norm_num, sq_lt_sq, abs_div, abs_of_pos (by norm_num : (0 : ℝ) < 2),
    abs_of_pos (by norm_num : (0 : ℝ) < 1 / 2 ^ 26), div_lt_iff₀ (by norm_num)]
  norm_num

/-- Non-vacuity: spacings 1, 1, 1.00000002. -/
example : isEqui [0, 1, 2, 3.00000002] = true := by
  refine (C68_two_spacings _ 1 1.00000002 (by norm_num) ?_ ⟨0, 0, 1, rfl, rfl, by norm_num⟩
    ⟨2, 2, 3.00000002, rfl, rfl, by norm_num⟩).2 (by norm_num)
  intro i a b h1 h2
  rcases i with _ | _ | _ | _ | i <;> simp at h1 h2 <;> subst h1 h2 <;> norm_num

/-- Non-vacuity: the times 0, 1 and 2.00000001 (an error of 0.9 ms) are taken for evenly spaced, 0, 1 and 2.0001 are not. -/
example : isEqui [0, 1, 2.00000001] = true ∧ isEqui [0, 1, 2.0001] = false := by
  constructor
  · refine (C68_tolerance _).1 (by simp) ⟨1 / 10 ^ 8, by norm_num, ?_⟩
    intro i j a b a' b' h1 h2 h3 h4
    rcases i with _ | _ | _ | i <;> rcases j with _ | _ | _ | j <;> simp at h1 h2 h3 h4 <;> subst h1 h2 h3 h4 <;> norm_num
  · refine (C68_tolerance _).2 0 1 0 1 1 2.0001 rfl rfl rfl rfl ?_
    have : Real.sqrt (2 * (3 : ℕ)) ≤ 3 := Real.sqrt_le_iff.2 ⟨by norm_num, by norm_num⟩
    calc _ ≤ (3 : ℝ) / 2 ^ 26 := div_le_div_of_nonneg_right this (by positivity)
      _ ≤ _ := by norm_num

end

end UTide.Props
