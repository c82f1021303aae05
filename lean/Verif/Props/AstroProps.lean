import Verif.Lemmas.Astronomy

/-!
# C38: astronomical rates
-/

namespace UTide.Props

/-- The six astronomical variables, as documented for `ut_astron` (tau, s, h, p, np, pp). -/
def sixVariables : List (Six → ℝ) := [Six.tau, Six.s, Six.h, Six.p, Six.np, Six.pp]

/-- `f` and `φ` are the same angle (in cycles) at every time: they differ by a whole number of turns. -/
def SameAngle (f φ : ℝ → ℝ) : Prop := ∀ t, ∃ n : ℤ, f t - φ t = n

/-- **C38.** Each of the six angles returned by `ut_astron` is, up to whole cycles, a differentiable function
of time, and the rate returned as second result is its derivative, at every time. -/
theorem C38_rates_are_derivatives (x : Six → ℝ) (hx : x ∈ sixVariables) :
    ∃ φ : ℝ → ℝ, SameAngle (fun t => x (astro t)) φ ∧ ∀ t, HasDerivAt φ (x (ader t)) t := by
  refine ⟨fun t => x (astroLift t), fun t => ?_, fun t => ?_⟩
  · have := astro_congr_lift t
    simp only [sixVariables, List.mem_cons, List.not_mem_nil, or_false] at hx
    rcases hx with rfl | rfl | rfl | rfl | rfl | rfl
    exacts [this.1, this.2.1, this.2.2.1, this.2.2.2.1, this.2.2.2.2.1, this.2.2.2.2.2]
  · have := astroLift_deriv t
    simp only [sixVariables, List.mem_cons, List.not_mem_nil, or_false] at hx
    rcases hx with rfl | rfl | rfl | rfl | rfl | rfl
    exacts [this.1, this.2.1, this.2.2.1, this.2.2.2.1, this.2.2.2.2.1, this.2.2.2.2.2]

/-- The derivative is determined by the angle: any two differentiable lifts of the same angle have the same
derivative wherever both are differentiable on an interval, so `C38_rates_are_derivatives` pins down the
rates. -/
theorem C38_rate_unique (f φ ψ : ℝ → ℝ) (hφ : SameAngle f φ) (hψ : SameAngle f ψ)
    (a b : ℝ → ℝ) (ha : ∀ t, HasDerivAt φ (a t) t) (hb : ∀ t, HasDerivAt ψ (b t) t) : a = b := by
  have hint : ∀ t, ∃ n : ℤ, φ t - ψ t = n := fun t => by
    obtain ⟨n, hn⟩ := hφ t
    obtain ⟨m, hm⟩ := hψ t
    exact ⟨m - n, by push_cast; linarith⟩
  have hcont : Continuous fun t => φ t - ψ t :=
    continuous_iff_continuousAt.2 fun t => ((ha t).sub (hb t)).continuousAt
  have hconst : ∀ x y, φ x - ψ x = φ y - ψ y := by
    by_contra hne
    push Not at hne
    obtain ⟨x, y, hxy⟩ := hne
    obtain ⟨n, hn⟩ := hint x
    obtain ⟨m, hm⟩ := hint y
    have key : ∀ x y n m, (φ x - ψ x = (n : ℤ)) → (φ y - ψ y = (m : ℤ)) → n < m → False := by
      intro x y n m hn hm hlt
      have hmid : (n : ℝ) + 1 / 2 ∈ Set.Icc (φ x - ψ x) (φ y - ψ y) := by
        rw [hn, hm]
        have : (n : ℝ) + 1 ≤ m := by exact_mod_cast hlt
        constructor <;> linarith
      obtain ⟨z, hz⟩ := mem_range_of_exists_le_of_exists_ge hcont ⟨x, hmid.1⟩ ⟨y, hmid.2⟩
      obtain ⟨k, hk⟩ := hint z
      dsimp only at hz
      rw [hk] at hz
      have h2 : ((2 * k : ℤ) : ℝ) = ((2 * n + 1 : ℤ) : ℝ) := by push_cast; linarith
      have := Int.cast_injective h2
      omega
    rcases lt_trichotomy n m with h | h | h
    · exact key x y n m hn hm h
    · subst h; exact hxy (hn.trans hm.symm)
    · exact key y x m n hm hn h
  funext t
  have h1 := (ha t).sub (hb t)
  have h2 : HasDerivAt (φ - ψ) 0 t :=
    (hasDerivAt_const t (φ 0 - ψ 0)).congr_of_eventuallyEq
      (Filter.Eventually.of_forall fun s => hconst s 0)
  have := h1.unique h2
  linarith

/-- Non-vacuity: at noon of 1899-12-31 the mean longitude of the moon moves 13.17... degrees a day. -/
example : (ader daten).s = 13.1763965268 / 360 := by
  unfold ader Cubic.dotDargs scCoef
  norm_num

end UTide.Props
