import Verif.Props.EnergyExample
import Verif.Props.AliasProps

/-!
# C157: a constituent through its period
-/

namespace UTide.Props

noncomputable section

open Classical

local notation "conj" => starRingEnd ℂ

/-- Specification: predicted by itself for the time `τ`, wherever in an array of times, constituent `n` contributes `x`
besides mean and trend. -/
def OneTide (c : Coef) (n : String) (τ : ℝ) (x : ℂ) : Prop :=
  ∀ (E : Env) (t : TimeArr) (a : RecArgs) (tn : List Fl) (j : ℕ), normalizeTime E.dt64 t a.epoch = .ok tn →
    tn[j]? = some (.fin τ) → Predicts E t c a [n] j (level c τ + x)

theorem cyc_cisd (x : ℝ) : cyc x = cisd (360 * x) := by
  unfold cyc cisd
  congr 1
  push_cast
  ring

section

variable {E : Env} {t : TimeArg} {u : Series} {v : Option Series} {lat : Option ℝ} {opts : Dict PyVal} {c : Coef}

/-- The contribution of one constituent from its harmonic. -/
theorem oneTide (R : Ready E t u v) (hnd : opts.keys.Nodup) (h : solve E t u v lat opts = .ok c) (hk : AllKept c)
    (hnn : c.name.Nodup) (i : ℕ) (n : String) (e : Ell) (hn : c.name[i]? = some n) (he : ellipseAt c.ell i = some e) (τ : ℝ) :
    OneTide c n τ (harmonic c n τ * ccw e + conj (harmonic c n τ) * cw e) := by
  intro E' t' a tn j htn hj
  rw [predicts_iff R hnd h hk]
  refine ⟨tn, τ, htn, hj, ?_⟩
  congr 1
  rw [← tide_rotary h τ i n e hn he]
  have hi := (List.getElem?_eq_some_iff.1 hn).1
  unfold partOf
  rw [← List.sum_toFinset _ List.nodup_range, List.toFinset_range, Finset.sum_eq_single i]
  · rw [if_pos]
    rw [List.getD_eq_getElem?_getD, hn]
    simp
  · intro k hk' hki
    rw [if_neg]
    intro hc
    have hk' := Finset.mem_range.1 hk'
    apply hki
    refine (List.getElem?_inj hk' hnn).1 ?_
    rw [hn, List.getElem?_eq_getElem hk']
    rw [List.getD_eq_getElem _ _ hk'] at hc
    exact congrArg some (List.mem_singleton.1 hc)
  · intro hcon
    exact absurd (Finset.mem_range.2 hi) hcon

/-- **C157**, with nodal corrections at the reference time: as `C157_period`, with the semi-axes times the modulus `ρ` of
the harmonic, which is the same at all times. -/
theorem C157_nodal (R : Ready E t u v) (hnd : opts.keys.Nodup) (h : solve E t u v lat opts = .ok c) (hk : AllKept c)
    (hst : Steady opts) (hnn : c.name.Nodup) (i : ℕ) (n : String) (f : ℝ) (e : Ell)
    (hn : c.name[i]? = some n) (hf : c.frq[i]? = some f) (hpos : 0 < f) (he : ellipseAt c.ell i = some e) :
    ∃ ρ : ℝ, (∀ τ, ‖harmonic c n τ‖ = ρ) ∧
    (∀ τ, ∃ x, OneTide c n τ x ∧ OneTide c n (τ + 1 / (24 * f)) x) ∧
    ∀ τ₀, ∃ τ, τ₀ ≤ τ ∧ τ < τ₀ + 1 / (24 * f) ∧
      OneTide c n τ (ρ * e.Lsmaj * cisd e.theta) ∧
      OneTide c n (τ + 1 / 4 / (24 * f)) (ρ * e.Lsmin * cisd (e.theta + 90)) ∧
      OneTide c n (τ + 1 / 2 / (24 * f)) (-(ρ * e.Lsmaj * cisd e.theta)) ∧
      OneTide c n (τ + 3 / 4 / (24 * f)) (-(ρ * e.Lsmin * cisd (e.theta + 90))) := by
  have hstep : ∀ τ x, harmonic c n (τ + x / (24 * f)) = harmonic c n τ * cisd (360 * x) := by
    intro τ x
    have h1 := steady_turn R hnd h hst (x / (24 * f)) τ i n f hn hf 1
    rw [Nat.cast_one, one_mul, pow_one, show 24 * (x / (24 * f)) * f = x by field_simp, cyc_cisd] at h1
    exact h1
  have hρ : ∀ τ, ‖harmonic c n τ‖ = ‖harmonic c n 0‖ := by
    intro τ
    have h1 := hstep 0 (τ * (24 * f))
    rw [mul_div_assoc, div_self (by positivity), mul_one, zero_add] at h1
    rw [h1, norm_mul, norm_cisd, mul_one]
  have one := oneTide R hnd h hk hnn i n e hn he
  have hturn : ∀ φ, cisd φ * ccw e + conj (cisd φ) * cw e =
      cisd e.theta * ⟨e.Lsmaj * (cisd (φ - e.g)).re, e.Lsmin * (cisd (φ - e.g)).im⟩ := by
    intro φ
    unfold ccw cw
    have hc : conj (cisd φ) = cisd (-φ) := conj_cisd φ
    have hz : (⟨e.Lsmaj * (cisd (φ - e.g)).re, e.Lsmin * (cisd (φ - e.g)).im⟩ : ℂ) =
        (((e.Lsmaj + e.Lsmin) / 2 : ℝ) : ℂ) * cisd (φ - e.g) + (((e.Lsmaj - e.Lsmin) / 2 : ℝ) : ℂ) * conj (cisd (φ - e.g)) := by
      apply Complex.ext <;> simp <;> ring
    have hc' : conj (cisd (φ - e.g)) = cisd (e.g - φ) := by
      rw [conj_cisd, neg_sub]
    rw [hz, hc, hc', sub_eq_add_neg e.theta, sub_eq_add_neg φ, sub_eq_add_neg e.g, cisd_add, cisd_add, cisd_add, cisd_add]
    ring
  refine ⟨‖harmonic c n 0‖, hρ, fun τ => ⟨_, one τ, ?_⟩, fun τ₀ => ?_⟩
  · have := one (τ + 1 / (24 * f))
    rwa [hstep, mul_one, show (360 : ℝ) = 360 * ((1 : ℤ) : ℝ) by norm_num, cisd_360, mul_one] at this
  · obtain ⟨ρ, hρ0⟩ : ∃ ρ, ρ = ‖harmonic c n 0‖ := ⟨_, rfl⟩
    rw [← hρ0]
    obtain ⟨y, hy⟩ : ∃ y : ℝ, harmonic c n τ₀ = ρ * cisd y := by
      refine ⟨Complex.arg (harmonic c n τ₀) * 180 / Real.pi, ?_⟩
      conv_lhs => rw [← Complex.norm_mul_exp_arg_mul_I (harmonic c n τ₀), hρ, ← hρ0]
      unfold cisd
      congr 2
      have := Real.pi_pos.ne'
      rw [mul_assoc, ← Complex.ofReal_mul, mul_comm Complex.I]
      congr 2
      field_simp
    obtain ⟨s, hs⟩ : ∃ s, s = Int.fract ((e.g - y) / 360) := ⟨_, rfl⟩
    have hs0 : 0 ≤ s := hs ▸ Int.fract_nonneg _
    have hs1 : s < 1 := hs ▸ Int.fract_lt_one _
    have hP : 0 < 24 * f := by linarith
    have hH : harmonic c n (τ₀ + s / (24 * f)) = ρ * cisd e.g := by
      rw [hstep, hy, mul_assoc, ← cisd_add]
      congr 1
      refine cisd_congr _ _ ⟨-⌊(e.g - y) / 360⌋, ?_⟩
      rw [hs, Int.fract]
      push_cast
      ring
    have key : ∀ x, OneTide c n (τ₀ + s / (24 * f) + x / (24 * f))
        (ρ * (cisd e.theta * ⟨e.Lsmaj * (cisd (360 * x)).re, e.Lsmin * (cisd (360 * x)).im⟩)) := by
      intro x
      have h1 := one (τ₀ + s / (24 * f) + x / (24 * f))
      rw [hstep, hH, mul_assoc (ρ : ℂ), ← cisd_add, map_mul, Complex.conj_ofReal, mul_assoc, mul_assoc, ← mul_add, hturn,
        add_sub_cancel_left] at h1
      exact h1
    have h180 : cisd 180 = -1 := by
      rw [show (180 : ℝ) = 90 + 90 by norm_num, cisd_add, cisd_90, Complex.I_mul_I]
    have h270 : cisd 270 = -Complex.I := by
      rw [show (270 : ℝ) = 180 + 90 by norm_num, cisd_add, cisd_90, h180, neg_one_mul]
    refine ⟨τ₀ + s / (24 * f), by have := div_nonneg hs0 hP.le; linarith, ?_, ?_, ?_, ?_, ?_⟩
    · have := div_lt_div_of_pos_right hs1 hP
      linarith
    · have := key 0
      rw [zero_div, add_zero, mul_zero, cisd_zero] at this
      convert this using 1
      rw [mul_assoc, mul_comm (e.Lsmaj : ℂ)]
      congr 2
      apply Complex.ext <;> simp
    · have := key (1 / 4)
      rw [show (360 : ℝ) * (1 / 4) = 90 by norm_num, cisd_90] at this
      convert this using 1
      rw [cisd_add, cisd_90, mul_assoc, mul_left_comm (e.Lsmin : ℂ)]
      congr 2
      apply Complex.ext <;> simp
    · have := key (1 / 2)
      rw [show (360 : ℝ) * (1 / 2) = 180 by norm_num, h180] at this
      convert this using 1
      rw [mul_assoc, mul_comm (e.Lsmaj : ℂ), ← mul_neg, ← mul_neg]
      congr 2
      apply Complex.ext <;> simp
    · have := key (3 / 4)
      rw [show (360 : ℝ) * (3 / 4) = 270 by norm_num, h270] at this
      convert this using 1
      rw [cisd_add, cisd_90, mul_assoc, mul_left_comm (e.Lsmin : ℂ), ← mul_neg, ← mul_neg]
      congr 2
      apply Complex.ext <;> simp

/-- **C157.** One constituent of positive frequency, predicted by itself, with harmonics of constant amplitude and
without nodal corrections. Its tide repeats after each period `1/f` hours; in every period there is a time at which it
is the major semi-axis (the amplitude) in the direction `theta`, a quarter of a period later it is the minor semi-axis
(with its sign) at right angles to that, and half a period later the opposite of what it was. -/
theorem C157_period (R : Ready E t u v) (hnd : opts.keys.Nodup) (h : solve E t u v lat opts = .ok c) (hk : AllKept c)
    (hst : Steady opts) (hoff : (requested opts "nodal").bind nodalMode = some .off) (hnn : c.name.Nodup)
    (i : ℕ) (n : String) (f : ℝ) (e : Ell) (hn : c.name[i]? = some n) (hf : c.frq[i]? = some f) (hpos : 0 < f)
    (he : ellipseAt c.ell i = some e) :
    (∀ τ, ∃ x, OneTide c n τ x ∧ OneTide c n (τ + 1 / (24 * f)) x) ∧
    ∀ τ₀, ∃ τ, τ₀ ≤ τ ∧ τ < τ₀ + 1 / (24 * f) ∧
      OneTide c n τ (e.Lsmaj * cisd e.theta) ∧
      OneTide c n (τ + 1 / 4 / (24 * f)) (e.Lsmin * cisd (e.theta + 90)) ∧
      OneTide c n (τ + 1 / 2 / (24 * f)) (-(e.Lsmaj * cisd e.theta)) ∧
      OneTide c n (τ + 3 / 4 / (24 * f)) (-(e.Lsmin * cisd (e.theta + 90))) := by
  obtain ⟨ρ, h1, h2⟩ := C157_nodal R hnd h hk hst hnn i n f e hn hf hpos he
  have : ρ = 1 := (h1 0).symm.trans (norm_harmonic_off hnd h R hoff n (List.mem_of_getElem? hn) 0)
  subst this
  simpa only [Complex.ofReal_one, one_mul] using h2

end

/-! ## Example -/

/-- Non-vacuity: a spike in eight samples over half a day, analysed for S2 and S4: within half a day of any time S2
reaches its amplitude. -/
example : ∃ (c : Coef) (A : ℝ), solve idealEnv octT (octSeries spike) none (some 45) (listCiOpts ["S2", "S4"]) = .ok c ∧
    ∀ τ₀, ∃ τ, τ₀ ≤ τ ∧ OneTide c "S2" τ A := by
  obtain ⟨c, i, l, p, H, hn, hi, hl, hlp, hnz, hr⟩ := spike_run
  have R := octS_ready spike
  have hc := H.returned
  obtain ⟨h1, h2, h3⟩ := S2S4_nyquist (S2S4_frq hc hn)
  obtain ⟨hlen, hlf⟩ := ell_len R hc
  have hlt := (List.getElem?_eq_some_iff.1 hi).1
  obtain ⟨e, he, -⟩ := ellipse_energy c.ell _ i hlen hlt
  have hf : c.frq[i]? = some (c.frq.getD i 0) := by simp [List.getD_eq_getElem?_getD, hlf, hlt]
  have hth : cisd e.theta = 1 := by
    have hsh := (C09_ranges idealEnv octT _ none _ _ H.keys c hc).2
    cases hell : c.ell with
    | one A g =>
      rw [hell] at he
      simp only [ellipseAt, Option.bind_eq_some_iff, Option.map_eq_some_iff] at he
      obtain ⟨a, ha, b, hb, rfl⟩ := he
      exact cisd_zero
    | two M m th g => rw [hell] at hsh; simp [Shaped] at hsh
  refine ⟨c, e.Lsmaj, hc, fun τ₀ => ?_⟩
  obtain ⟨-, h4⟩ := C157_period R H.keys hc H.kept ⟨.inl rfl, .inl rfl⟩ rfl (hn.nodup_iff.2 (by simp)) i "S2" _ e hi hf
    (h2 _ (List.mem_of_getElem? hf)) he
  obtain ⟨τ, a1, -, a3, -⟩ := h4 τ₀
  rw [hth, mul_one] at a3
  exact ⟨τ, a1, a3⟩

end

end UTide.Props
