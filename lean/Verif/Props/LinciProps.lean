import Verif.Props.ConfProps
import Verif.Props.CiProps
import Mathlib.Analysis.SpecialFunctions.Complex.LogDeriv
import Mathlib.Analysis.SpecialFunctions.Sqrt

/-!
# C50: linearised confidence intervals are first-order error propagation
-/

namespace UTide.Props

noncomputable section

open Classical
open Complex (I)
open Topology

/-- `d` is the partial derivative of `f` with respect to coordinate `i` at `x`, where values of `f` that differ by
multiples of `P` are the same (angles; `P = 0` for ordinary numbers). -/
def PartialMod {n : ℕ} (P : ℝ) (f : (Fin n → ℝ) → ℝ) (x : Fin n → ℝ) (i : Fin n) (d : ℝ) : Prop :=
  ∃ L : ℝ → ℝ, HasDerivAt L d (x i) ∧ ∀ᶠ s in 𝓝 (x i), ∃ k : ℤ, f (Function.update x i s) = L s + k * P

/-- `e` is the standard error of `f` at `x`, propagated to first order from uncorrelated coordinates with standard
deviations `σ`. -/
def Propagated {n : ℕ} (P : ℝ) (f : (Fin n → ℝ) → ℝ) (x σ : Fin n → ℝ) (e : ℝ) : Prop :=
  ∃ d : Fin n → ℝ, (∀ i, PartialMod P f x i (d i)) ∧ e = Real.sqrt (∑ i, (d i * σ i) ^ 2)

/-! ## The definition determines the derivative -/

theorem PartialMod.unique {n : ℕ} {P : ℝ} {f : (Fin n → ℝ) → ℝ} {x : Fin n → ℝ} {i : Fin n} {d d' : ℝ}
    (h : PartialMod P f x i d) (h' : PartialMod P f x i d') : d = d' := by
  obtain ⟨L, hL, he⟩ := h
  obtain ⟨L', hL', he'⟩ := h'
  have hD : HasDerivAt (fun s => L s - L' s) (d - d') (x i) := hL.sub hL'
  have hk : ∀ᶠ s in 𝓝 (x i), ∃ k : ℤ, L s - L' s = k * P := by
    filter_upwards [he, he'] with s ⟨k, hk⟩ ⟨k', hk'⟩
    exact ⟨k' - k, by push_cast; linarith⟩
  by_cases hP : P = 0
  · have : (fun s => L s - L' s) =ᶠ[𝓝 (x i)] fun _ => 0 := by
      filter_upwards [hk] with s ⟨k, hk⟩
      rw [hk, hP, mul_zero]
    have h0 := (hasDerivAt_const (x i) (0 : ℝ)).congr_of_eventuallyEq this
    have := hD.unique h0
    linarith
  · obtain ⟨k0, hk0⟩ := hk.self_of_nhds
    have hc := hD.continuousAt.tendsto
    have hclose : ∀ᶠ s in 𝓝 (x i), |(L s - L' s) - (L (x i) - L' (x i))| < |P| :=
      (Metric.tendsto_nhds.1 hc) |P| (abs_pos.2 hP)
    have : (fun s => L s - L' s) =ᶠ[𝓝 (x i)] fun _ => L (x i) - L' (x i) := by
      filter_upwards [hk, hclose] with s ⟨k, hk⟩ hs
      rw [hk, hk0, ← sub_mul, abs_mul, ← Int.cast_sub, ← Int.cast_abs] at hs
      have h1 : ((|k - k0| : ℤ) : ℝ) < 1 := by
        by_contra hge
        rw [not_lt] at hge
        nlinarith [abs_pos.2 hP]
      have h2 : |k - k0| < 1 := by exact_mod_cast h1
      have h3 : k = k0 := by
        have := abs_eq_zero.1 (by have := abs_nonneg (k - k0); omega : |k - k0| = 0)
        omega
      rw [hk, hk0, h3]
    have h0 := (hasDerivAt_const (x i) (L (x i) - L' (x i))).congr_of_eventuallyEq this
    have := hD.unique h0
    linarith

theorem Propagated.unique {n : ℕ} {P : ℝ} {f : (Fin n → ℝ) → ℝ} {x σ : Fin n → ℝ} {e e' : ℝ}
    (h : Propagated P f x σ e) (h' : Propagated P f x σ e') : e = e' := by
  obtain ⟨d, hd, rfl⟩ := h
  obtain ⟨d', hd', rfl⟩ := h'
  have : d = d' := funext fun i => (hd i).unique (hd' i)
  rw [this]

/-! ## Modulus and angle of a complex number moving along a line -/

theorem hasDerivAt_line (w c : ℂ) (s0 : ℝ) : HasDerivAt (fun s : ℝ => w + ((s - s0 : ℝ) : ℂ) * c) c s0 := by
  have h : HasDerivAt (fun s : ℝ => ((s - s0 : ℝ) : ℂ)) 1 s0 :=
    ((hasDerivAt_id s0).sub_const s0).ofReal_comp
  simpa using (h.mul_const c).const_add w

theorem norm_deriv (w c : ℂ) (s0 : ℝ) (hw : w ≠ 0) :
    HasDerivAt (fun s : ℝ => ‖w + ((s - s0 : ℝ) : ℂ) * c‖) ((w.re * c.re + w.im * c.im) / ‖w‖) s0 := by
  have e : (fun s : ℝ => ‖w + ((s - s0 : ℝ) : ℂ) * c‖) = fun s : ℝ =>
      Real.sqrt ((w.re + (s - s0) * c.re) ^ 2 + (w.im + (s - s0) * c.im) ^ 2) := by
    funext s
    rw [Complex.norm_def, Complex.normSq_apply]
    congr 1
    simp
    ring
  rw [e]
  have h1 : HasDerivAt (fun s : ℝ => w.re + (s - s0) * c.re) c.re s0 := by
    simpa using (((hasDerivAt_id s0).sub_const s0).mul_const c.re).const_add w.re
  have h2 : HasDerivAt (fun s : ℝ => w.im + (s - s0) * c.im) c.im s0 := by
    simpa using (((hasDerivAt_id s0).sub_const s0).mul_const c.im).const_add w.im
  have h3 := (h1.pow 2).add (h2.pow 2)
  have hn : w.re ^ 2 + w.im ^ 2 ≠ 0 := by
    intro h
    apply hw
    have := Complex.normSq_eq_zero.1 (by rw [Complex.normSq_apply]; linarith : Complex.normSq w = 0)
    exact this
  have h4 := h3.sqrt (by simpa using hn)
  refine h4.congr_deriv ?_
  have hs : Real.sqrt ((w.re + (s0 - s0) * c.re) ^ 2 + (w.im + (s0 - s0) * c.im) ^ 2) = ‖w‖ := by
    rw [Complex.norm_def, Complex.normSq_apply]; congr 1; ring
  have hw' : ‖w‖ ≠ 0 := norm_ne_zero_iff.2 hw
  simp only [Pi.add_apply, Pi.pow_apply] at *
  rw [hs]
  field_simp
  simp
  ring

theorem angle_deriv (w c : ℂ) (s0 : ℝ) (hw : w ≠ 0) : ∃ L : ℝ → ℝ,
    HasDerivAt L ((c.im * w.re - c.re * w.im) / ‖w‖ ^ 2 * (180 / Real.pi)) s0 ∧
    ∀ᶠ s in 𝓝 s0, ∃ k : ℤ, angleDeg (w + ((s - s0 : ℝ) : ℂ) * c) = L s + k * 360 := by
  refine ⟨fun s => angleDeg w + (Complex.log ((w + ((s - s0 : ℝ) : ℂ) * c) / w)).im * (180 / Real.pi), ?_, ?_⟩
  · have h1 : HasDerivAt (fun s : ℝ => (w + ((s - s0 : ℝ) : ℂ) * c) / w) (c / w) s0 := (hasDerivAt_line w c s0).div_const w
    have h2 : HasDerivAt (fun s : ℝ => Complex.log ((w + ((s - s0 : ℝ) : ℂ) * c) / w)) (c / w) s0 := by
      have := h1.clog_real (by simp [hw])
      simpa [hw] using this
    have h3 : HasDerivAt (fun s : ℝ => (Complex.log ((w + ((s - s0 : ℝ) : ℂ) * c) / w)).im) (c / w).im s0 :=
      (Complex.imCLM.hasFDerivAt.comp_hasDerivAt s0 h2)
    refine ((h3.mul_const (180 / Real.pi)).const_add _).congr_deriv ?_
    congr 1
    rw [Complex.div_im, Complex.normSq_eq_norm_sq]
    ring
  · have hc : ContinuousAt (fun s : ℝ => w + ((s - s0 : ℝ) : ℂ) * c) s0 := (hasDerivAt_line w c s0).continuousAt
    have hne : ∀ᶠ s in 𝓝 s0, w + ((s - s0 : ℝ) : ℂ) * c ≠ 0 := hc.eventually_ne (by simpa using hw)
    filter_upwards [hne] with s hs
    set z := w + ((s - s0 : ℝ) : ℂ) * c with hz
    have h1 := norm_mul_cisd_angle z
    have h2 := norm_mul_cisd_angle w
    have h3 := norm_mul_cisd_angle (z / w)
    have hzn : (‖z‖ : ℂ) ≠ 0 := by exact_mod_cast norm_ne_zero_iff.2 hs
    have hwn : (‖w‖ : ℂ) ≠ 0 := by exact_mod_cast norm_ne_zero_iff.2 hw
    have h4 : cisd (angleDeg z) = cisd (angleDeg w + angleDeg (z / w)) := by
      rw [cisd_add]
      rw [norm_div, Complex.ofReal_div] at h3
      apply mul_left_cancel₀ hzn
      rw [h1]
      have : (‖z‖ : ℂ) * (cisd (angleDeg w) * cisd (angleDeg (z / w))) =
          ((‖w‖ : ℂ) * cisd (angleDeg w)) * (((‖z‖ : ℂ) / (‖w‖ : ℂ)) * cisd (angleDeg (z / w))) := by
        field_simp
      rw [this, h2, h3]
      field_simp
    rw [cisd_eq_iff] at h4
    obtain ⟨k, hk⟩ := h4
    refine ⟨k, ?_⟩
    have h5 : (Complex.log (z / w)).im * (180 / Real.pi) = angleDeg (z / w) := by
      rw [Complex.log_im]; rfl
    rw [h5]
    linarith

/-! ## The ellipse parameters along the coordinate axes -/

/-- Directions in which the two rotary components move with `Xu`, `Yu`, `Xv`, `Yv`. -/
def dirP : Fin 4 → ℂ := ![1 / 2, -I / 2, I / 2, 1 / 2]
def dirM : Fin 4 → ℂ := ![1 / 2, I / 2, I / 2, -1 / 2]

/-- Rotary components of four coefficients. -/
def posC (x : Fin 4 → ℝ) : ℂ := ((x 0 + x 3 : ℝ) + I * (x 2 - x 1 : ℝ)) / 2
def negC (x : Fin 4 → ℝ) : ℂ := ((x 0 - x 3 : ℝ) + I * (x 2 + x 1 : ℝ)) / 2

theorem posC_update (x : Fin 4 → ℝ) (i : Fin 4) (s : ℝ) :
    posC (Function.update x i s) = posC x + ((s - x i : ℝ) : ℂ) * dirP i := by
  unfold posC dirP
  fin_cases i <;> simp [Function.update] <;> ring

theorem negC_update (x : Fin 4 → ℝ) (i : Fin 4) (s : ℝ) :
    negC (Function.update x i s) = negC x + ((s - x i : ℝ) : ℂ) * dirM i := by
  unfold negC dirM
  fin_cases i <;> simp [Function.update] <;> ring

theorem ellRow_eq (x : Fin 4 → ℝ) : ellRow x =
    { Lsmaj := ‖posC x‖ + ‖negC x‖, Lsmin := ‖posC x‖ - ‖negC x‖,
      theta := pymod ((angleDeg (posC x) + angleDeg (negC x)) / 2) 180,
      g := pymod (-angleDeg (posC x) + pymod ((angleDeg (posC x) + angleDeg (negC x)) / 2) 180) 360 } := rfl

/-- Derivatives of modulus and angle of the rotary components. -/
def dNorm (w c : ℂ) : ℝ := (w.re * c.re + w.im * c.im) / ‖w‖
def dAngle (w c : ℂ) : ℝ := (c.im * w.re - c.re * w.im) / ‖w‖ ^ 2 * (180 / Real.pi)

theorem partial_maj (x : Fin 4 → ℝ) (i : Fin 4) (hp : posC x ≠ 0) (hm : negC x ≠ 0) :
    PartialMod 0 (fun x => (ellRow x).Lsmaj) x i (dNorm (posC x) (dirP i) + dNorm (negC x) (dirM i)) := by
  refine ⟨_, (norm_deriv (posC x) (dirP i) (x i) hp).add (norm_deriv (negC x) (dirM i) (x i) hm), .of_forall fun s => ⟨0, ?_⟩⟩
  simp only [ellRow_eq, posC_update, negC_update, Pi.add_apply]
  simp

theorem partial_min (x : Fin 4 → ℝ) (i : Fin 4) (hp : posC x ≠ 0) (hm : negC x ≠ 0) :
    PartialMod 0 (fun x => (ellRow x).Lsmin) x i (dNorm (posC x) (dirP i) - dNorm (negC x) (dirM i)) := by
  refine ⟨_, (norm_deriv (posC x) (dirP i) (x i) hp).sub (norm_deriv (negC x) (dirM i) (x i) hm), .of_forall fun s => ⟨0, ?_⟩⟩
  simp only [ellRow_eq, posC_update, negC_update, Pi.sub_apply]
  simp

theorem partial_theta (x : Fin 4 → ℝ) (i : Fin 4) (hp : posC x ≠ 0) (hm : negC x ≠ 0) :
    PartialMod 180 (fun x => (ellRow x).theta) x i ((dAngle (posC x) (dirP i) + dAngle (negC x) (dirM i)) / 2) := by
  obtain ⟨L, hL, he⟩ := angle_deriv (posC x) (dirP i) (x i) hp
  obtain ⟨L', hL', he'⟩ := angle_deriv (negC x) (dirM i) (x i) hm
  refine ⟨_, (hL.add hL').div_const 2, ?_⟩
  filter_upwards [he, he'] with s ⟨k, hk⟩ ⟨k', hk'⟩
  simp only [ellRow_eq, posC_update, negC_update, Pi.add_apply]
  obtain ⟨n, hn⟩ := pymod_eq_sub ((angleDeg (posC x + ((s - x i : ℝ) : ℂ) * dirP i) +
    angleDeg (negC x + ((s - x i : ℝ) : ℂ) * dirM i)) / 2) 180
  refine ⟨k + k' - n, ?_⟩
  rw [hn, hk, hk']
  push_cast
  ring

theorem partial_g (x : Fin 4 → ℝ) (i : Fin 4) (hp : posC x ≠ 0) (hm : negC x ≠ 0) :
    PartialMod 180 (fun x => (ellRow x).g) x i ((dAngle (negC x) (dirM i) - dAngle (posC x) (dirP i)) / 2) := by
  obtain ⟨L, hL, he⟩ := angle_deriv (posC x) (dirP i) (x i) hp
  obtain ⟨L', hL', he'⟩ := angle_deriv (negC x) (dirM i) (x i) hm
  refine ⟨_, (hL'.sub hL).div_const 2, ?_⟩
  filter_upwards [he, he'] with s ⟨k, hk⟩ ⟨k', hk'⟩
  simp only [ellRow_eq, posC_update, negC_update, Pi.sub_apply]
  obtain ⟨n, hn⟩ := pymod_eq_sub ((angleDeg (posC x + ((s - x i : ℝ) : ℂ) * dirP i) +
    angleDeg (negC x + ((s - x i : ℝ) : ℂ) * dirM i)) / 2) 180
  obtain ⟨j, hj⟩ := pymod_eq_sub (-angleDeg (posC x + ((s - x i : ℝ) : ℂ) * dirP i) +
    pymod ((angleDeg (posC x + ((s - x i : ℝ) : ℂ) * dirP i) +
    angleDeg (negC x + ((s - x i : ℝ) : ℂ) * dirM i)) / 2) 180) 360
  refine ⟨k' - k - n - 2 * j, ?_⟩
  rw [hj, hn, hk, hk']
  push_cast
  ring

/-! ## Arithmetic of finite numbers -/

theorem fin_add (a b : ℝ) : Fl.fin a + Fl.fin b = .fin (a + b) := rfl
theorem fin_mul (a b : ℝ) : Fl.fin a * Fl.fin b = .fin (a * b) := rfl
theorem fin_sub (a b : ℝ) : Fl.fin a - Fl.fin b = .fin (a - b) := by
  show Fl.fin (a + -b) = _
  rw [sub_eq_add_neg]
theorem fin_sq (a : ℝ) : (Fl.fin a).sq = .fin (a ^ 2) := by rw [pow_two]; rfl
theorem fin_div (a b : ℝ) (hb : b ≠ 0) : Fl.fin a / Fl.fin b = .fin (a / b) := fl_div_pos a b hb
theorem fin_sqrt (a : ℝ) (h : 0 ≤ a) : (Fl.fin a).sqrt = .fin (Real.sqrt a) := by
  show (if a < 0 then Fl.nan else Fl.fin (Real.sqrt a)) = _
  rw [if_neg (not_lt.2 h)]

theorem linSum_fin (d1 d2 d3 d4 s1 s2 s3 s4 : ℝ) :
    linSum (.fin d1) (.fin d2) (.fin d3) (.fin d4) (.fin s1) (.fin s2) (.fin s3) (.fin s4) =
      .fin (Real.sqrt ((d1 * s1) ^ 2 + (d2 * s2) ^ 2 + (d3 * s3) ^ 2 + (d4 * s4) ^ 2)) := by
  unfold linSum
  simp only [fin_sq, fin_mul, fin_add]
  rw [fin_sqrt _ (by positivity)]
  congr 2
  ring

theorem addJ_fin (a b : ℝ) : addJ (.fin a) (.fin b) = (.fin a, .fin b) := by
  unfold addJ
  rw [fin_mul, fin_add]
  simp

/-! ## What `ut_linci` computes -/

theorem posC_re (x : Fin 4 → ℝ) : (posC x).re = (x 0 + x 3) / 2 := by simp [posC]
theorem posC_im (x : Fin 4 → ℝ) : (posC x).im = (x 2 - x 1) / 2 := by simp [posC]
theorem negC_re (x : Fin 4 → ℝ) : (negC x).re = (x 0 - x 3) / 2 := by simp [negC]
theorem negC_im (x : Fin 4 → ℝ) : (negC x).im = (x 2 + x 1) / 2 := by simp [negC]

theorem norm_sq' (z : ℂ) : ‖z‖ ^ 2 = z.re ^ 2 + z.im ^ 2 := by
  rw [← Complex.normSq_eq_norm_sq, Complex.normSq_apply]; ring

theorem half_sqrt (z : ℂ) (a b : ℝ) (ha : z.re = a / 2) (hb : z.im = b / 2) :
    0.5 * Real.sqrt (a ^ 2 + b ^ 2) = ‖z‖ := by
  have : a ^ 2 + b ^ 2 = (2 * ‖z‖) ^ 2 := by rw [mul_pow, norm_sq', ha, hb]; ring
  rw [this, Real.sqrt_sq (by positivity)]
  ring

theorem dir_values : (dirP 0).re = 1 / 2 ∧ (dirP 0).im = 0 ∧ (dirP 1).re = 0 ∧ (dirP 1).im = -(1 / 2) ∧
    (dirP 2).re = 0 ∧ (dirP 2).im = 1 / 2 ∧ (dirP 3).re = 1 / 2 ∧ (dirP 3).im = 0 ∧
    (dirM 0).re = 1 / 2 ∧ (dirM 0).im = 0 ∧ (dirM 1).re = 0 ∧ (dirM 1).im = 1 / 2 ∧
    (dirM 2).re = 0 ∧ (dirM 2).im = 1 / 2 ∧ (dirM 3).re = -(1 / 2) ∧ (dirM 3).im = 0 := by
  simp [dirP, dirM]
  norm_num

theorem utLinci_eq (x σ : Fin 4 → ℝ) (hp : posC x ≠ 0) (hm : negC x ≠ 0) :
    utLinci (x 0) (x 1) (x 2) (x 3) (.fin (σ 0)) (.fin (σ 1)) (.fin (σ 2)) (.fin (σ 3)) =
      ⟨.fin (Real.sqrt (∑ i, ((dNorm (posC x) (dirP i) + dNorm (negC x) (dirM i)) * σ i) ^ 2)),
       if x 2 = 0 then .fin 0
       else .fin (Real.sqrt (∑ i, ((dNorm (posC x) (dirP i) - dNorm (negC x) (dirM i)) * σ i) ^ 2)),
       .fin (Real.sqrt (∑ i, (((dAngle (negC x) (dirM i) - dAngle (posC x) (dirP i)) / 2) * σ i) ^ 2)),
       if x 2 = 0 then .fin 0
       else .fin (Real.sqrt (∑ i, (((dAngle (posC x) (dirP i) + dAngle (negC x) (dirM i)) / 2) * σ i) ^ 2))⟩ := by
  have hp' : ‖posC x‖ ≠ 0 := norm_ne_zero_iff.2 hp
  have hm' : ‖negC x‖ ≠ 0 := norm_ne_zero_iff.2 hm
  have ep := norm_sq' (posC x)
  have em := norm_sq' (negC x)
  rw [posC_re, posC_im] at ep
  rw [negC_re, negC_im] at em
  have hden : ∀ a b : ℝ, a ^ 2 + b ^ 2 = 16 * ‖posC x‖ ^ 2 * ‖negC x‖ ^ 2 → a ^ 2 + b ^ 2 ≠ 0 := by
    intro a b h; rw [h]; positivity
  have d1 : (2 * (x 0 * x 1 + x 2 * x 3)) ^ 2 + (x 0 ^ 2 - x 1 ^ 2 + x 2 ^ 2 - x 3 ^ 2) ^ 2 =
      16 * ‖posC x‖ ^ 2 * ‖negC x‖ ^ 2 := by rw [ep, em]; ring
  have d2 : (2 * (x 0 * x 2 + x 1 * x 3)) ^ 2 + (x 0 ^ 2 + x 1 ^ 2 - (x 2 ^ 2 + x 3 ^ 2)) ^ 2 =
      16 * ‖posC x‖ ^ 2 * ‖negC x‖ ^ 2 := by rw [ep, em]; ring
  obtain ⟨v1, v2, v3, v4, v5, v6, v7, v8, v9, v10, v11, v12, v13, v14, v15, v16⟩ := dir_values
  have hdeg : (0 : ℝ) ≤ 180 / Real.pi := by positivity
  have hscale : ∀ a b c d : ℝ, 180 / Real.pi * Real.sqrt ((a * σ 0) ^ 2 + (b * σ 1) ^ 2 + (c * σ 2) ^ 2 + (d * σ 3) ^ 2) =
      Real.sqrt ((a * (180 / Real.pi) * σ 0) ^ 2 + (b * (180 / Real.pi) * σ 1) ^ 2 + (c * (180 / Real.pi) * σ 2) ^ 2 +
        (d * (180 / Real.pi) * σ 3) ^ 2) := by
    intro a b c d
    rw [show (a * (180 / Real.pi) * σ 0) ^ 2 + (b * (180 / Real.pi) * σ 1) ^ 2 + (c * (180 / Real.pi) * σ 2) ^ 2 +
        (d * (180 / Real.pi) * σ 3) ^ 2 = (180 / Real.pi) ^ 2 * ((a * σ 0) ^ 2 + (b * σ 1) ^ 2 + (c * σ 2) ^ 2 +
        (d * σ 3) ^ 2) by ring, Real.sqrt_mul (sq_nonneg _), Real.sqrt_sq hdeg]
  have s4 : ∀ a b c d a' b' c' d' : ℝ, a = a' → b = b' → c = c' → d = d' →
      Real.sqrt ((a * σ 0) ^ 2 + (b * σ 1) ^ 2 + (c * σ 2) ^ 2 + (d * σ 3) ^ 2) =
      Real.sqrt ((a' * σ 0) ^ 2 + (b' * σ 1) ^ 2 + (c' * σ 2) ^ 2 + (d' * σ 3) ^ 2) := by
    rintro a b c d _ _ _ _ rfl rfl rfl rfl; rfl
  have s4' : ∀ a b c d a' b' c' d' : ℝ, (a = a' ∨ a = -a') → (b = b' ∨ b = -b') → (c = c' ∨ c = -c') →
      (d = d' ∨ d = -d') →
      Real.sqrt ((a * σ 0) ^ 2 + (b * σ 1) ^ 2 + (c * σ 2) ^ 2 + (d * σ 3) ^ 2) =
      Real.sqrt ((a' * σ 0) ^ 2 + (b' * σ 1) ^ 2 + (c' * σ 2) ^ 2 + (d' * σ 3) ^ 2) := by
    intro a b c d a' b' c' d' h1 h2 h3 h4
    have key : ∀ p q : ℝ, (p = q ∨ p = -q) → ∀ t : ℝ, (p * t) ^ 2 = (q * t) ^ 2 := by
      rintro p q (rfl | rfl) t <;> ring
    rw [key _ _ h1, key _ _ h2, key _ _ h3, key _ _ h4]
  have hfrac : ∀ n a b : ℝ, n = (a * ‖negC x‖ ^ 2 + b * ‖posC x‖ ^ 2) * 8 →
      n / (16 * ‖posC x‖ ^ 2 * ‖negC x‖ ^ 2) * (180 / Real.pi) =
        (a / ‖posC x‖ ^ 2 * (180 / Real.pi) + b / ‖negC x‖ ^ 2 * (180 / Real.pi)) / 2 := by
    intro n a b h
    rw [h]
    field_simp
    ring
  unfold utLinci
  dsimp only
  rw [half_sqrt (posC x) (x 0 + x 3) (x 2 - x 1) (posC_re x) (posC_im x),
    half_sqrt (negC x) (x 0 - x 3) (x 2 + x 1) (negC_re x) (negC_im x), d1, d2]
  have hd16 : 16 * ‖posC x‖ ^ 2 * ‖negC x‖ ^ 2 ≠ 0 := by positivity
  simp only [fin_div _ _ hp', fin_div _ _ hm', fin_div _ _ hd16, fin_add, fin_sub, fin_mul, linSum_fin, addJ_fin,
    Fin.sum_univ_four, hscale]
  have hmaj : Real.sqrt ((0.25 * ((x 0 + x 3) / ‖posC x‖ + (x 0 - x 3) / ‖negC x‖) * σ 0) ^ 2 +
      (0.25 * ((x 1 - x 2) / ‖posC x‖ + (x 1 + x 2) / ‖negC x‖) * σ 1) ^ 2 +
      (0.25 * ((x 1 + x 2) / ‖negC x‖ - (x 1 - x 2) / ‖posC x‖) * σ 2) ^ 2 +
      (0.25 * ((x 0 + x 3) / ‖posC x‖ - (x 0 - x 3) / ‖negC x‖) * σ 3) ^ 2) =
      Real.sqrt (((dNorm (posC x) (dirP 0) + dNorm (negC x) (dirM 0)) * σ 0) ^ 2 +
        ((dNorm (posC x) (dirP 1) + dNorm (negC x) (dirM 1)) * σ 1) ^ 2 +
        ((dNorm (posC x) (dirP 2) + dNorm (negC x) (dirM 2)) * σ 2) ^ 2 +
        ((dNorm (posC x) (dirP 3) + dNorm (negC x) (dirM 3)) * σ 3) ^ 2) := by
    unfold dNorm
    simp only [posC_re, posC_im, negC_re, negC_im, v1, v2, v3, v4, v5, v6, v7, v8, v9, v10, v11, v12, v13, v14, v15, v16]
    apply s4 <;> field_simp <;> ring
  have hmin : Real.sqrt ((0.25 * ((x 0 + x 3) / ‖posC x‖ - (x 0 - x 3) / ‖negC x‖) * σ 0) ^ 2 +
      (0.25 * ((x 1 - x 2) / ‖posC x‖ - (x 1 + x 2) / ‖negC x‖) * σ 1) ^ 2 +
      (0.25 * ((x 1 + x 2) / ‖negC x‖ + (x 1 - x 2) / ‖posC x‖) * σ 2) ^ 2 +
      (0.25 * ((x 0 + x 3) / ‖posC x‖ + (x 0 - x 3) / ‖negC x‖) * σ 3) ^ 2) =
      Real.sqrt (((dNorm (posC x) (dirP 0) - dNorm (negC x) (dirM 0)) * σ 0) ^ 2 +
        ((dNorm (posC x) (dirP 1) - dNorm (negC x) (dirM 1)) * σ 1) ^ 2 +
        ((dNorm (posC x) (dirP 2) - dNorm (negC x) (dirM 2)) * σ 2) ^ 2 +
        ((dNorm (posC x) (dirP 3) - dNorm (negC x) (dirM 3)) * σ 3) ^ 2) := by
    unfold dNorm
    simp only [posC_re, posC_im, negC_re, negC_im, v1, v2, v3, v4, v5, v6, v7, v8, v9, v10, v11, v12, v13, v14, v15, v16]
    apply s4'
    · left; field_simp; ring
    · left; field_simp; ring
    · right; field_simp; ring
    · left; field_simp; ring
  rw [hmaj, hmin]
  have hg : Real.sqrt (((((x 0 ^ 2 - x 1 ^ 2 + x 2 ^ 2 - x 3 ^ 2) * x 1 - 2 * (x 0 * x 1 + x 2 * x 3) * x 0) /
        (16 * ‖posC x‖ ^ 2 * ‖negC x‖ ^ 2)) * (180 / Real.pi) * σ 0) ^ 2 +
      ((((x 0 ^ 2 - x 1 ^ 2 + x 2 ^ 2 - x 3 ^ 2) * x 0 + 2 * (x 0 * x 1 + x 2 * x 3) * x 1) /
        (16 * ‖posC x‖ ^ 2 * ‖negC x‖ ^ 2)) * (180 / Real.pi) * σ 1) ^ 2 +
      ((((x 0 ^ 2 - x 1 ^ 2 + x 2 ^ 2 - x 3 ^ 2) * x 3 - 2 * (x 0 * x 1 + x 2 * x 3) * x 2) /
        (16 * ‖posC x‖ ^ 2 * ‖negC x‖ ^ 2)) * (180 / Real.pi) * σ 2) ^ 2 +
      ((((x 0 ^ 2 - x 1 ^ 2 + x 2 ^ 2 - x 3 ^ 2) * x 2 + 2 * (x 0 * x 1 + x 2 * x 3) * x 3) /
        (16 * ‖posC x‖ ^ 2 * ‖negC x‖ ^ 2)) * (180 / Real.pi) * σ 3) ^ 2) =
      Real.sqrt (((dAngle (negC x) (dirM 0) - dAngle (posC x) (dirP 0)) / 2 * σ 0) ^ 2 +
        ((dAngle (negC x) (dirM 1) - dAngle (posC x) (dirP 1)) / 2 * σ 1) ^ 2 +
        ((dAngle (negC x) (dirM 2) - dAngle (posC x) (dirP 2)) / 2 * σ 2) ^ 2 +
        ((dAngle (negC x) (dirM 3) - dAngle (posC x) (dirP 3)) / 2 * σ 3) ^ 2) := by
    unfold dAngle
    simp only [posC_re, posC_im, negC_re, negC_im, v1, v2, v3, v4, v5, v6, v7, v8, v9, v10, v11, v12, v13, v14, v15, v16]
    apply s4
    · rw [hfrac _ ((x 2 - x 1) / 4) (-(x 2 + x 1) / 4) (by rw [ep, em]; ring)]; ring
    · rw [hfrac _ ((x 0 + x 3) / 4) ((x 0 - x 3) / 4) (by rw [ep, em]; ring)]; ring
    · rw [hfrac _ (-(x 0 + x 3) / 4) ((x 0 - x 3) / 4) (by rw [ep, em]; ring)]; ring
    · rw [hfrac _ ((x 2 - x 1) / 4) ((x 2 + x 1) / 4) (by rw [ep, em]; ring)]; ring
  have ht : Real.sqrt (((((x 0 ^ 2 + x 1 ^ 2 - (x 2 ^ 2 + x 3 ^ 2)) * x 2 - 2 * (x 0 * x 2 + x 1 * x 3) * x 0) /
        (16 * ‖posC x‖ ^ 2 * ‖negC x‖ ^ 2)) * (180 / Real.pi) * σ 0) ^ 2 +
      ((((x 0 ^ 2 + x 1 ^ 2 - (x 2 ^ 2 + x 3 ^ 2)) * x 3 - 2 * (x 0 * x 2 + x 1 * x 3) * x 1) /
        (16 * ‖posC x‖ ^ 2 * ‖negC x‖ ^ 2)) * (180 / Real.pi) * σ 1) ^ 2 +
      ((((x 0 ^ 2 + x 1 ^ 2 - (x 2 ^ 2 + x 3 ^ 2)) * x 0 + 2 * (x 0 * x 2 + x 1 * x 3) * x 2) /
        (16 * ‖posC x‖ ^ 2 * ‖negC x‖ ^ 2)) * (180 / Real.pi) * σ 2) ^ 2 +
      ((((x 0 ^ 2 + x 1 ^ 2 - (x 2 ^ 2 + x 3 ^ 2)) * x 1 + 2 * (x 0 * x 2 + x 1 * x 3) * x 3) /
        (16 * ‖posC x‖ ^ 2 * ‖negC x‖ ^ 2)) * (180 / Real.pi) * σ 3) ^ 2) =
      Real.sqrt (((dAngle (posC x) (dirP 0) + dAngle (negC x) (dirM 0)) / 2 * σ 0) ^ 2 +
        ((dAngle (posC x) (dirP 1) + dAngle (negC x) (dirM 1)) / 2 * σ 1) ^ 2 +
        ((dAngle (posC x) (dirP 2) + dAngle (negC x) (dirM 2)) / 2 * σ 2) ^ 2 +
        ((dAngle (posC x) (dirP 3) + dAngle (negC x) (dirM 3)) / 2 * σ 3) ^ 2) := by
    unfold dAngle
    simp only [posC_re, posC_im, negC_re, negC_im, v1, v2, v3, v4, v5, v6, v7, v8, v9, v10, v11, v12, v13, v14, v15, v16]
    apply s4
    · rw [hfrac _ (-(x 2 - x 1) / 4) (-(x 2 + x 1) / 4) (by rw [ep, em]; ring)]; ring
    · rw [hfrac _ (-(x 0 + x 3) / 4) ((x 0 - x 3) / 4) (by rw [ep, em]; ring)]; ring
    · rw [hfrac _ ((x 0 + x 3) / 4) ((x 0 - x 3) / 4) (by rw [ep, em]; ring)]; ring
    · rw [hfrac _ (-(x 2 - x 1) / 4) ((x 2 + x 1) / 4) (by rw [ep, em]; ring)]; ring
  rw [hg, ht]
  by_cases h0 : x 2 = 0
  · rw [if_pos h0, if_pos h0, if_pos h0]
  · rw [if_neg h0, if_neg h0, if_neg h0]

/-! ## C50, vector series -/

/-- The four intervals of a vector series at coefficients `x` with standard deviations `σ` are 1.96 times the
first-order standard errors of the ellipse parameters. Angles are taken modulo 180 degrees: `theta` and `g` jump
together by 180 degrees where `theta` passes 180. -/
def FirstOrderCi (x σ : Fin 4 → ℝ) (ci : Ci1) : Prop :=
  ∃ a b t g, Propagated 0 (fun y => (ellRow y).Lsmaj) x σ a ∧ Propagated 0 (fun y => (ellRow y).Lsmin) x σ b ∧
    Propagated 180 (fun y => (ellRow y).theta) x σ t ∧ Propagated 180 (fun y => (ellRow y).g) x σ g ∧
    ci = ⟨.fin (1.96 * a), .fin (1.96 * b), .fin (1.96 * t), .fin (1.96 * g)⟩

/-- The ellipse is not a circle (both rotary components are there), so that all four parameters are differentiable. -/
def NotCircular (x : Fin 4 → ℝ) : Prop := rotP (x 0) (x 1) (x 2) (x 3) ≠ 0 ∧ rotM (x 0) (x 1) (x 2) (x 3) ≠ 0

theorem linear2_eq (P : Option Fl) (x σ : Fin 4 → ℝ) (v : Fin 4 → ℝ) (hσ : ∀ i, 0 ≤ σ i)
    (hv : (linear2 P (x 0) (x 1) (x 2) (x 3) (v 0) (v 1) (v 2) (v 3)).2 =
      ⟨.fin (σ 0 ^ 2), .fin (σ 1 ^ 2), .fin (σ 2 ^ 2), .fin (σ 3 ^ 2)⟩) :
    (linear2 P (x 0) (x 1) (x 2) (x 3) (v 0) (v 1) (v 2) (v 3)).1 =
      let s := utLinci (x 0) (x 1) (x 2) (x 3) (.fin (σ 0)) (.fin (σ 1)) (.fin (σ 2)) (.fin (σ 3))
      ⟨Fl.fin 1.96 * s.sMaj, Fl.fin 1.96 * s.sMin, Fl.fin 1.96 * s.sTheta, Fl.fin 1.96 * s.sG⟩ := by
  have hs : ∀ i, (Fl.fin (σ i ^ 2)).sqrt = .fin (σ i) := fun i => by
    rw [fin_sqrt _ (sq_nonneg _), Real.sqrt_sq (hσ i)]
  unfold linear2 at hv ⊢
  dsimp only at hv ⊢
  rw [Vars.mk.injEq] at hv
  obtain ⟨h0, h1, h2, h3⟩ := hv
  rw [h0, h1, h2, h3, hs, hs, hs, hs]
  unfold utLinci2
  simp only [addJ_fin]

/-- C50 for vector series, full statement (false of the code, see `C50_false`). -/
def C50_full : Prop :=
  ∀ (P : Option Fl) (x σ v : Fin 4 → ℝ), NotCircular x → (∀ i, 0 ≤ σ i) →
    (linear2 P (x 0) (x 1) (x 2) (x 3) (v 0) (v 1) (v 2) (v 3)).2 =
      ⟨.fin (σ 0 ^ 2), .fin (σ 1 ^ 2), .fin (σ 2 ^ 2), .fin (σ 3 ^ 2)⟩ →
    FirstOrderCi x σ (linear2 P (x 0) (x 1) (x 2) (x 3) (v 0) (v 1) (v 2) (v 3)).1

/-- **C50**, vector series, what holds: the statement is true unless the cosine coefficient of `v` is exactly zero;
even then the intervals of the major axis and of the phase are right. -/
theorem C50_vector_partial (P : Option Fl) (x σ v : Fin 4 → ℝ) (hx : NotCircular x) (hσ : ∀ i, 0 ≤ σ i)
    (hv : (linear2 P (x 0) (x 1) (x 2) (x 3) (v 0) (v 1) (v 2) (v 3)).2 =
      ⟨.fin (σ 0 ^ 2), .fin (σ 1 ^ 2), .fin (σ 2 ^ 2), .fin (σ 3 ^ 2)⟩) :
    (x 2 ≠ 0 → FirstOrderCi x σ (linear2 P (x 0) (x 1) (x 2) (x 3) (v 0) (v 1) (v 2) (v 3)).1) ∧
    ∃ a g, Propagated 0 (fun y => (ellRow y).Lsmaj) x σ a ∧ Propagated 180 (fun y => (ellRow y).g) x σ g ∧
      (linear2 P (x 0) (x 1) (x 2) (x 3) (v 0) (v 1) (v 2) (v 3)).1.maj = .fin (1.96 * a) ∧
      (linear2 P (x 0) (x 1) (x 2) (x 3) (v 0) (v 1) (v 2) (v 3)).1.g = .fin (1.96 * g) := by
  have hp : posC x ≠ 0 := hx.1
  have hm : negC x ≠ 0 := hx.2
  rw [linear2_eq P x σ v hσ hv, utLinci_eq x σ hp hm]
  dsimp only
  refine ⟨fun h => ?_, ?_⟩
  · rw [if_neg h, if_neg h]
    exact ⟨_, _, _, _, ⟨_, fun i => partial_maj x i hp hm, rfl⟩, ⟨_, fun i => partial_min x i hp hm, rfl⟩,
      ⟨_, fun i => partial_theta x i hp hm, rfl⟩, ⟨_, fun i => partial_g x i hp hm, rfl⟩, rfl⟩
  · exact ⟨_, _, ⟨_, fun i => partial_maj x i hp hm, rfl⟩, ⟨_, fun i => partial_g x i hp hm, rfl⟩, rfl, rfl⟩

/-- C50 fails where the cosine coefficient of `v` is zero: for `u = 2 cos`, `v = sin`, an ellipse with axes 2 and 1,
and unit standard deviations the interval of the minor axis is 0 instead of 1.96. -/
theorem C50_false : ¬ C50_full := by
  intro h
  have e3 : (![2, 0, 0, 1] : Fin 4 → ℝ) 3 = 1 := rfl
  have e2 : (![2, 0, 0, 1] : Fin 4 → ℝ) 2 = 0 := rfl
  have hp : posC ![2, 0, 0, 1] ≠ 0 := by
    intro h0; have := congrArg Complex.re h0; rw [posC_re] at this; norm_num [e2, e3] at this
  have hm : negC ![2, 0, 0, 1] ≠ 0 := by
    intro h0; have := congrArg Complex.re h0; rw [negC_re] at this; norm_num [e2, e3] at this
  have hv : (linear2 none 2 0 0 1 1 1 1 1).2 = ⟨.fin (1 ^ 2), .fin (1 ^ 2), .fin (1 ^ 2), .fin (1 ^ 2)⟩ := by
    simp [linear2]
  obtain ⟨a, b, t, g, -, hb, -, -, he⟩ := h none ![2, 0, 0, 1] (fun _ => 1) (fun _ => 1) ⟨hp, hm⟩ (fun _ => by norm_num) hv
  rw [linear2_eq none ![2, 0, 0, 1] (fun _ => 1) (fun _ => 1) (fun _ => by norm_num) hv,
    utLinci_eq _ (fun _ => 1) hp hm] at he
  have h1 : b = 0 := by
    have := congrArg Ci1.min he
    simp only [Matrix.cons_val, if_true] at this
    have := Fl.fin.inj this
    linarith
  have h2 := hb.unique ⟨_, fun i => partial_min ![2, 0, 0, 1] i hp hm, rfl⟩
  have h3 : (dNorm (posC ![2, 0, 0, 1]) (dirP 3) - dNorm (negC ![2, 0, 0, 1]) (dirM 3)) = 1 := by
    obtain ⟨v1, v2, v3, v4, v5, v6, v7, v8, v9, v10, v11, v12, v13, v14, v15, v16⟩ := dir_values
    have n1 : ‖posC ![2, 0, 0, 1]‖ = 3 / 2 := by
      rw [← half_sqrt (posC ![2, 0, 0, 1]) 3 0 (by rw [posC_re]; norm_num [e2, e3]) (by rw [posC_im]; norm_num [e2, e3]),
        show (3 : ℝ) ^ 2 + 0 ^ 2 = 3 ^ 2 by norm_num, Real.sqrt_sq (by norm_num)]
      norm_num
    have n2 : ‖negC ![2, 0, 0, 1]‖ = 1 / 2 := by
      rw [← half_sqrt (negC ![2, 0, 0, 1]) 1 0 (by rw [negC_re]; norm_num [e2, e3]) (by rw [negC_im]; norm_num [e2, e3]),
        show (1 : ℝ) ^ 2 + 0 ^ 2 = 1 ^ 2 by norm_num, Real.sqrt_sq (by norm_num)]
      norm_num
    unfold dNorm
    rw [posC_re, posC_im, negC_re, negC_im, v7, v8, v15, v16, n1, n2]
    norm_num [e2, e3]
  rw [h1, Fin.sum_univ_four, h3] at h2
  have h4 := Real.sqrt_eq_zero'.1 h2.symm
  have := sq_nonneg ((dNorm (posC ![2, 0, 0, 1]) (dirP 0) - dNorm (negC ![2, 0, 0, 1]) (dirM 0)) * (1 : ℝ))
  have := sq_nonneg ((dNorm (posC ![2, 0, 0, 1]) (dirP 1) - dNorm (negC ![2, 0, 0, 1]) (dirM 1)) * (1 : ℝ))
  have := sq_nonneg ((dNorm (posC ![2, 0, 0, 1]) (dirP 2) - dNorm (negC ![2, 0, 0, 1]) (dirM 2)) * (1 : ℝ))
  simp only at h4
  linarith

/-! ## C50, scalar series -/

/-- Amplitude and phase as functions of the two coefficients. -/
def ampOf (y : Fin 2 → ℝ) : ℝ := (cs2cep1 (y 0) (y 1)).Lsmaj
def phaseOf (y : Fin 2 → ℝ) : ℝ := (cs2cep1 (y 0) (y 1)).g

def dirS : Fin 2 → ℂ := ![1, -I]
def scaC (y : Fin 2 → ℝ) : ℂ := (y 0 : ℂ) - I * (y 1 : ℂ)

theorem scaC_update (y : Fin 2 → ℝ) (i : Fin 2) (s : ℝ) :
    scaC (Function.update y i s) = scaC y + ((s - y i : ℝ) : ℂ) * dirS i := by
  unfold scaC dirS
  fin_cases i <;> simp [Function.update] <;> ring

theorem partial_amp (y : Fin 2 → ℝ) (i : Fin 2) (h : scaC y ≠ 0) :
    PartialMod 0 ampOf y i (dNorm (scaC y) (dirS i)) := by
  refine ⟨_, norm_deriv (scaC y) (dirS i) (y i) h, .of_forall fun s => ⟨0, ?_⟩⟩
  rw [← scaC_update]
  simp
  rfl

theorem partial_phase (y : Fin 2 → ℝ) (i : Fin 2) (h : scaC y ≠ 0) :
    PartialMod 360 phaseOf y i (-dAngle (scaC y) (dirS i)) := by
  obtain ⟨L, hL, he⟩ := angle_deriv (scaC y) (dirS i) (y i) h
  refine ⟨_, hL.neg, ?_⟩
  filter_upwards [he] with s ⟨k, hk⟩
  rw [← scaC_update] at hk
  obtain ⟨n, hn⟩ := pymod_eq_sub (-angleDeg (scaC (Function.update y i s))) 360
  refine ⟨-k - n, ?_⟩
  show pymod (-angleDeg (scaC (Function.update y i s))) 360 = _
  rw [hn, hk]
  simp only [Pi.neg_apply]
  push_cast
  ring

/-- **C50**, scalar series: if the variances used (rescaled or not) are `σ²`, the intervals of amplitude and phase
are 1.96 times the first-order standard errors. -/
theorem C50_scalar (P : Option Fl) (y σ v : Fin 2 → ℝ) (hy : y ≠ 0) (hσ : ∀ i, 0 ≤ σ i)
    (hv : (linear1 P (y 0) (y 1) (v 0) (v 1)).2 = ⟨.fin (σ 0 ^ 2), .fin (σ 1 ^ 2), .fin 0, .fin 0⟩) :
    ∃ a g, Propagated 0 ampOf y σ a ∧ Propagated 360 phaseOf y σ g ∧
      (linear1 P (y 0) (y 1) (v 0) (v 1)).1 = ⟨.fin (1.96 * a), .fin 0, .fin 0, .fin (1.96 * g)⟩ := by
  have h0 : scaC y ≠ 0 := by
    intro h
    apply hy
    have h1 := congrArg Complex.re h
    have h2 := congrArg Complex.im h
    simp [scaC] at h1 h2
    funext i
    fin_cases i
    · exact h1
    · exact h2
  refine ⟨_, _, ⟨_, fun i => partial_amp y i h0, rfl⟩, ⟨_, fun i => partial_phase y i h0, rfl⟩, ?_⟩
  have hre : (scaC y).re = y 0 := by simp [scaC]
  have him : (scaC y).im = -y 1 := by simp [scaC]
  have hp : posC ![y 0, y 1, 0, 0] = scaC y / 2 := by
    apply Complex.ext
    · rw [posC_re]; simp [hre]
    · rw [posC_im]; simp [him]
  have hm : negC ![y 0, y 1, 0, 0] = (starRingEnd ℂ) (scaC y) / 2 := by
    apply Complex.ext
    · rw [negC_re]; simp [hre]
    · rw [negC_im]; simp [him]
  have hp0 : posC ![y 0, y 1, 0, 0] ≠ 0 := by rw [hp]; exact div_ne_zero h0 (by norm_num)
  have hm0 : negC ![y 0, y 1, 0, 0] ≠ 0 := by
    rw [hm]; exact div_ne_zero (by simpa using h0) (by norm_num)
  have np : ‖posC ![y 0, y 1, 0, 0]‖ = ‖scaC y‖ / 2 := by rw [hp, norm_div]; simp
  have nm : ‖negC ![y 0, y 1, 0, 0]‖ = ‖scaC y‖ / 2 := by rw [hm, norm_div]; simp
  have hn : ‖scaC y‖ ≠ 0 := norm_ne_zero_iff.2 h0
  have hs : ∀ i, (Fl.fin (σ i ^ 2)).sqrt = .fin (σ i) := fun i => by
    rw [fin_sqrt _ (sq_nonneg _), Real.sqrt_sq (hσ i)]
  have hu := utLinci_eq ![y 0, y 1, 0, 0] ![σ 0, σ 1, 0, 0] hp0 hm0
  simp only [Matrix.cons_val] at hu
  unfold linear1 at hv ⊢
  dsimp only at hv ⊢
  rw [Vars.mk.injEq] at hv
  obtain ⟨h1, h2, -, -⟩ := hv
  rw [h1, h2, hs, hs, hu]
  obtain ⟨v1, v2, v3, v4, v5, v6, v7, v8, v9, v10, v11, v12, v13, v14, v15, v16⟩ := dir_values
  have w1 : (dirS 0).re = 1 ∧ (dirS 0).im = 0 ∧ (dirS 1).re = 0 ∧ (dirS 1).im = -1 := by simp [dirS]
  obtain ⟨w1, w2, w3, w4⟩ := w1
  rw [Ci1.mk.injEq]
  refine ⟨?_, rfl, rfl, ?_⟩
  · rw [fin_mul, Fin.sum_univ_four, Fin.sum_univ_two]
    unfold dNorm
    rw [np, nm]
    simp only [posC_re, posC_im, negC_re, negC_im, v1, v2, v3, v4, v5, v6, v7, v8, v9, v10, v11, v12, v13, v14, v15, v16,
      w1, w2, w3, w4, hre, him, Matrix.cons_val]
    congr 3
    field_simp
    ring
  · rw [fin_mul, Fin.sum_univ_four, Fin.sum_univ_two]
    unfold dAngle
    rw [np, nm]
    simp only [posC_re, posC_im, negC_re, negC_im, v1, v2, v3, v4, v5, v6, v7, v8, v9, v10, v11, v12, v13, v14, v15, v16,
      w1, w2, w3, w4, hre, him, Matrix.cons_val]
    congr 3
    field_simp
    ring

/-- A case of C50: amplitude 5 (coefficients 3 and 4), standard deviations 1 and 2, white noise. -/
example : ∃ a g, Propagated 0 ampOf ![3, 4] ![1, 2] a ∧ Propagated 360 phaseOf ![3, 4] ![1, 2] g ∧
    (linear1 none 3 4 1 4).1 = ⟨.fin (1.96 * a), .fin 0, .fin 0, .fin (1.96 * g)⟩ := by
  refine C50_scalar none ![3, 4] ![1, 2] ![1, 4] ?_ ?_ ?_
  · intro h; have := congrFun h 0; simp at this
  · intro i; fin_cases i <;> simp
  · simp [linear1]; norm_num

end

end UTide.Props
