import Verif.Props.AxesProps
import Verif.Props.HarmonicProps
import Mathlib.Analysis.Real.Pi.Bounds

/-!
# Cases that meet the hypotheses of C04 - C08 and C11
-/

namespace UTide.Props

noncomputable section

open Classical

local notation "conj" => starRingEnd ℂ

/-- Three samples at times 0, 0.5 and 1. -/
def daySeries (a b c : ℝ) : Series := ⟨[3], [⟨.fin a, false⟩, ⟨.fin b, false⟩, ⟨.fin c, false⟩]⟩

theorem daySeries_wf (a b c : ℝ) : (daySeries a b c).WF := by simp [Series.WF, daySeries]

/-- What a run on three samples with the example options looks like. -/
structure DayRun (v : Option Series) (c : Coef) : Prop where
  opt : c.opt = exOpt v.isSome
  kept : AllKept c
  reftime : c.reftime = 0.5
  lat : c.lat = 45
  name : c.name = ["M2"]

theorem day_ready (a b c : ℝ) (v : Option Series) (hv : v = none ∨ ∃ d e f, v = some (daySeries d e f)) :
    Ready idealEnv dayT (daySeries a b c) v :=
  idealReady _ _ _ dayReady.ht (daySeries_wf _ _ _) (by
    rintro w rfl
    rcases hv with h | ⟨d, e, f, h⟩
    · cases h
    · cases h; exact daySeries_wf _ _ _)

theorem day_usable (a b c : ℝ) (v : Option Series) (hv : v = none ∨ ∃ d e f, v = some (daySeries d e f)) :
    (usable [.fin 0, .fin 0.5, .fin 1] (daySeries a b c).data (v.map Series.data)).map Prod.fst = [0, 0.5, 1] := by
  rcases hv with rfl | ⟨d, e, f, rfl⟩
  · simp [usable, daySeries, goodSamples, Fl.toReal?, Cell.value?]
  · simp [usable, daySeries, goodSamples2, Fl.toReal?, Cell.value?]

theorem day_run (a b c : ℝ) (v : Option Series) (hv : v = none ∨ ∃ d e f, v = some (daySeries d e f)) :
    ∃ co, solve idealEnv dayT (daySeries a b c) v (some 45) exOpts = .ok co ∧ DayRun v co := by
  have R := day_ready a b c v hv
  have hus := day_usable a b c v hv
  have hret : ∃ co, solve idealEnv dayT (daySeries a b c) v (some 45) exOpts = .ok co := by
    refine solve_total idealEnv _ _ v 45 exOpts (exOpt v.isSome) [.fin 0, .fin 0.5, .fin 1] (.names ["M2"]) .frequency
      (exOpt_eq _) rfl rfl rfl rfl rfl ⟨by simpa using M2_known, .inl (by simp)⟩ rfl (.inr rfl) ⟨rfl, rfl, ?_⟩ R.ht R.hu
      R.hv day_times ?_ (fun k => by simp [nodalSingular, exOpt]) (fun h => by simp [exOpt] at h)
    · rintro w rfl
      rcases hv with h | ⟨d, e, f, h⟩
      · cases h
      · cases h; rfl
    · intro h0
      rw [h0] at hus
      simp at hus
  obtain ⟨co, hc⟩ := hret
  refine ⟨co, hc, ?_⟩
  obtain ⟨opt, p, tn, constit, m, W, rf, full, o, ind, F⟩ := solve_facts R hc
  have hopt : opt = exOpt v.isSome := Except.ok.inj (F.hopt.symm.trans (exOpt_eq _))
  subst hopt
  have htn : tn = [.fin 0, .fin 0.5, .fin 1] := Except.ok.inj (F.prep.init.time.symm.trans day_times)
  subst htn
  have hco := F.copt
  refine ⟨hco, ?_, ?_, ?_, ?_⟩
  · left; right; left; left; rw [hco]; rfl
  · rw [F.creftime]
    obtain ⟨-, -, -, -, h5⟩ := editData_usable _ _ _ (F.samples R).1 _ F.prep.init.edit
    have e1 : finiteTimes [.fin 0, .fin 0.5, .fin 1] = [0, 0.5, 1] := by simp [finiteTimes, Fl.toReal?]
    rw [e1, hus] at h5
    unfold timeStats at h5
    by_cases he : isEqui [0, 0.5, 1]
    · simp only [he, if_true] at h5
      have h6 := congrArg Prod.fst (Except.ok.inj h5)
      exact h6.symm.trans (by show (0.5 : ℝ) * (0 + 1) = 0.5; norm_num)
    · simp only [he] at h5
      have h6 := congrArg Prod.fst (Except.ok.inj h5)
      exact h6.symm.trans (by show (0.5 : ℝ) * (0 + 1) = 0.5; norm_num)
  · rw [F.clat]
    exact (Option.some.inj F.prep.init.hlat).symm
  · exact List.perm_singleton.1 ((C17_honoured idealEnv dayT _ v (some 45) exOpts R
      (by decide) .list (by simp) ["M2"] rfl rfl (.str "frequency") rfl co hc).1 (.inr ⟨_, rfl⟩))

theorem not_snr (td : Bool) : ¬ IsStr (exOpt td).ordercnstit "SNR" := by
  rintro (h | h) <;> simp [exOpt] at h

/-! ## The times 0, 0.5 and 1 separate M2 and the mean -/

/-- `24 * frequency` of M2 at time 0.5 is a little less than 2 cycles per day. -/
theorem m2_rate : ∃ x : ℝ, 0.03 < x ∧ x < 0.04 ∧ ∀ τ, m2 τ = Complex.exp (((-(2 * x) * (τ - 0.5) + 2 * (τ - 0.5) : ℝ) : ℂ) * (2 * Real.pi * Complex.I)) := by
  refine ⟨scCoef.dotDargs 0.5 / 360.0 - hcCoef.dotDargs 0.5 / 360.0, ?_, ?_, ?_⟩
  · norm_num [Cubic.dotDargs, scCoef, hcCoef, daten]
  · norm_num [Cubic.dotDargs, scCoef, hcCoef, daten]
  · intro τ
    unfold m2 nameBasis utE
    have h47 : constitNames.idxOf "M2" = 47 := by decide +kernel
    rw [h47, linFreqs_primary _ kind_M2]
    simp only [and_self, if_true]
    rw [Complex.ofReal_one, one_mul]
    have hr : 0 + 24 * (τ - 0.5) * (Doodson.dot ⟨2, 0, 0, 0, 0, 0⟩ (ader 0.5) / 24) =
        -(2 * (scCoef.dotDargs 0.5 / 360.0 - hcCoef.dotDargs 0.5 / 360.0)) * (τ - 0.5) + 2 * (τ - 0.5) := by
      simp only [Doodson.dot, ader]
      generalize scCoef.dotDargs 0.5 / 360.0 = a
      generalize hcCoef.dotDargs 0.5 / 360.0 = b
      generalize τ - 0.5 = d
      norm_num
      ring
    rw [hr]
    generalize (-(2 * (scCoef.dotDargs 0.5 / 360.0 - hcCoef.dotDargs 0.5 / 360.0)) * (τ - 0.5) + 2 * (τ - 0.5) : ℝ) = r
    congr 1
    ring

/-- The values of the M2 harmonic at the three times. -/
theorem m2_values : ∃ z : ℂ, m2 0 = z ∧ m2 0.5 = 1 ∧ m2 1 = conj z ∧ z ≠ conj z ∧ z + conj z ≠ 2 := by
  obtain ⟨x, h1, h2, hm⟩ := m2_rate
  have hpi := Real.pi_gt_three
  have hpi4 := Real.pi_lt_d2
  have e0 : m2 0 = Complex.exp (((2 * Real.pi * x : ℝ) : ℂ) * Complex.I) := by
    rw [hm, show (((-(2 * x) * (0 - 0.5) + 2 * (0 - 0.5) : ℝ) : ℂ) * (2 * Real.pi * Complex.I)) =
      ((2 * Real.pi * x : ℝ) : ℂ) * Complex.I - 2 * Real.pi * Complex.I by push_cast; ring, Complex.exp_sub,
      Complex.exp_two_pi_mul_I, div_one]
  refine ⟨_, e0, ?_, ?_, ?_, ?_⟩
  · rw [hm]; norm_num
  · rw [← Complex.exp_conj, hm, show (((-(2 * x) * (1 - 0.5) + 2 * (1 - 0.5) : ℝ) : ℂ) * (2 * Real.pi * Complex.I)) =
      conj (((2 * Real.pi * x : ℝ) : ℂ) * Complex.I) + 2 * Real.pi * Complex.I by
        rw [map_mul, Complex.conj_ofReal, Complex.conj_I]; push_cast; ring, Complex.exp_add,
      Complex.exp_two_pi_mul_I, mul_one]
  · intro h
    have := congrArg Complex.im h
    rw [Complex.conj_im, Complex.exp_ofReal_mul_I_im] at this
    have hs : 0 < Real.sin (2 * Real.pi * x) := Real.sin_pos_of_pos_of_lt_pi (by nlinarith) (by nlinarith)
    linarith
  · intro h
    have := congrArg Complex.re h
    rw [Complex.add_re, Complex.conj_re, Complex.exp_ofReal_mul_I_re] at this
    have hs : Real.cos (2 * Real.pi * x) < 1 := by
      have := Real.cos_lt_cos_of_nonneg_of_le_pi (x := 0) (y := 2 * Real.pi * x) le_rfl (by nlinarith) (by nlinarith)
      rwa [Real.cos_zero] at this
    simp at this
    linarith

theorem day_harmonic {v : Option Series} {c : Coef} (D : DayRun v c) (τ : ℝ) : harmonic c "M2" τ = m2 τ := by
  unfold harmonic m2
  rw [D.opt, D.reftime, D.lat]
  rfl

theorem day_separated {v : Option Series} {c : Coef} (D : DayRun v c) (td : Bool) (times : ℝ → Prop) (h0 : times 0)
    (h5 : times 0.5) (h1 : times 1) : Separated c none td times := by
  refine ⟨by rw [D.name]; simp, ?_⟩
  intro P M mean slope _ hs hz
  replace hs := hs (by rw [D.opt]; rfl)
  subst hs
  obtain ⟨z, m0, m5, m1, hne, hne2⟩ := m2_values
  have k0 := hz 0 h0
  have k5 := hz 0.5 h5
  have k1 := hz 1 h1
  unfold rotaryCurve at k0 k5 k1
  rw [D.name] at k0 k5 k1
  simp only [List.map_cons, List.map_nil, List.sum_cons, List.sum_nil, day_harmonic D, m0, m5, m1, map_one,
    Complex.conj_conj, zero_mul, add_zero, one_mul] at k0 k5 k1
  have a1 : (P "M2" - M "M2") * (z - conj z) = 0 := by linear_combination k0 - k1
  have a2 : P "M2" = M "M2" := by
    rcases mul_eq_zero.1 a1 with h | h
    · exact sub_eq_zero.1 h
    · exact absurd (sub_eq_zero.1 h) hne
  rw [← a2] at k0 k5
  have a3 : P "M2" * (z + conj z - 2) = 0 := by linear_combination k0 - k5
  have a4 : P "M2" = 0 := by
    rcases mul_eq_zero.1 a3 with h | h
    · exact h
    · exact absurd (sub_eq_zero.1 h) hne2
  refine ⟨?_, rfl, ?_⟩
  · rw [a4] at k5; simpa using k5
  · intro n hn
    rw [D.name] at hn
    simp only [List.mem_singleton] at hn
    subst hn
    exact ⟨a4, by rw [← a2, a4]⟩

theorem day_sampleTime (a b c : ℝ) : SampleTime [.fin 0, .fin 0.5, .fin 1] (daySeries a b c).data none 0 ∧
    SampleTime [.fin 0, .fin 0.5, .fin 1] (daySeries a b c).data none 0.5 ∧
    SampleTime [.fin 0, .fin 0.5, .fin 1] (daySeries a b c).data none 1 := by
  refine ⟨⟨0, (a : ℂ), rfl, rfl⟩, ⟨1, (b : ℂ), rfl, rfl⟩, ⟨2, (c : ℂ), rfl, rfl⟩⟩

theorem day_sampleTime2 (a b c d e f : ℝ) :
    SampleTime [.fin 0, .fin 0.5, .fin 1] (daySeries a b c).data (some (daySeries d e f).data) 0 ∧
    SampleTime [.fin 0, .fin 0.5, .fin 1] (daySeries a b c).data (some (daySeries d e f).data) 0.5 ∧
    SampleTime [.fin 0, .fin 0.5, .fin 1] (daySeries a b c).data (some (daySeries d e f).data) 1 := by
  refine ⟨⟨0, ⟨a, d⟩, rfl, rfl⟩, ⟨1, ⟨b, e⟩, rfl, rfl⟩, ⟨2, ⟨c, f⟩, rfl, rfl⟩⟩

/-! ## C04 -/

/-- Three samples of an M2 tide of amplitude 3 and phase 40 about mean level 7 give back 3, 40 and 7. -/
example : ∃ c e k, solve idealEnv dayT (daySeries (7 + 3 * (m2 0 * cisd (-40)).re) (7 + 3 * (m2 0.5 * cisd (-40)).re)
      (7 + 3 * (m2 1 * cisd (-40)).re)) none (some 45) exOpts = .ok c ∧
    c.name = ["M2"] ∧ ellipseAt c.ell 0 = some e ∧ e.Lsmaj = 3 ∧ e.g = 40 + 360 * (k : ℤ) ∧ c.mean = .one 7 none := by
  obtain ⟨c, hc, D⟩ := day_run (7 + 3 * (m2 0 * cisd (-40)).re) (7 + 3 * (m2 0.5 * cisd (-40)).re)
      (7 + 3 * (m2 1 * cisd (-40)).re) none (.inl rfl)
  have hcurve : ∀ τ, scalarCurve c (fun _ => 3) (fun _ => 40) 7 0 τ = 7 + 3 * (m2 τ * cisd (-40)).re := by
    intro τ
    unfold scalarCurve
    rw [D.name]
    simp [day_harmonic D]
  obtain ⟨s0, s5, s1⟩ := day_sampleTime (7 + 3 * (m2 0 * cisd (-40)).re) (7 + 3 * (m2 0.5 * cisd (-40)).re)
      (7 + 3 * (m2 1 * cisd (-40)).re)
  obtain ⟨h1, h2⟩ := C04_scalar idealEnv dayT _ (some 45) exOpts (day_ready _ _ _ none (.inl rfl)) (by decide)
    ⟨_, rfl, .inl rfl⟩ c hc D.kept none (by rw [D.opt]; rfl) (by simp) _ (by rw [D.opt]; exact day_times)
    (day_separated D _ _ s0 s5 s1)
    (fun _ => 3) (fun _ => 40) 7 0 (by intros; norm_num) (by intro s h; cases h) (fun _ => rfl) (by
      intro i x τ hx hτ
      rw [hcurve]
      match i with
      | 0 => simp at hτ; subst hτ; exact (Option.some.inj hx).symm
      | 1 => simp at hτ; subst hτ; exact (Option.some.inj hx).symm
      | 2 => simp at hτ; subst hτ; exact (Option.some.inj hx).symm
      | i + 3 => simp at hτ)
  obtain ⟨e, he, hA, -, -, hg⟩ := h1 0 "M2" (by rw [D.name]; rfl)
  obtain ⟨k, hk⟩ := hg (by norm_num)
  exact ⟨c, e, k, hc, D.name, he, hA, hk, by rw [h2, D.opt]; rfl⟩

/-- The ellipse of the next example. -/
def sampleEllipse : Ell := ⟨2, -1, 60, 130⟩

/-- A tidal current: the ellipse parameters come back. -/
example : ∃ c e, ∀ z : ℝ → ℂ, (∀ τ, z τ = ⟨4, -5⟩ + (m2 τ * ccw sampleEllipse + conj (m2 τ) * cw sampleEllipse)) →
    solve idealEnv dayT (daySeries (z 0).re (z 0.5).re (z 1).re) (some (daySeries (z 0).im (z 0.5).im (z 1).im)) (some 45)
      exOpts = .ok c ∧ ellipseAt c.ell 0 = some e ∧ e.Lsmaj = 2 ∧ e.Lsmin = -1 ∧ c.mean = .two 4 (-5) none ∧
      ∃ a b : ℤ, e.theta = 60 + 180 * a ∧ e.g = 130 + 180 * b ∧ Even (a - b) := by
  obtain ⟨z, hz⟩ : ∃ z : ℝ → ℂ, ∀ τ, z τ = ⟨4, -5⟩ + (m2 τ * ccw sampleEllipse + conj (m2 τ) * cw sampleEllipse) :=
    ⟨_, fun _ => rfl⟩
  have hv : ∀ a b c, some (daySeries a b c) = none ∨ ∃ d e f, some (daySeries a b c) = some (daySeries d e f) :=
    fun a b c => .inr ⟨a, b, c, rfl⟩
  obtain ⟨c, hc, D⟩ := day_run (z 0).re (z 0.5).re (z 1).re (some (daySeries (z 0).im (z 0.5).im (z 1).im)) (hv _ _ _)
  have hcurve : ∀ τ, vectorCurve c (fun _ => sampleEllipse) ⟨4, -5⟩ 0 τ = z τ := by
    intro τ
    rw [vector_curve_rotary]
    unfold rotaryCurve
    rw [D.name, hz]
    simp [day_harmonic D]
    ring
  obtain ⟨s0, s5, s1⟩ := day_sampleTime2 (z 0).re (z 0.5).re (z 1).re (z 0).im (z 0.5).im (z 1).im
  obtain ⟨h1, h2⟩ := C04_vector idealEnv dayT _ _ (some 45) exOpts (day_ready _ _ _ _ (hv _ _ _)) (by decide)
    ⟨_, rfl, .inl rfl⟩ c hc D.kept none (by rw [D.opt]; rfl) (by simp) _ (by rw [D.opt]; exact day_times)
    (day_separated D _ _ s0 s5 s1)
    (fun _ => sampleEllipse) ⟨4, -5⟩ 0 (by intros; norm_num [sampleEllipse]) (by intro s h; cases h) (fun _ => rfl) (by
      intro i x y τ hx hy hτ
      rw [hcurve]
      match i with
      | 0 => simp at hτ; subst hτ; rw [← Option.some.inj hx, ← Option.some.inj hy]
      | 1 => simp at hτ; subst hτ; rw [← Option.some.inj hx, ← Option.some.inj hy]
      | 2 => simp at hτ; subst hτ; rw [← Option.some.inj hx, ← Option.some.inj hy]
      | i + 3 => simp at hτ)
  obtain ⟨e, he, hA, hB, -, -, hth⟩ := h1 0 "M2" (by rw [D.name]; rfl)
  refine ⟨c, e, ?_⟩
  intro z' hz'
  obtain rfl : z' = z := funext fun τ => (hz' τ).trans (hz τ).symm
  exact ⟨hc, he, hA, hB, by rw [h2, D.opt]; rfl, hth (by norm_num [sampleEllipse])⟩

/-! ## C05 -/

theorem transformed_day (f : ℝ → ℂ → ℂ) (a b c a' b' c' : ℝ) (h0 : f 0 a = a') (h1 : f 0.5 b = b') (h2 : f 1 c = c') :
    Transformed f [.fin 0, .fin 0.5, .fin 1] (daySeries a b c) none (daySeries a' b' c') none := by
  intro i τ hτ
  match i with
  | 0 => simp at hτ; subst hτ; simp [sampleValues, daySeries, Cell.value?, Fl.toReal?, h0]
  | 1 => simp at hτ; subst hτ; simp [sampleValues, daySeries, Cell.value?, Fl.toReal?, h1]
  | 2 => simp at hτ; subst hτ; simp [sampleValues, daySeries, Cell.value?, Fl.toReal?, h2]
  | i + 3 => simp at hτ

/-- Metres and centimetres. -/
example : ∃ c c', solve idealEnv dayT (daySeries 1 0 2) none (some 45) exOpts = .ok c ∧
    solve idealEnv dayT (daySeries 100 0 200) none (some 45) exOpts = .ok c' ∧ c'.ell = scaleEll 100 c.ell ∧
    c'.mean = scaleMean 100 c.mean ∧ c'.PE = c.PE := by
  obtain ⟨c, hc, D⟩ := day_run 1 0 2 none (.inl rfl)
  obtain ⟨c', hc', D'⟩ := day_run 100 0 200 none (.inl rfl)
  obtain ⟨-, -, -, h1, h2, h3⟩ := C05_scale idealEnv dayT _ _ none none (some 45) exOpts (day_ready _ _ _ none (.inl rfl))
    (day_ready _ _ _ none (.inl rfl)) rfl (by decide) ⟨_, rfl, .inl rfl⟩ c c' hc hc' _ (by rw [D.opt]; exact day_times)
    100 (by norm_num) (transformed_day _ _ _ _ _ _ _ (by norm_num) (by norm_num) (by norm_num)) (by
      rw [D.opt]; exact not_snr _)
  exact ⟨c, c', hc, hc', h2, h3, h1⟩

/-- The sign of the series. -/
example : ∃ c c', solve idealEnv dayT (daySeries 1 0 2) none (some 45) exOpts = .ok c ∧
    solve idealEnv dayT (daySeries (-1) 0 (-2)) none (some 45) exOpts = .ok c' ∧ c'.mean = scaleMean (-1) c.mean := by
  obtain ⟨c, hc, D⟩ := day_run 1 0 2 none (.inl rfl)
  obtain ⟨c', hc', D'⟩ := day_run (-1) 0 (-2) none (.inl rfl)
  obtain ⟨-, -, h3, -⟩ := C05_negate idealEnv dayT _ _ (some 45) exOpts (day_ready _ _ _ none (.inl rfl))
    (day_ready _ _ _ none (.inl rfl)) (by decide) ⟨_, rfl, .inl rfl⟩ c c' hc hc' _ (by rw [D.opt]; exact day_times)
    (transformed_day _ _ _ _ _ _ _ (by norm_num) (by norm_num) (by norm_num)) (by
      rw [D.opt]; exact not_snr _)
  exact ⟨c, c', hc, hc', h3⟩

/-! ## C06 -/

/-- Another datum, three units below. -/
example : ∃ c c' m, solve idealEnv dayT (daySeries 1 0 2) none (some 45) exOpts = .ok c ∧
    solve idealEnv dayT (daySeries 4 3 5) none (some 45) exOpts = .ok c' ∧ c'.ell = c.ell ∧ c.mean = .one m none ∧
    c'.mean = .one (m + 3) none := by
  obtain ⟨c, hc, D⟩ := day_run 1 0 2 none (.inl rfl)
  obtain ⟨c', hc', D'⟩ := day_run 4 3 5 none (.inl rfl)
  obtain ⟨s0, s5, s1⟩ := day_sampleTime 1 0 2
  obtain ⟨-, ⟨mean, slope, h1, h2⟩, h3⟩ := C06_offset idealEnv dayT _ _ none none (some 45) exOpts
    (day_ready _ _ _ none (.inl rfl)) (day_ready _ _ _ none (.inl rfl)) rfl (by decide) ⟨_, rfl, .inl rfl⟩ c c' hc hc' D.kept
    none (by rw [D.opt]; rfl) (by simp) _ (by rw [D.opt]; exact day_times) (day_separated D _ _ s0 s5 s1) 3 0
    (fun _ => rfl) (transformed_day _ _ _ _ _ _ _ (by norm_num) (by norm_num) (by norm_num))
  have h4 := h3 (by rw [D.opt]; exact not_snr _)
  refine ⟨c, c', mean.re, hc, hc', h4.2.2.2.2, ?_, ?_⟩
  · rw [h1, D.opt]; rfl
  · rw [h2, D.opt]; simp [meanRec, exOpt]

/-! ## C07 -/

example : ∃ c c' A g, solve idealEnv dayT (daySeries 1 0 2) none (some 45) exOpts = .ok c ∧
    solve idealEnv dayT (daySeries 1 0 2) (some (daySeries 0 0 0)) (some 45) exOpts = .ok c' ∧
    c.ell = .one A g ∧ c'.ell = .two A (A.map fun _ => 0) (A.map fun _ => 0) g := by
  have hv : some (daySeries 0 0 0) = none ∨ ∃ d e f, some (daySeries 0 0 0) = some (daySeries d e f) :=
    .inr ⟨_, _, _, rfl⟩
  obtain ⟨c, hc, D⟩ := day_run 1 0 2 none (.inl rfl)
  obtain ⟨c', hc', D'⟩ := day_run 1 0 2 (some (daySeries 0 0 0)) hv
  obtain ⟨-, -, -, -, ⟨A, g, h1, h2⟩, -⟩ := C07_zero_component idealEnv dayT _ _ (some 45) exOpts exOpts
    (day_ready _ _ _ none (.inl rfl)) (day_ready _ _ _ _ hv) (by simp [daySeries, Cell.value?, Fl.toReal?]) (by decide)
    (by decide) (fun _ _ => rfl) ⟨_, rfl, .inl rfl⟩ c c' hc hc' none (by rw [D.opt]; rfl) (by rw [D'.opt]; rfl)
    (by rw [D.opt]; exact not_snr _)
  exact ⟨c, c', A, g, hc, hc', h1, h2⟩

/-! ## C08 -/

theorem cisd_90 : cisd 90 = Complex.I := by
  unfold cisd
  rw [show Complex.I * ((90 : ℝ) : ℂ) * ((Real.pi / 180 : ℝ) : ℂ) = (Real.pi / 2 : ℝ) * Complex.I by push_cast; ring,
    Complex.exp_mul_I, ← Complex.ofReal_cos, ← Complex.ofReal_sin, Real.cos_pi_div_two, Real.sin_pi_div_two]
  simp

/-- A quarter turn: `(u, v)` becomes `(-v, u)`. -/
example : ∃ c c' e e', solve idealEnv dayT (daySeries 1 0 2) (some (daySeries 3 1 1)) (some 45) exOpts = .ok c ∧
    solve idealEnv dayT (daySeries (-3) (-1) (-1)) (some (daySeries 1 0 2)) (some 45) exOpts = .ok c' ∧
    ellipseAt c.ell 0 = some e ∧ ellipseAt c'.ell 0 = some e' ∧ Turned 90 e e' := by
  have hv : ∀ a b c, some (daySeries a b c) = none ∨ ∃ d e f, some (daySeries a b c) = some (daySeries d e f) :=
    fun a b c => .inr ⟨a, b, c, rfl⟩
  obtain ⟨c, hc, D⟩ := day_run 1 0 2 (some (daySeries 3 1 1)) (hv _ _ _)
  obtain ⟨c', hc', D'⟩ := day_run (-3) (-1) (-1) (some (daySeries 1 0 2)) (hv _ _ _)
  obtain ⟨-, -, -, -, -, h1⟩ := C08_rotation idealEnv dayT _ _ _ _ (some 45) exOpts
    (day_ready _ _ _ _ (hv _ _ _)) (day_ready _ _ _ _ (hv _ _ _)) (by decide) ⟨_, rfl, .inl rfl⟩ c c' hc hc' _
    (by rw [D.opt]; exact day_times) 90 (by
      intro i τ hτ
      rw [cisd_90]
      match i with
      | 0 => simp [sampleValues, daySeries, Cell.value?, Fl.toReal?, Complex.ext_iff]
      | 1 => simp [sampleValues, daySeries, Cell.value?, Fl.toReal?, Complex.ext_iff]
      | 2 => simp [sampleValues, daySeries, Cell.value?, Fl.toReal?, Complex.ext_iff]
      | i + 3 => simp at hτ)
    (by rw [D.opt]; exact not_snr _)
  have he : ∃ e, ellipseAt c.ell 0 = some e := by
    obtain ⟨opt, p, tn, constit, m, W, rf, full, o, ind, F⟩ := solve_facts (day_ready _ _ _ _ (hv _ _ _)) hc
    have hn : p.sel.name.Nodup :=
      (F.perm_names (day_ready _ _ _ _ (hv _ _ _)) (by decide) D.kept).nodup_iff.1 (by rw [D.name]; simp)
    obtain ⟨P, M, mean, slope, hP, hM, -, hmm⟩ := F.exists_coef hn m F.mlen
    obtain ⟨hell, -⟩ := F.read (by decide) P M mean slope hP hM hmm
    exact ⟨_, by rw [hell, ellipseAt_map, D.name]; rfl⟩
  obtain ⟨e, he⟩ := he
  obtain ⟨e', he', ht⟩ := h1 0 e he
  exact ⟨c, c', e, e', hc, hc', he, he', ht⟩

/-! ## C11 -/

theorem constit_M2_N2 : List.mapM constitIndex ["M2", "N2"] = .ok [47, 41] := by kernel_rfl

/-- The constituents of the examples with an inferred one. -/
theorem tied_names {E : Env} {t : TimeArg} {u : Series} {v : Option Series} {lat : Option ℝ} (R : Ready E t u v) {c : Coef}
    (hc : solve E t u v lat (tiedOpts (if v.isSome then 2 else 1)) = .ok c) : c.name.Perm ["M2", "N2", "NU2"] := by
  obtain ⟨hco, hk⟩ := tied_opt R hc
  have hnd : (tiedOpts (if v.isSome then 2 else 1)).keys.Nodup := by
    cases v <;> simp [tiedOpts, Dict.keys]
  obtain ⟨opt, p, tn, constit, m, W, rf, full, o, ind, F⟩ := solve_facts R hc
  have hopt : opt = tiedOpt v.isSome := Except.ok.inj (F.hopt.symm.trans (tiedOpt_eq v.isSome))
  subst hopt
  have hinf : p.infer = some (tiedSpec v.isSome) := Except.ok.inj (F.prep.hinfer.symm.trans (tied_read v.isSome))
  have hcon : constit = .names ["M2", "N2"] :=
    Except.ok.inj (F.prep.cons.symm.trans (readConstit_list .list (by simp) ["M2", "N2"]))
  have hsel := F.prep.hsel
  rw [hinf, hcon] at hsel
  have hnames : p.sel.name = ["M2", "N2", "NU2"] := by
    obtain ⟨l0, h0, ⟨f, hf, hf'⟩, -, -, hrefs, hnm⟩ := cnstitsel_some _ _ _ _ _ hsel
    have hl0 : l0 = [47, 41] := by
      refine Except.ok.inj (h0.symm.trans ?_)
      exact constit_M2_N2
    have hn47 : nameAt 47 = "M2" := by decide +kernel
    have hn41 : nameAt 41 = "N2" := by decide +kernel
    have e1 : f 47 = true := (hf' 47 (by norm_num)).2 (by rw [hn47]; show "M2" ∉ ["NU2", "N2"]; decide)
    have e2 : f 41 = false := by
      by_contra h
      rw [Bool.not_eq_false] at h
      have := (hf' 41 (by norm_num)).1 h
      rw [hn41] at this
      exact this (show "N2" ∈ ["NU2", "N2"] by decide)
    have hnr : p.sel.nrLind = [47] := by rw [hf, hl0]; simp [e1, e2]
    have hrefs' : ∃ r, p.sel.refs = [r] ∧ r.inf.map InfCon.name = ["NU2"] := by
      have hfi : firsts (tiedSpec v.isSome).reference = ["N2"] := by show firsts ["N2"] = _; decide
      rw [hfi, List.mapM_cons] at hrefs
      simp only [bind_eq_ok, List.mapM_nil, pure_eq_ok] at hrefs
      obtain ⟨r, hr, l, hl, hrr⟩ := hrefs
      cases Except.ok.inj hl
      refine ⟨r, (Except.ok.inj hrr).symm, ?_⟩
      obtain ⟨-, -, -, hinf⟩ := mkRef_ok _ _ _ _ hr
      have hpos : refPositions (tiedSpec v.isSome).reference "N2" = [0] := by show refPositions ["N2"] "N2" = _; decide
      rw [hpos, List.mapM_cons] at hinf
      simp only [bind_eq_ok, List.mapM_nil, pure_eq_ok] at hinf
      obtain ⟨q, hq, l, hl, hqq⟩ := hinf
      cases Except.ok.inj hl
      obtain ⟨_, _, -, -, -, -, -, hname, -, -⟩ := mkInf_ok _ _ _ _ hq
      rw [← Except.ok.inj hqq]
      simp only [List.map_cons, List.map_nil]
      rw [← Option.some.inj hname]
    obtain ⟨r, hr, hr'⟩ := hrefs'
    rw [hnm, hr, F.prep.aligned.nrName, hnr]
    simp only [List.map_cons, List.map_nil, List.flatMap_cons, List.flatMap_nil, hr', hn47]
    rfl
  have hperm := F.perm_names R hnd hk
  rw [hnames] at hperm
  exact hperm

/-- NU2 inferred from N2 with ratio 1/5 and offset 30. -/
example : ∃ c i k e eR, solve idealEnv dayT dayU none (some 45) (tiedOpts 1) = .ok c ∧ c.name[i]? = some "NU2" ∧
    c.name[k]? = some "N2" ∧ ellipseAt c.ell i = some e ∧ ellipseAt c.ell k = some eR ∧
    e.Lsmaj = 1 / 5 * eR.Lsmaj ∧ (0 < eR.Lsmaj → ∃ z : ℤ, e.g = eR.g - 30 + 360 * z) := by
  obtain ⟨c, hc⟩ := tied_returns idealEnv none (by simp) ⟨rfl, rfl, by simp⟩
    (by simp [usable, goodSamples, Fl.toReal?, Cell.value?, dayU])
  obtain ⟨hco, hk⟩ := tied_opt dayReady hc
  have hperm := tied_names dayReady hc
  obtain ⟨i, hi⟩ := List.mem_iff_getElem?.1 (hperm.mem_iff.2 (show "NU2" ∈ _ by simp))
  obtain ⟨k, hkk⟩ := List.mem_iff_getElem?.1 (hperm.mem_iff.2 (show "N2" ∈ _ by simp))
  obtain ⟨e, eR, h1, h2, h3, h4⟩ := C11_scalar idealEnv dayT dayU (some 45) (tiedOpts 1) dayReady (by decide) c hc hk
    (hperm.nodup_iff.2 (by decide)) (tiedSpec false) (by rw [hco]; exact tied_read _) 0 "NU2" "N2" (1 / 5) 30 rfl rfl rfl
    rfl i k hi hkk
  refine ⟨c, i, k, e, eR, hc, hi, hkk, h1, h2, ?_, fun h => ?_⟩
  · rw [h3]; norm_num
  · simpa using h4 (by norm_num) h

end

end UTide.Props
