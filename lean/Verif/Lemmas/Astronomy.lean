import Verif.Model.Astronomy
import Mathlib.Analysis.Calculus.Deriv.Pow
import Mathlib.Analysis.Calculus.Deriv.Mul
import Mathlib.Analysis.Calculus.Deriv.Add

/-!
# Smooth lifts of the astronomical arguments
-/

namespace UTide

theorem fmod1_congr (x : ℝ) : ∃ n : ℤ, fmod1 x - x = n :=
  ⟨-truncR x, by unfold fmod1; push_cast; ring⟩

/-- The polynomial of one astronomical longitude, in cycles. -/
noncomputable def Cubic.cycles (c : Cubic) (t : ℝ) : ℝ := c.dotArgs t / 360

theorem Cubic.hasDerivAt (c : Cubic) (t : ℝ) : HasDerivAt c.cycles (c.dotDargs t / 360.0) t := by
  unfold Cubic.cycles Cubic.dotArgs Cubic.dotDargs
  have h1 : HasDerivAt (fun t : ℝ => t - daten) 1 t := (hasDerivAt_id t).sub_const daten
  have h2 : HasDerivAt (fun t : ℝ => (t - daten) / 10000) (1 / 10000) t := h1.div_const 10000
  have h3 := ((((hasDerivAt_const t (c.c0 * 1)).add (h1.const_mul c.c1)).add
    ((h2.mul h2).const_mul c.c2)).add ((h2.pow 3).const_mul c.c3)).div_const 360
  refine h3.congr_deriv ?_
  norm_num
  ring

/-- Smooth lift of `astro`: the same angles without the reduction to one cycle. -/
noncomputable def astroLift (t : ℝ) : Six where
  tau := t + hcCoef.cycles t - scCoef.cycles t
  s := scCoef.cycles t
  h := hcCoef.cycles t
  p := pcCoef.cycles t
  np := npcCoef.cycles t
  pp := ppcCoef.cycles t

theorem astro_congr_lift (t : ℝ) :
    (∃ n : ℤ, (astro t).tau - (astroLift t).tau = n) ∧ (∃ n : ℤ, (astro t).s - (astroLift t).s = n) ∧
    (∃ n : ℤ, (astro t).h - (astroLift t).h = n) ∧ (∃ n : ℤ, (astro t).p - (astroLift t).p = n) ∧
    (∃ n : ℤ, (astro t).np - (astroLift t).np = n) ∧ (∃ n : ℤ, (astro t).pp - (astroLift t).pp = n) := by
  unfold astro astroLift Cubic.cycles
  dsimp only
  obtain ⟨a, ha⟩ := fmod1_congr (scCoef.dotArgs t / 360)
  obtain ⟨b, hb⟩ := fmod1_congr (hcCoef.dotArgs t / 360)
  refine ⟨⟨-⌊t⌋ + b - a, ?_⟩, ⟨a, ha⟩, ⟨b, hb⟩, fmod1_congr _, fmod1_congr _, fmod1_congr _⟩
  push_cast
  rw [← ha, ← hb]
  have := Int.self_sub_floor t
  linear_combination -this

theorem astroLift_deriv (t : ℝ) :
    HasDerivAt (fun t => (astroLift t).tau) (ader t).tau t ∧
    HasDerivAt (fun t => (astroLift t).s) (ader t).s t ∧
    HasDerivAt (fun t => (astroLift t).h) (ader t).h t ∧
    HasDerivAt (fun t => (astroLift t).p) (ader t).p t ∧
    HasDerivAt (fun t => (astroLift t).np) (ader t).np t ∧
    HasDerivAt (fun t => (astroLift t).pp) (ader t).pp t := by
  refine ⟨?_, scCoef.hasDerivAt t, hcCoef.hasDerivAt t, pcCoef.hasDerivAt t, npcCoef.hasDerivAt t,
    ppcCoef.hasDerivAt t⟩
  have := ((hasDerivAt_id t).add (hcCoef.hasDerivAt t)).sub (scCoef.hasDerivAt t)
  refine this.congr_deriv ?_
  unfold ader
  norm_num

end UTide
