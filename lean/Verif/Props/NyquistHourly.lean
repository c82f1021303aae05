import Verif.Props.EnergyHourly
import Verif.Props.NyquistProps

/-!
# C101 for hourly samples

At hourly (or denser) sampling the conditions on the frequencies hold for every list of different constituents without
the mean Z0.
-/

namespace UTide.Props

noncomputable section

open Classical

variable {E : Env} {t : TimeArg} {u : Series} {v : Option Series} {lat : Option ℝ} {opts : Dict PyVal} {c : Coef}

/-- **C101**, hourly: among the samples there is a stretch without gaps, at least one sample per hour, as long as there
are unknowns. Then it determines all constituents of the list, whichever they are. -/
theorem C101_hourly (R : Ready E t u v) (hnd : opts.keys.Nodup) (h : solve E t u v lat opts = .ok c)
    (hst : Steady opts) (hnv : NotVanishing opts c) (hd : InEra c.reftime) (hn : c.name.Nodup) (hz : "Z0" ∉ c.name)
    (Δ : ℝ) (hΔ : 0 < Δ) (hh : 24 * Δ ≤ 1) (times : ℝ → Prop) (hreg : RegularStretch c times Δ) (sp : Option InferSpec)
    (td : Bool) : Separated c sp td times := by
  obtain ⟨h1, h2⟩ := hourly_frequencies h hd hn hz
  refine C101_separated R hnd h hst hnv h1 (fun f hf => (h2 f hf).1) Δ hΔ (fun f hf => ?_) times hreg sp td
  have := (h2 f hf).2
  have h3 : 1 ≤ 1 / (24 * Δ) := by
    rw [le_div_iff₀ (by linarith)]; linarith
  linarith

end

end UTide.Props
