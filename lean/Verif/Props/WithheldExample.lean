import Verif.Props.WithheldProps
import Verif.Props.FillExample

/-!
# A case of C122
-/

namespace UTide.Props

noncomputable section

open Classical

/-- Samples 1, 5, 3 at times 0, 0.5, 1, and any value at time 1.25, used or not. -/
example (y : ℝ) : ∃ c c' r r', ∃ q : ℝ, solve idealEnv ⟨[4], .float [.fin 0, .fin 0.5, .fin 1, .fin 1.25], []⟩
      ⟨[4], [⟨.fin 1, false⟩, ⟨.fin 5, false⟩, ⟨.fin 3, false⟩, ⟨.nan, false⟩]⟩ none (some 45) gwOpts = .ok c ∧
    solve idealEnv ⟨[4], .float [.fin 0, .fin 0.5, .fin 1, .fin 1.25], []⟩
      ⟨[4], [⟨.fin 1, false⟩, ⟨.fin 5, false⟩, ⟨.fin 3, false⟩, ⟨.fin y, false⟩]⟩ none (some 45) gwOpts = .ok c' ∧
    reconstruct idealEnv (.float [.fin 0, .fin 0.5, .fin 1, .fin 1.25]) c recAll = .ok r ∧
    reconstruct idealEnv (.float [.fin 0, .fin 0.5, .fin 1, .fin 1.25]) c' recAll = .ok r' ∧
    ‖(y : ℂ) - entry r' 3‖ ^ 2 ≤ ‖(y : ℂ) - entry r 3‖ ^ 2 ∧ 0 ≤ q ∧ q ≤ 1 ∧ entry r' 3 - entry r 3 = q * (y - entry r 3) := by
  obtain ⟨c, hc, ho, hk, hn⟩ := gw_run [.fin 0, .fin 0.5, .fin 1, .fin 1.25] [⟨.fin 1, false⟩, ⟨.fin 5, false⟩, ⟨.fin 3, false⟩,
    ⟨.nan, false⟩] rfl (by simp [usable, goodSamples, Fl.toReal?, Cell.value?])
  have R : Ready idealEnv ⟨[4], .float [.fin 0, .fin 0.5, .fin 1, .fin 1.25], []⟩
      ⟨[4], [⟨.fin 1, false⟩, ⟨.fin 5, false⟩, ⟨.fin 3, false⟩, ⟨.nan, false⟩]⟩ none :=
    idealReady _ _ _ (by simp [TimeArg.WF, TimeArr.length]) (by simp [Series.WF]) (by simp)
  obtain ⟨c', hc', ho', hk', hn'⟩ := gw_run [.fin 0, .fin 0.5, .fin 1, .fin 1.25] [⟨.fin 1, false⟩, ⟨.fin 5, false⟩, ⟨.fin 3, false⟩,
    ⟨.fin y, false⟩] rfl (by simp [usable, goodSamples, Fl.toReal?, Cell.value?])
  have R' : Ready idealEnv ⟨[4], .float [.fin 0, .fin 0.5, .fin 1, .fin 1.25], []⟩
      ⟨[4], [⟨.fin 1, false⟩, ⟨.fin 5, false⟩, ⟨.fin 3, false⟩, ⟨.fin y, false⟩]⟩ none :=
    idealReady _ _ _ (by simp [TimeArg.WF, TimeArr.length]) (by simp [Series.WF]) (by simp)
  have hr := C36_selected idealEnv _ _ none (some 45) _ R (by decide) c hc hk idealEnv (.float [.fin 0, .fin 0.5, .fin 1, .fin 1.25]) recAll
  have hr' := C36_selected idealEnv _ _ none (some 45) _ R' (by decide) c' hc' hk' idealEnv (.float [.fin 0, .fin 0.5, .fin 1, .fin 1.25])
    recAll
  have ht : normalizeTime idealEnv.dt64 (.float [.fin 0, .fin 0.5, .fin 1, .fin 1.25]) recAll.epoch =
      .ok [.fin 0, .fin 0.5, .fin 1, .fin 1.25] := rfl
  rw [ht] at hr hr'
  have e1 : sampleValues [⟨.fin 1, false⟩, ⟨.fin 5, false⟩, ⟨.fin 3, false⟩, ⟨.nan, false⟩] none =
      [some 1, some 5, some 3, none] := by
    simp [sampleValues, Cell.value?, Fl.toReal?]
  have e2 : sampleValues [⟨.fin 1, false⟩, ⟨.fin 5, false⟩, ⟨.fin 3, false⟩, ⟨.fin y, false⟩] none =
      [some 1, some 5, some 3, some (y : ℂ)] := by
    simp [sampleValues, Cell.value?, Fl.toReal?]
  have hw : Withheld (sampleValues [⟨.fin 1, false⟩, ⟨.fin 5, false⟩, ⟨.fin 3, false⟩, ⟨.nan, false⟩] none)
      (sampleValues [⟨.fin 1, false⟩, ⟨.fin 5, false⟩, ⟨.fin 3, false⟩, ⟨.fin y, false⟩] none) := by
    rw [e1, e2]
    intro i
    match i with
    | 0 | 1 | 2 => exact .inl rfl
    | 3 => exact .inr ⟨rfl, by simp⟩
    | n + 4 => exact .inl rfl
  have hone : withheldRows [.fin 0, .fin 0.5, .fin 1, .fin 1.25]
      (sampleValues [⟨.fin 1, false⟩, ⟨.fin 5, false⟩, ⟨.fin 3, false⟩, ⟨.nan, false⟩] none)
      (sampleValues [⟨.fin 1, false⟩, ⟨.fin 5, false⟩, ⟨.fin 3, false⟩, ⟨.fin y, false⟩] none) = {3} := by
    rw [e1, e2]
    ext i
    rw [withheldRows, Finset.mem_sdiff, mem_usableRows, mem_usableRows, Finset.mem_singleton]
    match i with
    | 0 | 1 | 2 => exact ⟨fun h => absurd ⟨_, _, rfl, rfl⟩ h.2, fun h => by omega⟩
    | 3 => exact ⟨fun _ => rfl, fun _ => ⟨⟨_, _, rfl, rfl⟩, fun ⟨_, _, _, h⟩ => by simp at h⟩⟩
    | n + 4 => exact ⟨fun ⟨⟨_, _, h, _⟩, _⟩ => by simp at h, fun h => by omega⟩
  have hmode : ExactModes gwOpts := ⟨rfl, .off, rfl, by decide⟩
  obtain ⟨key, -⟩ := C122_withheld idealEnv _ _ _ none none (some 45) gwOpts R R' (by decide) ⟨_, rfl, .inl rfl⟩ rfl c c' hc hc'
    hk hk' none (by rw [ho]; rfl) (by simp) _ (by rw [ho]; exact ht) recAll (by rw [ho]; rfl) ⟨rfl, rfl, rfl⟩ _ _ hr hr' hw
    (by rw [hn, hn']) (by rw [hn]; simp) (.inl hmode)
  obtain ⟨q, k1, k2, k3⟩ := C122_single idealEnv _ _ _ none none (some 45) gwOpts R R' (by decide) ⟨_, rfl, .inl rfl⟩ rfl c c' hc hc'
    hk hk' none (by rw [ho]; rfl) (by simp) _ (by rw [ho]; exact ht) recAll (by rw [ho]; rfl) ⟨rfl, rfl, rfl⟩ _ _ hr hr' hw
    (by rw [hn, hn']) (by rw [hn]; simp) (.inl hmode) 3 hone
  simp only [Option.map_none] at key k3
  rw [hone, Finset.sum_singleton, Finset.sum_singleton, e2] at key
  rw [e2] at k3
  exact ⟨c, c', _, _, q, hc, hc', hr, hr', key, k1, k2, k3⟩

end

end UTide.Props
