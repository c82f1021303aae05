import Verif.Props.StableProps
import Verif.Props.FillExample

/-!
# Cases of C104
-/

namespace UTide.Props

noncomputable section

open Classical

theorem octS_values (ys : Fin 8 → ℝ) : sampleValues (octSeries ys).data none = [some ((ys 0 : ℝ) : ℂ), some ((ys 1 : ℝ) : ℂ),
    some ((ys 2 : ℝ) : ℂ), some ((ys 3 : ℝ) : ℂ), some ((ys 4 : ℝ) : ℂ), some ((ys 5 : ℝ) : ℂ), some ((ys 6 : ℝ) : ℂ),
    some ((ys 7 : ℝ) : ℂ)] := by
  simp [sampleValues, octSeries, Cell.value?, Fl.toReal?, List.ofFn_succ]

theorem octS_rowUsable (ys : Fin 8 → ℝ) (i : ℕ) : UsableRow octTn (sampleValues (octSeries ys).data none) i ↔ i < 8 := by
  rw [octS_values]
  match i with
  | 0 | 1 | 2 | 3 | 4 | 5 | 6 | 7 => exact ⟨fun _ => by norm_num, fun _ => ⟨_, _, rfl, rfl⟩⟩
  | n + 8 => exact ⟨fun ⟨_, _, h, _⟩ => by simp [octTn] at h, fun h => by omega⟩

theorem octS_rows (ys : Fin 8 → ℝ) : usableRows octTn (sampleValues (octSeries ys).data none) = Finset.range 8 := by
  ext i
  simp only [usableRows, Finset.mem_filter, Finset.mem_range, octS_rowUsable]
  exact ⟨fun h => h.2, fun h => ⟨by simpa [octTn] using h, h⟩⟩

/-- Eight samples of any two sets of values. -/
example (ys ys' : Fin 8 → ℝ) : ∃ c c' r r',
    solve idealEnv octT (octSeries ys) none (some 45) (listOpts ["S2", "S4"] (.str "frequency")) = .ok c ∧
    solve idealEnv octT (octSeries ys') none (some 45) (listOpts ["S2", "S4"] (.str "frequency")) = .ok c' ∧
    reconstruct idealEnv octT.arr c recAll = .ok r ∧ reconstruct idealEnv octT.arr c' recAll = .ok r' ∧
    ∑ i ∈ Finset.range 8, ‖entry r' i - entry r i‖ ^ 2 ≤ ∑ i : Fin 8, (ys' i - ys i) ^ 2 := by
  obtain ⟨c, hc⟩ := octS_returns ys
  obtain ⟨c', hc'⟩ := octS_returns ys'
  obtain ⟨ho, -, -⟩ := octS_opt hc
  have hk := list_kept (octS_ready ys) _ c hc
  have hr := C36_selected idealEnv octT _ none (some 45) _ (octS_ready ys) (someOpts_nodup _ _) c hc hk idealEnv octT.arr recAll
  have hr' := C36_selected idealEnv octT _ none (some 45) _ (octS_ready ys') (someOpts_nodup _ _) c' hc'
    (list_kept (octS_ready ys') _ c' hc') idealEnv octT.arr recAll
  rw [show normalizeTime idealEnv.dt64 octT.arr recAll.epoch = .ok octTn from oct_times] at hr hr'
  have key := C104_contraction idealEnv octT (octSeries ys) (octSeries ys') none none (some 45) _ (octS_ready ys) (octS_ready ys')
    rfl (someOpts_nodup _ _) ⟨_, rfl, .inl rfl⟩ c c' hc hc' hk none (by rw [ho]; rfl) (by simp) octTn (by rw [ho]; exact oct_times)
    (fun i => by
      show UsableRow octTn (sampleValues (octSeries ys').data none) i ↔ UsableRow octTn (sampleValues (octSeries ys).data none) i
      rw [octS_rowUsable, octS_rowUsable])
    recAll (by rw [ho]; rfl) ⟨rfl, rfl, rfl⟩ _ _ hr hr'
  refine ⟨c, c', _, _, hc, hc', hr, hr', ?_⟩
  simp only [Option.map_none] at key
  rw [octS_rows] at key
  refine key.trans (le_of_eq ?_)
  rw [octS_values, octS_values, Finset.sum_range]
  refine Finset.sum_congr rfl fun i _ => ?_
  fin_cases i <;> simp [entry, ← Complex.ofReal_sub, sq_abs]

/-- One of eight samples, of any values, changed by any amount. -/
example (ys : Fin 8 → ℝ) (y : ℝ) : ∃ c c' r r', ∃ q : ℝ,
    solve idealEnv octT (octSeries ys) none (some 45) (listOpts ["S2", "S4"] (.str "frequency")) = .ok c ∧
    solve idealEnv octT (octSeries fun i => if i = 3 then y else ys i) none (some 45)
      (listOpts ["S2", "S4"] (.str "frequency")) = .ok c' ∧
    reconstruct idealEnv octT.arr c recAll = .ok r ∧ reconstruct idealEnv octT.arr c' recAll = .ok r' ∧
    0 ≤ q ∧ q ≤ 1 ∧ entry r' 3 - entry r 3 = q * (y - ys 3) := by
  obtain ⟨c, hc⟩ := octS_returns ys
  obtain ⟨c', hc'⟩ := octS_returns fun i => if i = 3 then y else ys i
  obtain ⟨ho, -, -⟩ := octS_opt hc
  have hk := list_kept (octS_ready ys) _ c hc
  have hr := C36_selected idealEnv octT _ none (some 45) _ (octS_ready ys) (someOpts_nodup _ _) c hc hk idealEnv octT.arr recAll
  have hr' := C36_selected idealEnv octT _ none (some 45) _ (octS_ready _) (someOpts_nodup _ _) c' hc'
    (list_kept (octS_ready _) _ c' hc') idealEnv octT.arr recAll
  rw [show normalizeTime idealEnv.dt64 octT.arr recAll.epoch = .ok octTn from oct_times] at hr hr'
  obtain ⟨q, h0, h1, h2, -⟩ := C104_single idealEnv octT (octSeries ys) (octSeries fun i => if i = 3 then y else ys i) none none
    (some 45) _ (octS_ready ys) (octS_ready _)
    rfl (someOpts_nodup _ _) ⟨_, rfl, .inl rfl⟩ c c' hc hc' hk none (by rw [ho]; rfl) (by simp) octTn (by rw [ho]; exact oct_times)
    (fun i => by
      show UsableRow octTn (sampleValues (octSeries _).data none) i ↔ UsableRow octTn (sampleValues (octSeries ys).data none) i
      rw [octS_rowUsable, octS_rowUsable]) 3 ((octS_rowUsable ys 3).2 (by norm_num))
    (fun i hi => by
      show entry (sampleValues (octSeries _).data none) i = entry (sampleValues (octSeries ys).data none) i
      rw [octS_values, octS_values]
      match i with
      | 0 | 1 | 2 | 4 | 5 | 6 | 7 => rfl
      | 3 => exact absurd rfl hi
      | n + 8 => rfl)
    recAll (by rw [ho]; rfl) ⟨rfl, rfl, rfl⟩ _ _ hr hr'
  refine ⟨c, c', _, _, q, hc, hc', hr, hr', h0, h1, ?_⟩
  rw [h2]
  simp only [Option.map_none]
  rw [octS_values, octS_values]
  simp [entry]

end

end UTide.Props
