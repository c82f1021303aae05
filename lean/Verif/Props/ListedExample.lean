import Verif.Props.ListedProps
import Verif.Props.NyquistExample

/-!
# A case of C131: S2 listed twice
-/

namespace UTide.Props

noncomputable section

open Classical

theorem S2S2S4_known : ∀ n ∈ ["S2", "S4", "S2"], n ∈ constitNames := fun n hn => by
  simp only [List.mem_cons, List.not_mem_nil, or_false] at hn
  rcases hn with rfl | rfl | rfl
  exacts [S2S4_known _ (by simp), S2S4_known _ (by simp), S2S4_known _ (by simp)]

/-- Whatever the eight values: listed twice, S2 comes back in two rows with half the amplitude each; S4 is unchanged. -/
example (ys : Fin 8 → ℝ) : ∃ c c',
    solve idealEnv octT (octSeries ys) none (some 45) (listOpts ["S2", "S4", "S2"] (.str "frequency")) = .ok c ∧
    solve idealEnv octT (octSeries ys) none (some 45) (listOpts ["S2", "S4"] (.str "frequency")) = .ok c' ∧
    c.name.Perm ["S2", "S4", "S2"] ∧
    (∀ i j, c.name[i]? = some "S2" → c'.name[j]? = some "S2" →
      ∃ e, ellipseAt c.ell i = some e ∧ ellipseAt c'.ell j = some ⟨2 * e.Lsmaj, 2 * e.Lsmin, e.theta, e.g⟩) ∧
    (∀ i j, c.name[i]? = some "S4" → c'.name[j]? = some "S4" → ellipseAt c.ell i = ellipseAt c'.ell j) ∧
    reconstruct idealEnv octT.arr c recAll = reconstruct idealEnv octT.arr c' recAll := by
  have R := octS_ready ys
  obtain ⟨c', hc'⟩ := octS_returns ys
  obtain ⟨ho, hn, -⟩ := octS_opt hc'
  obtain ⟨h1, h2, h3⟩ := S2S4_nyquist (S2S4_frq hc' hn)
  have hsep := C101_separated R (someOpts_nodup _ _) hc' (list_steady _ _) (list_notVanishing _ _ _) h1 h2 (1 / 16)
    (by norm_num) h3 _ (octS_stretch (ys := ys) hn ho) none false
  obtain ⟨c, hc⟩ : ∃ c, solve idealEnv octT (octSeries ys) none (some 45) (listOpts ["S2", "S4", "S2"] (.str "frequency")) = .ok c := by
    have := list_returns idealEnv octTn [] (octSeries ys).data (by simp [octTn, octSeries]) ["S2", "S4", "S2"] S2S2S4_known
      (by intro h; have := octS_usable ys; rw [h] at this; simp [octTimes] at this)
    simpa [octT, octTn, octSeries] using this
  have hp := (C17_honoured idealEnv octT (octSeries ys) none (some 45) _ R (someOpts_nodup _ _) .list (by simp) _ rfl rfl _ rfl c hc).1
    (.inr ⟨_, rfl⟩)
  obtain ⟨k1, -, k3⟩ := C131_shared idealEnv octT (octSeries ys) none (some 45) _ _ R (someOpts_nodup _ _) (someOpts_nodup _ _)
    ⟨_, rfl, .inl rfl⟩ ⟨_, rfl, .inl rfl⟩ c c' hc hc' (list_kept R _ c hc) (list_kept R _ c' hc')
    (fun n => by rw [hn.mem_iff, hp.mem_iff]; simp only [List.mem_cons, List.not_mem_nil, or_false]; tauto)
    (fun k hk => by
      simp only [List.mem_cons, List.not_mem_nil, or_false] at hk
      rcases hk with rfl | rfl | rfl | rfl | rfl <;> rfl)
    (by rw [ho]; rfl) octTn (by rw [ho]; exact oct_times) hsep
  have n2 : Coef.times c "S2" = 2 := by unfold Coef.times; rw [hp.count_eq]; decide
  have n4 : Coef.times c "S4" = 1 := by unfold Coef.times; rw [hp.count_eq]; decide
  refine ⟨c, c', hc, hc', hp, fun i j hi hj => ?_, fun i j hi hj => ?_, k3 recAll _ _ ⟨rfl, rfl, rfl⟩⟩
  · obtain ⟨e, h1, h2⟩ := k1 i j _ hi hj
    rw [n2] at h2
    exact ⟨e, h1, h2⟩
  · obtain ⟨e, h1, h2⟩ := k1 i j _ hi hj
    rw [n4] at h2
    rw [h1, h2]
    simp [Ell.times]

end

end UTide.Props
