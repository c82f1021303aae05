import Verif.Props.OrthoProps
import Verif.Props.ReduceExample

/-!
# A case of C126
-/

namespace UTide.Props

noncomputable section

open Classical

local notation "conj" => starRingEnd ℂ

theorem octTurn_sums :
    (octTimes.map fun τ : ℝ => octTurn (2 * (32 * τ - 7))).sum = 0 ∧
    (octTimes.map fun τ : ℝ => conj (octTurn (1 * (32 * τ - 7))) * octTurn (2 * (32 * τ - 7))).sum = 0 ∧
    (octTimes.map fun τ : ℝ => octTurn (1 * (32 * τ - 7)) * octTurn (2 * (32 * τ - 7))).sum = 0 := by
  have hn : ∀ x y : ℝ, x = -y → octTurn x = conj (octTurn y) := fun x y h => by rw [h, octTurn_neg]
  have hp : ∀ x y : ℝ, x = y → octTurn x = octTurn y := fun x y h => by rw [h]
  have a0 := hn (32 * 0 - 7) 7 (by norm_num)
  have a1 := hn (32 * (1 / 16) - 7) 5 (by norm_num)
  have a2 := hn (32 * (2 / 16) - 7) 3 (by norm_num)
  have a3 := hn (32 * (3 / 16) - 7) 1 (by norm_num)
  have a4 := hp (32 * (4 / 16) - 7) 1 (by norm_num)
  have a5 := hp (32 * (5 / 16) - 7) 3 (by norm_num)
  have a6 := hp (32 * (6 / 16) - 7) 5 (by norm_num)
  have a7 := hp (32 * (7 / 16) - 7) 7 (by norm_num)
  have e : ∀ τ : ℝ, octTurn (2 * (32 * τ - 7)) = octTurn (32 * τ - 7) ^ 2 := fun τ => by
    have := octTurn_mul 2 (32 * τ - 7); push_cast at this; exact this
  simp only [octTimes, List.map_cons, List.map_nil, List.sum_cons, List.sum_nil, e, one_mul, a0, a1, a2, a3, a4, a5, a6, a7,
    octTurn_one, octTurn_three, octTurn_five, octTurn_seven, Complex.conj_conj]
  refine ⟨?_, ?_, ?_⟩ <;> apply Complex.ext <;> simp [pow_two] <;> ring

/-- Eight samples over half a day, any values: whether S4 is analysed or not makes no difference to S2 and the mean. -/
example (ys : Fin 8 → ℝ) : ∃ c c' i e, solve idealEnv octT (octSeries ys) none (some 45) (listOpts ["S2", "S4"] (.str "frequency")) = .ok c ∧
    solve idealEnv octT (octSeries ys) none (some 45) (listOpts ["S2"] (.str "frequency")) = .ok c' ∧
    c.name[i]? = some "S2" ∧ c'.name = ["S2"] ∧ ellipseAt c.ell i = some e ∧ ellipseAt c'.ell 0 = some e ∧
    ∀ τ, level c' τ = level c τ := by
  have R := octS_ready ys
  obtain ⟨c, hc⟩ := octS_returns ys
  obtain ⟨ho, hn, hr⟩ := octS_opt hc
  obtain ⟨c', hc'⟩ : ∃ c', solve idealEnv octT (octSeries ys) none (some 45) (listOpts ["S2"] (.str "frequency")) = .ok c' := by
    have := list_returns idealEnv octTn [] (octSeries ys).data (by simp [octTn, octSeries]) ["S2"]
      (fun n hn => S2S4_known n (by simp only [List.mem_singleton] at hn; simp [hn]))
      (by intro h; have := octS_usable ys; rw [h] at this; simp [octTimes] at this)
    simpa [octT, octTn, octSeries] using this
  obtain ⟨opt, p, tn, constit, m, W, rf, full, o, ind, F⟩ := solve_facts R hc'
  have ho' : c'.opt = listOpt false ["S2"] (.str "frequency") := by
    rw [F.copt]
    exact Except.ok.inj (F.hopt.symm.trans (listOpt_frequency false _))
  have hn' : c'.name = ["S2"] := List.perm_singleton.1
    ((C17_honoured idealEnv octT _ none (some 45) _ R (someOpts_nodup _ _) .list (by simp) _ rfl rfl _ rfl c' hc').1 (.inr ⟨_, rfl⟩))
  have hf : c'.frq = [1 / 12] := by
    rw [frq_of_name hc', hn']
    simp only [List.map_cons, List.map_nil, idx_S2, freq_S2]
  have hsep : Separated c' none false (SampleTime octTn (octSeries ys).data none) := by
    refine C101_separated R (someOpts_nodup _ _) hc' (list_steady _ _) (list_notVanishing _ _ _) (by rw [hf]; simp)
      (by rw [hf]; simp) (1 / 16) (by norm_num) (by rw [hf]; simp; norm_num) _ ?_ none false
    obtain ⟨t0, h0⟩ := octS_stretch (ys := ys) hn ho
    refine ⟨t0, fun j hj => h0 j ?_⟩
    rw [hn', ho'] at hj
    rw [hn.length_eq, ho]
    have : j < 3 := hj
    show j < 5
    omega
  have H : OlsRun idealEnv (some 45) (listOpts ["S2", "S4"] (.str "frequency")) none octT (octSeries ys) none octTn c :=
    ⟨R, someOpts_nodup _ _, ⟨_, rfl, .inl rfl⟩, hc, list_kept R _ c hc, by rw [ho]; rfl, by simp,
      by rw [ho]; exact oct_times, hn.nodup_iff.2 (by simp)⟩
  have H' : OlsRun idealEnv (some 45) (listOpts ["S2"] (.str "frequency")) none octT (octSeries ys) none octTn c' :=
    ⟨R, someOpts_nodup _ _, ⟨_, rfl, .inl rfl⟩, hc', list_kept R _ c' hc', by rw [ho']; rfl, by simp,
      by rw [ho']; exact oct_times, by rw [hn']; simp⟩
  have h2 : ∀ τ, harmonic c "S2" τ = octTurn (1 * (32 * τ - 7)) := by
    intro τ
    unfold harmonic nameBasis
    rw [idx_S2, hr, oct_utE c.opt.flags (by rw [ho]; exact ⟨rfl, rfl⟩) c.lat τ 56 1 (by rw [freq_S2]; norm_num)]
    simp
  have h4 : ∀ τ, harmonic c "S4" τ = octTurn (2 * (32 * τ - 7)) := by
    intro τ
    unfold harmonic nameBasis
    rw [idx_S4, hr, oct_utE c.opt.flags (by rw [ho]; exact ⟨rfl, rfl⟩) c.lat τ 88 2 (by rw [freq_S4]; norm_num)]
    simp
  obtain ⟨s1, s2, s3⟩ := octTurn_sums
  have hS := C126_uncorrelated H H' (by intro n h; rw [hn', List.mem_singleton] at h; rw [hn.mem_iff]; simp [h])
    (by
      intro k hk
      simp only [List.mem_cons, List.not_mem_nil, or_false] at hk
      rcases hk with rfl | rfl | rfl <;> rfl) (by rw [ho, ho']; rfl) (by
      intro n hnn hne
      have hm := hn.mem_iff.1 hnn
      rw [hn'] at hne
      simp only [List.mem_cons, List.not_mem_nil, or_false] at hm hne
      obtain rfl : n = "S4" := hm.resolve_left hne
      have hts : sampleTimes octTn (octSeries ys) none = octTimes := octS_usable ys
      rw [hn']
      refine ⟨?_, fun h => ?_, fun k hk => ?_, fun k hk => ?_⟩
      · rw [hts]; simp only [h4]; exact s1
      · rw [ho] at h; cases h
      · cases List.mem_singleton.1 hk
        rw [hts]; simp only [h2, h4]; exact s2
      · cases List.mem_singleton.1 hk
        rw [hts]; simp only [h2, h4]; exact s3) hsep
  obtain ⟨i, hi⟩ := List.getElem?_of_mem (hn.mem_iff.2 (show "S2" ∈ ["S2", "S4"] by simp))
  obtain ⟨P, M, mean, slope, -, -, -, hell, -⟩ := H.best
  obtain ⟨e, he, -⟩ := hell i _ hi
  refine ⟨c, c', i, e, hc, hc', hi, hn', he, ?_, hS.level⟩
  rw [hS.ellipse i 0 "S2" hi (by rw [hn']; rfl), he]

end

end UTide.Props
