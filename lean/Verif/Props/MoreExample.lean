import Verif.Props.MoreData
import Verif.Props.EnergyExample
import Verif.Props.RepeatExample

/-!
# Cases of C135
-/

namespace UTide.Props

noncomputable section

open Classical

local notation "conj" => starRingEnd ℂ

/-- Five samples of any values, and the same given twice. -/
example (y0 y1 y2 y3 y4 : ℝ) : ∃ c c', solve idealEnv pentT (pentSeries y0 y1 y2 y3 y4) none (some 45) (ciOpts "linear" true) = .ok c ∧
    solve idealEnv decT (decSeries y0 y1 y2 y3 y4) none (some 45) (ciOpts "linear" true) = .ok c' ∧
    NoWider c pentTn (pentSeries y0 y1 y2 y3 y4) 0 c' decTn (decSeries y0 y1 y2 y3 y4) 0 := by
  obtain ⟨c, Q, -⟩ := pent_ci y0 y1 y2 y3 y4 none (.inl rfl) true
  obtain ⟨c', Q'⟩ := dec_run y0 y1 y2 y3 y4
  refine ⟨c, c', Q.returned, Q'.returned, C135_more_samples (pent_ready y0 y1 y2 y3 y4 none (.inl rfl)) (dec_ready y0 y1 y2 y3 y4)
    idealNum_ok.inv
    ⟨Q.returned, by decide, ⟨.str "ols", rfl, .inl rfl⟩, by rw [Q.opt]; rfl, by rw [Q.opt]; rfl, by rw [Q.opt]; rfl,
      by rw [Q.opt]; rfl, Q.kept, by rw [Q.opt]; exact pent_times⟩
    ⟨Q'.returned, by decide, ⟨.str "ols", rfl, .inl rfl⟩, by rw [Q'.opt]; rfl, by rw [Q'.opt]; rfl, by rw [Q'.opt]; rfl,
      by rw [Q'.opt]; rfl, Q'.kept, by rw [Q'.opt]; exact dec_times⟩ ?_
    (by rw [Q.name, Q'.name]) (by rw [Q.reftime, Q'.reftime]) 0 0 "M2" (by rw [Q.name]; rfl) (by rw [Q'.name]; rfl)⟩
  have h := dec_rows y0 y1 y2 y3 y4
  unfold RepeatedRows at h
  refine ⟨pentTn.zip (sampleValues (pentSeries y0 y1 y2 y3 y4).data none), h.trans (List.Perm.of_eq ?_)⟩
  simp [List.replicate]

/-- Eight samples analysed for S2 alone. -/
theorem octS_white_S2 (ys : Fin 8 → ℝ) : ∃ c, WhiteRun idealEnv octT (octSeries ys) none (some 45) (listCiOpts ["S2"]) c octTn ∧
    c.name = ["S2"] ∧ c.opt = listCiOpt false ["S2"] ∧ c.reftime = 7 / 32 := by
  have R := octS_ready ys
  obtain ⟨c, hc⟩ : ∃ c, solve idealEnv octT (octSeries ys) none (some 45) (listOpts ["S2"] (.str "frequency")) = .ok c := by
    have := list_returns idealEnv octTn [] (octSeries ys).data (by simp [octTn, octSeries]) ["S2"] (by simpa using S2_known)
      (by intro h; have := octS_usable ys; rw [h] at this; simp [octTimes] at this)
    simpa [octT, octTn, octSeries] using this
  have ho : c.opt = listOpt false ["S2"] (.str "frequency") := by
    obtain ⟨opt, p, tn, constit, m, W, rf, full, o, ind, F⟩ := solve_facts R hc
    rw [F.copt]
    exact Except.ok.inj (F.hopt.symm.trans (listOpt_frequency false _))
  have hn : c.name = ["S2"] := List.perm_singleton.1 ((C17_honoured idealEnv octT (octSeries ys) none (some 45) _ R
    (someOpts_nodup _ _) .list (by simp) _ rfl rfl _ rfl c hc).1 (.inr ⟨_, rfl⟩))
  have hf : c.frq = [1 / 12] := by
    rw [frq_of_name hc, hn]
    simp only [List.map_cons, List.map_nil, idx_S2, freq_S2]
  have hsep := C101_separated R (someOpts_nodup _ _) hc (list_steady _ _) (list_notVanishing _ _ _) (by rw [hf]; simp)
    (by rw [hf]; simp) (1 / 16) (by norm_num) (by rw [hf]; norm_num) _
    (show RegularStretch c (SampleTime octTn (octSeries ys).data none) (1 / 16) from ⟨0, fun j hj => by
      rw [hn, ho] at hj
      have hj' : j < 3 := hj
      refine ⟨j, ((ys ⟨j, by omega⟩ : ℝ) : ℂ), ?_, ?_⟩ <;> interval_cases j <;>
        simp [octTn, octSeries, sampleValues, Cell.value?, Fl.toReal?, List.ofFn_succ] <;> norm_num⟩) none false
  have hts : sampleTimes octTn (octSeries ys) none = octTimes := octS_usable ys
  obtain ⟨c', hc'⟩ := C72_available (opts' := listCiOpts ["S2"]) R idealNum_ok.inv idealNum_ok.mvn (someOpts_nodup _ _)
    (listCi_nodup _) (by
      intro k hk
      simp only [intervalKeys, List.mem_cons, List.not_mem_nil, or_false, not_or] at hk
      obtain ⟨k1, k2, k3, k4⟩ := hk
      have b1 : (("conf_int" : String) == k) = false := by simpa using Ne.symm k1
      have b2 : (("white" : String) == k) = false := by simpa using Ne.symm k2
      simp only [requested, someOpts, listCiOpts, List.find?, b1, b2]) ⟨_, rfl, .inl rfl⟩ hc
    (by rw [ho]; rfl) (list_kept R _ c hc) (by rw [ho]; exact oct_times) ⟨hsep, by
      rw [hts]
      unfold numPar
      rw [hn, ho]
      simp [octTimes, someOpt, exOpt]⟩ _ (listCi_opt false _) rfl (.inl rfl)
  have ho' : c'.opt = listCiOpt false ["S2"] := by
    obtain ⟨opt, p, tn, constit, m, W, rf, full, o, ind, F⟩ := solve_facts R hc'
    rw [F.copt]
    exact Except.ok.inj (F.hopt.symm.trans (listCi_opt false _))
  have hn' : c'.name = ["S2"] := List.perm_singleton.1
    ((C17_honoured idealEnv octT _ none (some 45) _ R (listCi_nodup _) .list (by simp) _ rfl rfl _ rfl c' hc').1 (.inr ⟨_, rfl⟩))
  refine ⟨c', ⟨hc', listCi_nodup _, ⟨_, rfl, .inl rfl⟩, by rw [ho']; rfl, by rw [ho']; rfl, by rw [ho']; rfl, by rw [ho']; rfl, ?_,
    by rw [ho']; exact oct_times⟩, hn', ho', octS_reftime hc' (by rw [ho']; rfl)⟩
  left; right; left; left
  rw [ho']
  rfl

/-- A spike analysed for S2 and S4, and for S2 alone: the amplitude of S2 is not zero, its interval per unit of noise at
least as wide. -/
example : ∃ (c c' : Coef) (i : ℕ) (x x' s2 s2' : ℝ) (ci ci' : CiArr) (r r' : Ci1) (e e' : Ell),
    WhiteRun idealEnv octT (octSeries spike) none (some 45) (listCiOpts ["S2"]) c octTn ∧
    WhiteRun idealEnv octT (octSeries spike) none (some 45) (listCiOpts ["S2", "S4"]) c' octTn ∧
    c.name[0]? = some "S2" ∧ c'.name[i]? = some "S2" ∧ c.ci = some ci ∧ c'.ci = some ci' ∧ intervalAt ci 0 = some r ∧
    intervalAt ci' i = some r' ∧ ellipseAt c.ell 0 = some e ∧ ellipseAt c'.ell i = some e' ∧
    NoiseVariance c (sampleTimes octTn (octSeries spike) none) (sampleU octTn (octSeries spike) none) s2 ∧
    NoiseVariance c' (sampleTimes octTn (octSeries spike) none) (sampleU octTn (octSeries spike) none) s2' ∧
    ErrorSq e.Lsmaj r x ∧ ErrorSq e'.Lsmaj r' x' ∧ x * s2' ≤ x' * s2 := by
  have R := octS_ready spike
  obtain ⟨c, H, hn, ho, hr⟩ := octS_white_S2 spike
  obtain ⟨c', H', hn', hA'⟩ := octS_white spike
  have hm' : "S2" ∈ c'.name := hn'.mem_iff.2 (by simp)
  obtain ⟨i, hi⟩ := List.getElem?_of_mem hm'
  have hO' : c'.opt = listCiOpt false ["S2", "S4"] := by
    obtain ⟨opt, p, tn, constit, m, W, rf, full, o, ind, F⟩ := solve_facts R H'.returned
    rw [F.copt]
    exact Except.ok.inj (F.hopt.symm.trans (listCi_opt false _))
  have hr' := octS_reftime H'.returned (by rw [hO']; rfl)
  have hlat : c'.lat = c.lat := by
    obtain ⟨opt, p, tn, constit, m, W, rf, full, o, ind, F⟩ := solve_facts R H.returned
    obtain ⟨opt', p', tn', constit', m', W', rf', full', o', ind', F'⟩ := solve_facts R H'.returned
    rw [F.clat, F'.clat, Option.some.inj (F'.prep.init.hlat.symm.trans F.prep.init.hlat)]
  have hh : ∀ n τ, harmonic c n τ = harmonic c' n τ := by
    intro n τ
    unfold harmonic
    rw [hr, hr', hlat, ho, hO']
    rfl
  have A' := hA' _ hm'
  have A : AveragesOut c octTn (octSeries spike) none "S2" 8 := by
    obtain ⟨⟨b1, b2, b3, b4⟩, b5, b6, b7⟩ := A'
    refine ⟨⟨?_, ?_, ?_, ?_⟩, ?_, ?_, b7⟩
    · simp only [hh]; exact b1
    · intro h; rw [ho] at h; cases h
    · intro k hk
      have hk' := List.mem_filter.1 hk
      rw [hn] at hk'
      simp at hk'
    · intro k hk
      have hk' := List.mem_filter.1 hk
      rw [hn] at hk'
      simp at hk'
    · simp only [hh]; exact b5
    · simp only [hh]; exact b6
  have nz : ∀ {c : Coef} {ns : List String} {i : ℕ} {e : Ell},
      WhiteRun idealEnv octT (octSeries spike) none (some 45) (listCiOpts ns) c octTn → c.name.Nodup →
      c.name[i]? = some "S2" → AveragesOut c octTn (octSeries spike) none "S2" 8 → ellipseAt c.ell i = some e →
      e.Lsmaj ≠ 0 := by
    intro c ns i e H hd hi A he h0
    have hm := List.mem_of_getElem? hi
    have hO : OlsRun idealEnv (some 45) (listCiOpts ns) none octT (octSeries spike) none octTn c :=
      ⟨R, H.keys, H.ols, H.returned, H.kept, H.infer, by simp, H.time, hd⟩
    obtain ⟨e', he', hcc, -⟩ := C127_average hO hi A
    rw [he] at he'
    cases he'
    rw [show Option.map Series.data none = none from rfl, spike_usable] at hcc
    simp only [List.map_cons, List.map_nil, List.sum_cons, List.sum_nil, mul_zero, add_zero, mul_one] at hcc
    have hne : harmonic c "S2" 0 ≠ 0 := by
      intro h0
      have := norm_harmonic_off H.keys H.returned R rfl "S2" hm 0
      rw [h0, norm_zero] at this
      exact zero_ne_one this
    have hne : ccw e ≠ 0 := by
      rw [hcc]
      exact mul_ne_zero (by norm_num) ((map_ne_zero _).2 hne)
    apply hne
    have hx := hO.normal.1 i "S2" e hi he
    simp only [Option.isSome_none, Bool.false_eq_true, if_false] at hx
    have h1 : e.Lsmin = 0 := by rw [hx]; rfl
    unfold ccw
    rw [h0, h1]
    simp
  have hd : c.name.Nodup := by rw [hn]; simp
  have hd' : c'.name.Nodup := hn'.nodup_iff.2 (by simp)
  have h0 : c.name[0]? = some "S2" := by rw [hn]; rfl
  obtain ⟨ci', ci, r', r, e', e, s2', s2, a1, a2, a3, a4, a5, a6, a7, a8, a9⟩ := C135_more_constituents R idealNum_ok.inv H H'
    hd hd' (by intro n h; rw [hn] at h; rw [List.mem_singleton.1 h]; exact hm') (by
      intro k hk
      simp only [List.mem_cons, List.not_mem_nil, or_false] at hk
      rcases hk with rfl | rfl | rfl <;> rfl) (fun _ => by rw [ho]; rfl) 0 i "S2" h0 hi
  obtain ⟨x', x, g1, g2, g3⟩ := a9 (nz H' hd' hi A' a5) (nz H hd h0 A a6)
  exact ⟨c, c', i, x, x', s2, s2', ci, ci', r, r', e, e', H, H', h0, hi, a2, a1, a4, a3, a6, a5, a8, a7, g2, g1, g3⟩

end

end UTide.Props
