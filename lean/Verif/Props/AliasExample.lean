import Verif.Props.AliasProps
import Verif.Props.NyquistExample

/-!
# A case of C132: S2 and S4 at two samples per day
-/

namespace UTide.Props

noncomputable section

open Classical

/-- Noon and midnight. -/
theorem noon_grid (a b d : ℝ) (τ : ℝ) (hτ : SampleTime [.fin 0, .fin 0.5, .fin 1] (daySeries a b d).data none τ) :
    ∃ j : ℤ, τ = 0 + j * (1 / 2) := by
  obtain ⟨i, x, h1, h2⟩ := hτ
  rcases i with _ | _ | _ | i
  · exact ⟨0, by simpa using h1.symm⟩
  · exact ⟨1, by simp at h1; rw [← h1]; norm_num⟩
  · exact ⟨2, by simp at h1; rw [← h1]; norm_num⟩
  · simp at h1

theorem noon_run (ns : List String) (hns : ∀ n ∈ ns, n ∈ constitNames) (a b d : ℝ) : ∃ c,
    solve idealEnv dayT (daySeries a b d) none (some 45) (listOpts ns (.str "frequency")) = .ok c ∧
    Ready idealEnv dayT (daySeries a b d) none ∧ c.name.Perm ns ∧ c.opt.notrend = true ∧
    readInfer c.opt.infer = .ok none ∧
    normalizeTime idealEnv.dt64 dayT.arr c.opt.epoch = .ok [.fin 0, .fin 0.5, .fin 1] := by
  have hu : (usable [.fin 0, .fin 0.5, .fin 1] (daySeries a b d).data none).map Prod.fst = [0, 0.5, 1] := by
    simp [usable, daySeries, goodSamples, Fl.toReal?, Cell.value?]
  obtain ⟨c, h⟩ := list_returns idealEnv [.fin 0, .fin 0.5, .fin 1] [] (daySeries a b d).data (by simp [daySeries]) ns hns
    (by intro h; rw [h] at hu; simp at hu)
  have h : solve idealEnv dayT (daySeries a b d) none (some 45) (listOpts ns (.str "frequency")) = .ok c := by
    simpa [dayT, daySeries] using h
  have R := day_ready a b d none (.inl rfl)
  obtain ⟨opt, p, tn, constit, m, W, rf, full, o, ind, F⟩ := solve_facts R h
  have ho : c.opt = listOpt false ns (.str "frequency") := by
    rw [F.copt]
    exact Except.ok.inj (F.hopt.symm.trans (listOpt_frequency false _))
  exact ⟨c, h, R, (C17_honoured idealEnv dayT _ none (some 45) _ R (someOpts_nodup _ _) .list (by simp) _ rfl rfl _ rfl c h).1
    (.inr ⟨_, rfl⟩), by rw [ho]; rfl, by rw [ho]; rfl, by rw [ho]; exact day_times⟩

/-- Three values at noon and midnight analysed for S2 alone: a third of their average is reported as mean, and S2 with
twice that amplitude. -/
example (a b d : ℝ) : ∃ c e,
    solve idealEnv dayT (daySeries a b d) none (some 45) (listOpts ["S2"] (.str "frequency")) = .ok c ∧
    ellipseAt c.ell 0 = some e ∧ e.Lsmaj = 2 * |(a + b + d) / 9| ∧ level c c.reftime = (((a + b + d) / 9 : ℝ) : ℂ) := by
  obtain ⟨c, h, R, hn, hnt, hi, htn⟩ := noon_run ["S2"] (by simpa using S2_known) a b d
  have hn1 : c.name = ["S2"] := List.perm_singleton.1 hn
  have hf : c.frq[0]? = some (1 / 12) := by
    rw [frq_of_name h, hn1]
    simp only [List.map_cons, idx_S2, freq_S2]
    rfl
  obtain ⟨⟨e, k1, k2, -, -⟩, k3⟩ := C132_whole idealEnv dayT (daySeries a b d) none (some 45) _ R (someOpts_nodup _ _)
    ⟨_, rfl, .inl rfl⟩ c h (list_kept R _ c h) hi _ htn (list_steady _ _) rfl (1 / 2) 0 (noon_grid a b d) 0 "S2" (1 / 12)
    (by rw [hn1]; rfl) hf 1 (by norm_num)
  have k4 := k3 hn1 hnt
  have hl : level c c.reftime = (((a + b + d) / 9 : ℝ) : ℂ) := by
    simp [samples, sampleValues, daySeries, Fl.toReal?, Cell.value?] at k4
    push_cast
    linear_combination (-1 / 9 : ℂ) * k4
  refine ⟨c, e, h, k1, ?_, hl⟩
  rw [k2, hl, Complex.norm_real, Real.norm_eq_abs]

/-- For S2 and S4: equal amplitudes, twice the mean. -/
example (a b d : ℝ) : ∃ c e e',
    solve idealEnv dayT (daySeries a b d) none (some 45) (listOpts ["S2", "S4"] (.str "frequency")) = .ok c ∧
    ellipseAt c.ell 0 = some e ∧ ellipseAt c.ell 1 = some e' ∧ e'.Lsmaj = e.Lsmaj ∧
    e.Lsmaj = 2 * ‖level c c.reftime‖ := by
  obtain ⟨c, h, R, hn, hnt, hi, htn⟩ := noon_run ["S2", "S4"] S2S4_known a b d
  have hfp := S2S4_frq h hn
  obtain ⟨n, n', hnn⟩ : ∃ n n', c.name = [n, n'] := by
    have := hn.length_eq
    match hc : c.name with
    | [n, n'] => exact ⟨n, n', rfl⟩
    | [] => rw [hc] at this; simp at this
    | [_] => rw [hc] at this; simp at this
    | _ :: _ :: _ :: _ => rw [hc] at this; simp at this
  obtain ⟨f, f', hff⟩ : ∃ n n', c.frq = [n, n'] := by
    have := hfp.length_eq
    match hc : c.frq with
    | [n, n'] => exact ⟨n, n', rfl⟩
    | [] => rw [hc] at this; simp at this
    | [_] => rw [hc] at this; simp at this
    | _ :: _ :: _ :: _ => rw [hc] at this; simp at this
  have hint : ∀ g ∈ c.frq, ∃ q : ℤ, 24 * (1 / 2) * g = q := by
    intro g hg
    have := hfp.mem_iff.1 hg
    simp only [List.mem_cons, List.not_mem_nil, or_false] at this
    rcases this with rfl | rfl
    · exact ⟨1, by norm_num⟩
    · exact ⟨2, by norm_num⟩
  obtain ⟨q, hq⟩ := hint f (by rw [hff]; simp)
  obtain ⟨q', hq'⟩ := hint f' (by rw [hff]; simp)
  obtain ⟨⟨e, k1, k2, -, -⟩, -⟩ := C132_whole idealEnv dayT (daySeries a b d) none (some 45) _ R (someOpts_nodup _ _)
    ⟨_, rfl, .inl rfl⟩ c h (list_kept R _ c h) hi _ htn (list_steady _ _) rfl (1 / 2) 0 (noon_grid a b d) 0 n f
    (by rw [hnn]; rfl) (by rw [hff]; rfl) q hq
  obtain ⟨e₁, e', l1, l2, l3, -, -⟩ := C132_grid idealEnv dayT (daySeries a b d) none (some 45) _ R (someOpts_nodup _ _)
    ⟨_, rfl, .inl rfl⟩ c h (list_kept R _ c h) hi _ htn (list_steady _ _) rfl (1 / 2) 0 (noon_grid a b d) 0 1 n n' f f'
    (by rw [hnn]; rfl) (by rw [hnn]; rfl) (by rw [hff]; rfl) (by rw [hff]; rfl)
    ⟨q - q', .inl (by push_cast; rw [← hq, ← hq']; ring)⟩
  cases Option.some.inj (k1.symm.trans l1)
  exact ⟨c, e, e', h, k1, l2, l3, k2⟩

end

end UTide.Props
