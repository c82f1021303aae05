import Verif.Props.QuadExample
import Verif.Props.SuperProps

/-!
# Cases that meet the hypotheses of C76 - C78
-/

namespace UTide.Props

noncomputable section

open Classical

local notation "conj" => starRingEnd ℂ

theorem quad_run (a b c d : ℝ) (v : Option Series) (hv : v = none ∨ ∃ a b c d, v = some (quadSeries a b c d)) :
    ∃ co, solve idealEnv quadT (quadSeries a b c d) v (some 45) exOpts = .ok co ∧ DayRun v co := by
  have R := quad_ready a b c d v hv
  have hus := quad_usable a b c d v hv
  have hret : ∃ co, solve idealEnv quadT (quadSeries a b c d) v (some 45) exOpts = .ok co := by
    refine solve_total idealEnv _ _ v 45 exOpts (exOpt v.isSome) quadTn (.names ["M2"]) .frequency
      (exOpt_eq _) rfl rfl rfl rfl rfl ⟨by simpa using M2_known, .inl (by simp)⟩ rfl (.inr rfl) ⟨rfl, rfl, ?_⟩ R.ht R.hu
      R.hv quad_times ?_ (fun k => by simp [nodalSingular, exOpt]) (fun h => by simp [exOpt] at h)
    · rintro w rfl
      rcases hv with h | ⟨d, e, f, g, h⟩
      · cases h
      · cases h; rfl
    · intro h0
      rw [h0] at hus
      simp at hus
  obtain ⟨co, hc⟩ := hret
  refine ⟨co, hc, ?_⟩
  obtain ⟨opt, p, tn, constit, m, W, rf, full, o, ind, F⟩ := solve_facts R hc
  have hopt : opt = exOpt v.isSome := Except.ok.inj (F.hopt.symm.trans (exOpt_eq _))
  subst hopt
  have htn : tn = quadTn := Except.ok.inj (F.prep.init.time.symm.trans quad_times)
  subst htn
  have hco := F.copt
  refine ⟨hco, ?_, ?_, ?_, ?_⟩
  · left; right; left; left; rw [hco]; rfl
  · rw [F.creftime]
    obtain ⟨-, -, -, -, h5⟩ := editData_usable _ _ _ (F.samples R).1 _ F.prep.init.edit
    have e1 : finiteTimes quadTn = [0, 0.5, 1, 1] := by simp [finiteTimes, Fl.toReal?, quadTn]
    rw [e1, hus] at h5
    unfold timeStats at h5
    by_cases he : isEqui [0, 0.5, 1, 1]
    · simp only [he, if_true] at h5
      have h6 := congrArg Prod.fst (Except.ok.inj h5)
      exact h6.symm.trans (by show (0.5 : ℝ) * (0 + 1) = 0.5; norm_num)
    · simp only [he] at h5
      have h6 := congrArg Prod.fst (Except.ok.inj h5)
      exact h6.symm.trans (by show (0.5 : ℝ) * (0 + 1) = 0.5; norm_num)
  · rw [F.clat]
    exact (Option.some.inj F.prep.init.hlat).symm
  · exact List.perm_singleton.1 ((C17_honoured idealEnv quadT _ v (some 45) exOpts R
      (by decide) .list (by simp) ["M2"] rfl rfl (.str "frequency") rfl co hc).1 (.inr ⟨_, rfl⟩))

/-- The curve fitted to four samples, two of them at the same time, at the sample times. -/
theorem quad_reconstruct (a b c d : ℝ) {co : Coef}
    (h : solve idealEnv quadT (quadSeries a b c d) none (some 45) exOpts = .ok co) (D : DayRun none co) :
    ∃ z0 z1 z2 : ℝ, reconstruct idealEnv quadT.arr co recAll =
      .ok [some (z0 : ℂ), some (z1 : ℂ), some (z2 : ℂ), some (z2 : ℂ)] := by
  have R := quad_ready a b c d none (.inl rfl)
  obtain ⟨p, constit, m, W, rf, full, o, ind, F, hols, hinf, hex⟩ := run_facts R (by decide) ⟨_, rfl, .inl rfl⟩ h none
    (by rw [D.opt]; rfl) (by simp) quadTn (by rw [D.opt]; exact quad_times)
  have ht : p.ed.t = [0, 0.5, 1, 1] := by rw [(F.samples R).2.1]; exact quad_usable a b c d none (.inl rfl)
  have hc : ∀ τ ∈ p.ed.t, curve full (List.range p.sel.lind.length) τ = (((dot (rowAt p τ) m).re : ℝ) : ℂ) := by
    intro τ hτ
    rw [F.curve_full (by decide) hex τ hτ]; rfl
  refine ⟨(dot (rowAt p 0) m).re, (dot (rowAt p 0.5) m).re, (dot (rowAt p 1) m).re, ?_⟩
  rw [F.reconstruct_all R (by decide) D.kept recAll ⟨rfl, rfl, rfl⟩]
  have : normalizeTime idealEnv.dt64 quadT.arr recAll.epoch = .ok quadTn := quad_times
  rw [this, ← hc 0 (by rw [ht]; simp), ← hc 0.5 (by rw [ht]; simp), ← hc 1 (by rw [ht]; simp)]
  rfl

/-! ## C76 -/

/-- `(4, 1, 3) = (1, 0, 2) + (3, 1, 1)`. -/
example : ∃ c c' c'' e e' e'', solve idealEnv dayT (daySeries 1 0 2) none (some 45) exOpts = .ok c ∧
    solve idealEnv dayT (daySeries 3 1 1) none (some 45) exOpts = .ok c' ∧
    solve idealEnv dayT (daySeries 4 1 3) none (some 45) exOpts = .ok c'' ∧
    ellipseAt c.ell 0 = some e ∧ ellipseAt c'.ell 0 = some e' ∧ ellipseAt c''.ell 0 = some e'' ∧
    e''.Lsmaj * Real.cos (e''.g * (Real.pi / 180)) =
      e.Lsmaj * Real.cos (e.g * (Real.pi / 180)) + e'.Lsmaj * Real.cos (e'.g * (Real.pi / 180)) ∧
    c''.mean = addMean c.mean c'.mean := by
  obtain ⟨c, hc, D⟩ := day_run 1 0 2 none (.inl rfl)
  obtain ⟨c', hc', D'⟩ := day_run 3 1 1 none (.inl rfl)
  obtain ⟨c'', hc'', D''⟩ := day_run 4 1 3 none (.inl rfl)
  have hs : Superposed [.fin 0, .fin 0.5, .fin 1] (daySeries 1 0 2) none (daySeries 3 1 1) none (daySeries 4 1 3) none := by
    intro i τ hτ
    right
    match i with
    | 0 => exact ⟨(1 : ℝ), (3 : ℝ), rfl, rfl, by norm_num [sampleValues, daySeries, Cell.value?, Fl.toReal?]⟩
    | 1 => exact ⟨(0 : ℝ), (1 : ℝ), rfl, rfl, by norm_num [sampleValues, daySeries, Cell.value?, Fl.toReal?]⟩
    | 2 => exact ⟨(2 : ℝ), (1 : ℝ), rfl, rfl, by norm_num [sampleValues, daySeries, Cell.value?, Fl.toReal?]⟩
    | i + 3 => simp at hτ
  have hR := fun a b c => day_ready a b c none (.inl rfl)
  obtain ⟨-, -, hmean, -⟩ := C76_superposition idealEnv dayT _ _ _ none none none (some 45) exOpts (hR _ _ _) (hR _ _ _)
    (hR _ _ _) rfl rfl (by decide) ⟨_, rfl, .inl rfl⟩ c c' c'' hc hc' hc'' D.kept (by rw [D.name]; simp) _
    (by rw [D.opt]; exact day_times) hs
  obtain ⟨e, e', e'', h1, h2, h3, h4, -⟩ := C76_scalar idealEnv dayT _ _ _ (some 45) exOpts (hR _ _ _) (hR _ _ _)
    (hR _ _ _) (by decide) ⟨_, rfl, .inl rfl⟩ c c' c'' hc hc' hc'' D.kept (by rw [D.name]; simp) _
    (by rw [D.opt]; exact day_times) hs 0 0 0 "M2" (by rw [D.name]; rfl) (by rw [D'.name]; rfl) (by rw [D''.name]; rfl)
  exact ⟨c, c', c'', e, e', e'', hc, hc', hc'', h1, h2, h3, h4, hmean⟩

/-! ## C77 -/

/-- Times 0, 0.5, 1 and 1, samples 0, 0, 0 and 2: the residual has no tide and no mean. -/
example : ∃ (c c' : Coef) (z0 z1 z2 : ℝ) (e : Ell),
    solve idealEnv quadT (quadSeries 0 0 0 2) none (some 45) exOpts = .ok c ∧
    reconstruct idealEnv quadT.arr c recAll = .ok [some (z0 : ℂ), some (z1 : ℂ), some (z2 : ℂ), some (z2 : ℂ)] ∧
    solve idealEnv quadT (quadSeries (0 - z0) (0 - z1) (0 - z2) (2 - z2)) none (some 45) exOpts = .ok c' ∧
    c'.mean = .one 0 none ∧ ellipseAt c'.ell 0 = some e ∧ e.Lsmaj = 0 := by
  obtain ⟨c, hc, D⟩ := quad_run 0 0 0 2 none (.inl rfl)
  obtain ⟨z0, z1, z2, hr⟩ := quad_reconstruct 0 0 0 2 hc D
  obtain ⟨c', hc', D'⟩ := quad_run (0 - z0) (0 - z1) (0 - z2) (2 - z2) none (.inl rfl)
  have hR := fun a b c d => quad_ready a b c d none (.inl rfl)
  obtain ⟨-, h1, h2⟩ := C77_detided idealEnv quadT _ _ none none (some 45) exOpts (hR _ _ _ _) (hR _ _ _ _) rfl
    (by decide) ⟨_, rfl, .inl rfl⟩ c c' hc hc' D.kept none (by rw [D.opt]; rfl) (by simp) quadTn
    (by rw [D.opt]; exact quad_times) recAll (by rw [D.opt]; rfl) ⟨rfl, rfl, rfl⟩ _ hr (by
      intro i τ z hτ hz
      match i with
      | 0 => rw [← Option.some.inj (Option.some.inj hz)]; simp [sampleValues, quadSeries, Cell.value?, Fl.toReal?]
      | 1 => rw [← Option.some.inj (Option.some.inj hz)]; simp [sampleValues, quadSeries, Cell.value?, Fl.toReal?]
      | 2 => rw [← Option.some.inj (Option.some.inj hz)]; simp [sampleValues, quadSeries, Cell.value?, Fl.toReal?]
      | 3 => rw [← Option.some.inj (Option.some.inj hz)]; simp [sampleValues, quadSeries, Cell.value?, Fl.toReal?]
      | i + 4 => simp at hz)
  obtain ⟨e, he, h3, -⟩ := h2 0 "M2" (by rw [D'.name]; rfl)
  exact ⟨c, c', z0, z1, z2, e, hc, hr, hc', by rw [h1, D.opt]; rfl, he, h3⟩

/-- The fitted curve in place of the samples gives the same result. -/
example : ∃ (c c' : Coef) (z0 z1 z2 : ℝ),
    solve idealEnv quadT (quadSeries 0 0 0 2) none (some 45) exOpts = .ok c ∧
    reconstruct idealEnv quadT.arr c recAll = .ok [some (z0 : ℂ), some (z1 : ℂ), some (z2 : ℂ), some (z2 : ℂ)] ∧
    solve idealEnv quadT (quadSeries z0 z1 z2 z2) none (some 45) exOpts = .ok c' ∧
    c'.mean = c.mean ∧ c'.ell = c.ell := by
  obtain ⟨c, hc, D⟩ := quad_run 0 0 0 2 none (.inl rfl)
  obtain ⟨z0, z1, z2, hr⟩ := quad_reconstruct 0 0 0 2 hc D
  obtain ⟨c', hc', D'⟩ := quad_run z0 z1 z2 z2 none (.inl rfl)
  have hR := fun a b c d => quad_ready a b c d none (.inl rfl)
  obtain ⟨-, h1, -, h2⟩ := C77_idempotent idealEnv quadT _ _ none none (some 45) exOpts (hR _ _ _ _) (hR _ _ _ _) rfl
    (by decide) ⟨_, rfl, .inl rfl⟩ c c' hc hc' D.kept none (by rw [D.opt]; rfl) (by simp) quadTn
    (by rw [D.opt]; exact quad_times) recAll (by rw [D.opt]; rfl) ⟨rfl, rfl, rfl⟩ _ hr (by
      intro i τ z hτ hz
      match i with
      | 0 => rw [← Option.some.inj (Option.some.inj hz)]; simp [sampleValues, quadSeries, Cell.value?, Fl.toReal?]
      | 1 => rw [← Option.some.inj (Option.some.inj hz)]; simp [sampleValues, quadSeries, Cell.value?, Fl.toReal?]
      | 2 => rw [← Option.some.inj (Option.some.inj hz)]; simp [sampleValues, quadSeries, Cell.value?, Fl.toReal?]
      | 3 => rw [← Option.some.inj (Option.some.inj hz)]; simp [sampleValues, quadSeries, Cell.value?, Fl.toReal?]
      | i + 4 => simp at hz)
  exact ⟨c, c', z0, z1, z2, hc, hr, hc', h1, (h2 (by rw [D.opt]; exact not_snr _)).2.2.2.2⟩

/-! ## C78 -/

/-- The four residuals add up to zero, and the squares 0, 0, 0 and 4 are shared by curve and residuals. -/
example : ∃ (c : Coef) (z0 z1 z2 : ℝ),
    solve idealEnv quadT (quadSeries 0 0 0 2) none (some 45) exOpts = .ok c ∧
    reconstruct idealEnv quadT.arr c recAll = .ok [some (z0 : ℂ), some (z1 : ℂ), some (z2 : ℂ), some (z2 : ℂ)] ∧
    (0 - z0) + (0 - z1) + (0 - z2) + (2 - z2) = 0 ∧
    4 = z0 ^ 2 + z1 ^ 2 + z2 ^ 2 + z2 ^ 2 + (z0 ^ 2 + z1 ^ 2 + z2 ^ 2 + (2 - z2) ^ 2) := by
  obtain ⟨c, hc, D⟩ := quad_run 0 0 0 2 none (.inl rfl)
  obtain ⟨z0, z1, z2, hr⟩ := quad_reconstruct 0 0 0 2 hc D
  have R := quad_ready 0 0 0 2 none (.inl rfl)
  obtain ⟨h1, -, -⟩ := C78_nothing_left idealEnv quadT _ none (some 45) exOpts R
    (by decide) ⟨_, rfl, .inl rfl⟩ c hc D.kept none (by rw [D.opt]; rfl) (by simp) quadTn
    (by rw [D.opt]; exact quad_times) recAll (by rw [D.opt]; rfl) ⟨rfl, rfl, rfl⟩ _ hr
  have h2 := C78_energy idealEnv quadT _ none (some 45) exOpts R
    (by decide) ⟨_, rfl, .inl rfl⟩ c hc D.kept none (by rw [D.opt]; rfl) (by simp) quadTn
    (by rw [D.opt]; exact quad_times) recAll (by rw [D.opt]; rfl) ⟨rfl, rfl, rfl⟩ _ hr
  refine ⟨c, z0, z1, z2, hc, hr, ?_, ?_⟩
  · have h3 : (((0 - z0) + (0 - z1) + (0 - z2) + (2 - z2) : ℝ) : ℂ) = 0 := by
      rw [← h1]
      simp [sampleSum, sampleValues, quadSeries, quadTn, Cell.value?, Fl.toReal?]
      ring
    exact_mod_cast h3
  · have key : ∀ x : ℝ, ‖(x : ℂ)‖ ^ 2 = x ^ 2 := by intro x; rw [Complex.norm_real, Real.norm_eq_abs, sq_abs]
    have key2 : ∀ x y : ℝ, ‖(x : ℂ) - (y : ℂ)‖ ^ 2 = (x - y) ^ 2 := by
      intro x y; rw [← Complex.ofReal_sub, key]
    simp only [sampleSum, sampleValues, quadSeries, quadTn, Cell.value?, Fl.toReal?, List.map_cons, List.map_nil,
      List.zip_cons_cons, List.zip_nil_left, List.zipWith_cons_cons, List.zipWith_nil_left, List.sum_cons, List.sum_nil,
      Option.map_some, Option.map_none, key, key2, Bool.false_eq_true, if_false] at h2
    nlinarith

end

end UTide.Props
