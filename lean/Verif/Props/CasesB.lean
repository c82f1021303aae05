import Verif.Props.ShuffleExamples
import Verif.Props.BoundProps
import Verif.Props.AvailProps
import Verif.Props.TextbookProps

/-!
# Concrete cases: results of `solve` and `reconstruct`

Each `example` applies the theorem named in its comment to a run that returns; the hypotheses are discharged.
-/

namespace UTide.Props

open Classical

noncomputable section

local notation "conj" => starRingEnd ℂ

theorem vec_day (a b c : ℝ) : some (daySeries a b c) = none ∨ ∃ d e f, some (daySeries a b c) = some (daySeries d e f) :=
  .inr ⟨a, b, c, rfl⟩

/-- `C05_byname`: metres and centimetres, constituent by constituent. -/
example : ∃ c c' e, solve idealEnv dayT (daySeries 1 0 2) none (some 45) exOpts = .ok c ∧
    solve idealEnv dayT (daySeries 100 0 200) none (some 45) exOpts = .ok c' ∧ ellipseAt c.ell 0 = some e ∧
    ellipseAt c'.ell 0 = some ⟨100 * e.Lsmaj, 100 * e.Lsmin, e.theta, e.g⟩ := by
  obtain ⟨c, hc, D⟩ := day_run 1 0 2 none (.inl rfl)
  obtain ⟨c', hc', D'⟩ := day_run 100 0 200 none (.inl rfl)
  obtain ⟨-, -, h⟩ := C05_byname idealEnv dayT _ _ none none (some 45) exOpts (day_ready _ _ _ none (.inl rfl))
    (day_ready _ _ _ none (.inl rfl)) rfl (by decide) ⟨_, rfl, .inl rfl⟩ c c' hc hc' D.kept (by rw [D.name]; simp) _
    (by rw [D.opt]; exact day_times) 100 (by norm_num)
    (transformed_day _ _ _ _ _ _ _ (by norm_num) (by norm_num) (by norm_num))
  obtain ⟨e, h1, h2⟩ := h 0 0 "M2" (by rw [D.name]; rfl) (by rw [D'.name]; rfl)
  exact ⟨c, c', e, hc, hc', h1, h2⟩

/-- `C07_byname`: a current without a second component. -/
example : ∃ c c' e, solve idealEnv dayT (daySeries 1 0 2) none (some 45) exOpts = .ok c ∧
    solve idealEnv dayT (daySeries 1 0 2) (some (daySeries 0 0 0)) (some 45) exOpts = .ok c' ∧
    ellipseAt c.ell 0 = some e ∧ ellipseAt c'.ell 0 = some ⟨e.Lsmaj, 0, 0, e.g⟩ := by
  obtain ⟨c, hc, D⟩ := day_run 1 0 2 none (.inl rfl)
  obtain ⟨c', hc', D'⟩ := day_run 1 0 2 (some (daySeries 0 0 0)) (vec_day _ _ _)
  obtain ⟨-, h, -⟩ := C07_byname idealEnv dayT _ _ (some 45) exOpts exOpts
    (day_ready _ _ _ none (.inl rfl)) (day_ready _ _ _ _ (vec_day _ _ _))
    (by simp [daySeries, Cell.value?, Fl.toReal?]) (by decide)
    (by decide) (fun _ _ => rfl) ⟨_, rfl, .inl rfl⟩ c c' hc hc' D.kept (by rw [D.name]; simp) none
    (by rw [D.opt]; rfl) (by rw [D'.opt]; rfl)
  obtain ⟨e, h1, h2⟩ := h 0 0 "M2" (by rw [D.name]; rfl) (by rw [D'.name]; rfl)
  exact ⟨c, c', e, hc, hc', h1, h2⟩

/-- `C08_byname`: a quarter turn. -/
example : ∃ c c' e e', solve idealEnv dayT (daySeries 1 0 2) (some (daySeries 3 1 1)) (some 45) exOpts = .ok c ∧
    solve idealEnv dayT (daySeries (-3) (-1) (-1)) (some (daySeries 1 0 2)) (some 45) exOpts = .ok c' ∧
    ellipseAt c.ell 0 = some e ∧ ellipseAt c'.ell 0 = some e' ∧ Turned 90 e e' := by
  obtain ⟨c, hc, D⟩ := day_run 1 0 2 (some (daySeries 3 1 1)) (vec_day _ _ _)
  obtain ⟨c', hc', D'⟩ := day_run (-3) (-1) (-1) (some (daySeries 1 0 2)) (vec_day _ _ _)
  obtain ⟨-, -, h⟩ := C08_byname idealEnv dayT _ _ _ _ (some 45) exOpts
    (day_ready _ _ _ _ (vec_day _ _ _)) (day_ready _ _ _ _ (vec_day _ _ _)) (by decide) ⟨_, rfl, .inl rfl⟩ c c' hc hc'
    D.kept (by rw [D.name]; simp) _ (by rw [D.opt]; exact day_times) 90 (by
      intro i τ hτ
      rw [cisd_90]
      match i with
      | 0 => simp [sampleValues, daySeries, Cell.value?, Fl.toReal?, Complex.ext_iff]
      | 1 => simp [sampleValues, daySeries, Cell.value?, Fl.toReal?, Complex.ext_iff]
      | 2 => simp [sampleValues, daySeries, Cell.value?, Fl.toReal?, Complex.ext_iff]
      | i + 3 => simp at hτ)
  obtain ⟨e, e', h1, h2, h3⟩ := h 0 0 "M2" (by rw [D.name]; rfl) (by rw [D'.name]; rfl)
  exact ⟨c, c', e, e', hc, hc', h1, h2, h3⟩

/-- `C09_ranges`, `C18_aligned`, `C24_accepted`: one run. -/
example : ∃ c k, solve idealEnv dayT (daySeries 1 0 2) (some (daySeries 3 1 1)) (some 45) exOpts = .ok c ∧
    InRanges c.ell ∧ Shaped true c.ell ∧ c.lind[0]? = some k ∧ c.frq[0]? = some (frequencyAt c.reftime k) ∧
    constitIndexDict.get? "M2" = some k ∧ some (45 : ℝ) = some c.lat := by
  obtain ⟨c, hc, D⟩ := day_run 1 0 2 (some (daySeries 3 1 1)) (vec_day _ _ _)
  obtain ⟨h1, h2⟩ := C09_ranges idealEnv dayT _ _ (some 45) exOpts (by decide) c hc
  obtain ⟨-, -, h3⟩ := C18_aligned idealEnv dayT _ _ (some 45) exOpts c hc
  obtain ⟨k, con, h4, -, -, h5, h6⟩ := h3 0 "M2" (by rw [D.name]; rfl)
  exact ⟨c, k, hc, h1, h2, h4, h6, h5, (C24_accepted idealEnv dayT _ _ (some 45) exOpts c hc).1⟩

/-- `C03_vector`: a tidal current comes back from `reconstruct`. -/
example : ∃ c r, ∀ z : ℝ → ℂ, (∀ τ, z τ = ⟨4, -5⟩ + (m2 τ * ccw sampleEllipse + conj (m2 τ) * cw sampleEllipse)) →
    solve idealEnv dayT (daySeries (z 0).re (z 0.5).re (z 1).re) (some (daySeries (z 0).im (z 0.5).im (z 1).im)) (some 45)
      exOpts = .ok c ∧ reconstruct idealEnv dayT.arr c recAll = .ok r ∧ r[0]? = some (some (z 0)) := by
  obtain ⟨z, hz⟩ : ∃ z : ℝ → ℂ, ∀ τ, z τ = ⟨4, -5⟩ + (m2 τ * ccw sampleEllipse + conj (m2 τ) * cw sampleEllipse) :=
    ⟨_, fun _ => rfl⟩
  obtain ⟨c, hc, D⟩ := day_run (z 0).re (z 0.5).re (z 1).re (some (daySeries (z 0).im (z 0.5).im (z 1).im))
    (vec_day _ _ _)
  have hcurve : ∀ τ, vectorCurve c (fun _ => sampleEllipse) ⟨4, -5⟩ 0 τ = z τ := by
    intro τ
    rw [vector_curve_rotary]
    unfold rotaryCurve
    rw [D.name, hz]
    simp [day_harmonic D]
    ring
  obtain ⟨r, hr, h1⟩ := C03_vector idealEnv dayT _ _ (some 45) exOpts (day_ready _ _ _ _ (vec_day _ _ _)) (by decide)
    ⟨_, rfl, .inl rfl⟩ c hc D.kept none (by rw [D.opt]; rfl) (by simp) recAll (by rw [D.opt]; rfl) ⟨rfl, rfl, rfl⟩
    [.fin 0, .fin 0.5, .fin 1] (by rw [D.opt]; exact day_times)
    (fun _ => sampleEllipse) ⟨4, -5⟩ 0 (by intro s h; cases h) (fun _ => rfl) (by
      intro i x y τ hx hy hτ
      rw [hcurve]
      match i with
      | 0 => simp at hτ; subst hτ; rw [← Option.some.inj hx, ← Option.some.inj hy]
      | 1 => simp at hτ; subst hτ; rw [← Option.some.inj hx, ← Option.some.inj hy]
      | 2 => simp at hτ; subst hτ; rw [← Option.some.inj hx, ← Option.some.inj hy]
      | i + 3 => simp at hτ)
  refine ⟨c, r, ?_⟩
  intro z' hz'
  obtain rfl : z' = z := funext fun τ => (hz' τ).trans (hz τ).symm
  exact ⟨hc, hr, h1 0 _ _ 0 rfl rfl rfl⟩

/-- `C16_monotone`: a weaker Rayleigh criterion. -/
example : ∃ c c', solve idealEnv dayT dayU none (some 45) autoOpts = .ok c ∧
    solve idealEnv dayT dayU none (some 45) (("Rayleigh_min", .num (1 / 2)) :: autoOpts) = .ok c' ∧
    ∀ n ∈ c.name, n ∈ c'.name := by
  have hus : usable [.fin 0, .fin 0.5, .fin 1] dayU.data none ≠ [] := by
    simp [usable, goodSamples, Fl.toReal?, Cell.value?, dayU]
  obtain ⟨c, hc⟩ := auto_returns idealEnv [.fin 0, .fin 0.5, .fin 1] [] dayU.data rfl hus
  obtain ⟨c', hc'⟩ : ∃ c', solve idealEnv dayT dayU none (some 45) (("Rayleigh_min", .num (1 / 2)) :: autoOpts) = .ok c' :=
    solve_total idealEnv _ _ none 45 _ { autoOpt false with rmin := 1 / 2 } [.fin 0, .fin 0.5, .fin 1] .auto .frequency
      rfl rfl rfl rfl rfl rfl trivial rfl (.inr rfl) ⟨rfl, rfl, by simp⟩ dayReady.ht dayReady.hu (by simp) day_times hus
      (fun k => by simp [nodalSingular, autoOpt, exOpt]) (fun h => by simp [autoOpt, exOpt] at h)
  exact ⟨c, c', hc, hc', C16_monotone idealEnv idealEnv dayT dayT dayU dayU none none (some 45) (some 45) autoOpts _ dayReady
    dayReady (by decide) (by decide) rfl rfl rfl rfl (.str "frequency") (.str "frequency") rfl rfl (.inr ⟨_, rfl⟩)
    (.inr ⟨_, rfl⟩) 1 (1 / 2) rfl rfl c c' hc hc' 1 1 (day_length _ rfl) (day_length _ rfl) one_pos le_rfl (by norm_num)⟩

/-- `C20_reconstruct`: without corrections, the harmonic of `M2` is the textbook sinusoid. -/
example : ∃ c, solve idealEnv dayT (daySeries 1 0 2) none (some 45) exOpts = .ok c ∧
    ∀ τ : ℝ, reconstruct idealEnv (.float [.fin τ]) c recAll =
      .ok [some (level c τ + (((List.range 1).filter (Selected c recAll)).map (tideIn .off .off c τ)).sum)] := by
  obtain ⟨c, hc, D⟩ := day_run 1 0 2 none (.inl rfl)
  refine ⟨c, hc, fun τ => ?_⟩
  rw [C20_reconstruct idealEnv dayT _ none (some 45) exOpts (day_ready _ _ _ none (.inl rfl)) (by decide) c hc D.kept
    .off .off rfl rfl (.inr rfl) (by rw [D.name]; simp) idealEnv (.float [.fin τ]) recAll, D.name]
  have : normalizeTime idealEnv.dt64 (.float [.fin τ]) recAll.epoch = .ok [.fin τ] := by
    show (Except.ok (List.map _ _) : Except PyErr (List Fl)) = _
    congr 1
  rw [this]
  rfl

/-- `C20_fit`. -/
example : ∃ c, solve idealEnv dayT (daySeries 1 0 2) none (some 45) exOpts = .ok c ∧ ∀ A g : String → ℝ,
    scalarCurve c A g 3 0 2 = 3 + 0 * (2 - c.reftime) + (c.name.map fun n => A n *
      (textbook .off .off c.reftime c.lat 2 (constitNames.idxOf n) * cisd (-(g n))).re).sum := by
  obtain ⟨c, hc, D⟩ := day_run 1 0 2 none (.inl rfl)
  exact ⟨c, hc, fun A g => C20_fit idealEnv dayT _ none (some 45) exOpts (by decide) c hc .off .off rfl rfl (.inr rfl)
    (by rw [D.name]; simp) A g 3 0 2⟩

/-- `C30_partial`: a masked time that is NaN as well. -/
example (E : Env) (u : Series) : solve E ⟨[3], .float [.fin 0, .nan, .fin 1], [false, true, false]⟩ u none (some 45) exOpts =
    solve E ⟨[3], .float (blankTimes [false, true, false] [.fin 0, .nan, .fin 1]), [false, false, false]⟩ u none (some 45)
      exOpts :=
  C30_partial E [.fin 0, .nan, .fin 1] [false, true, false] u none (some 45) exOpts rfl (by simp)

/-- `C29_only_usable_samples`, `C29_rows`: a sample without a value is as good as none, if the time is kept. -/
example (E : Env) (x : Fl) (lat : Option ℝ) :
    solve E ⟨[3], .float [.fin 1, .fin 2, .fin 3], []⟩ ⟨[3], [⟨.fin 10, false⟩, ⟨.nan, false⟩, ⟨.fin 30, false⟩]⟩ none lat
      exOpts =
    solve E ⟨[3], .float [.fin 1, .fin 2, .fin 3], []⟩ ⟨[3], [⟨.fin 10, false⟩, ⟨x, true⟩, ⟨.fin 30, false⟩]⟩ none lat
      exOpts := by
  have hn : normalizeTime E.dt64 (.float [.fin 1, .fin 2, .fin 3]) (.str "python") = .ok [.fin 1, .fin 2, .fin 3] := by
    show (Except.ok (List.map _ _) : Except PyErr (List Fl)) = _
    congr 1
  exact C29_only_usable_samples E _ _ _ _ none none lat exOpts (exOpt false) [.fin 1, .fin 2, .fin 3]
    [.fin 1, .fin 2, .fin 3] (exOpt_eq false) rfl ⟨rfl, rfl, by simp⟩ ⟨rfl, rfl, by simp⟩ hn hn
    ⟨rfl, by simp⟩ ⟨rfl, by simp⟩ rfl (by simp [usable, goodSamples, Fl.toReal?, Cell.value?])

/-- `C34_partial`: both fitted constituents named, in the other order. -/
example : ∃ c', solve idealEnv dayT dayU none (some 45) (listOpts ["M2", "S2"] (.seq .list (["S2", "M2"].map .str))) =
    .ok c' ∧ c'.name = ["S2", "M2"] := by
  obtain ⟨c, hc⟩ := day_list ["M2", "S2"] M2S2_known
  obtain ⟨c', hc', -⟩ := day_order ["M2", "S2"] ["S2", "M2"] M2S2_known (by simp)
  exact ⟨c', hc', (C34_partial idealEnv dayT dayU none (some 45) _ _ dayReady (someOpts_nodup _ _) (someOpts_nodup _ _)
    (listOpts_requested _ _ _) .list (by simp) ["S2", "M2"] rfl c c' hc (list_kept dayReady _ c hc) hc' (by simp)
    ((day_list_names _ c hc).length_eq).symm).1⟩

/-- `C36_nothing`: nothing but the mean when no fitted constituent is asked for. -/
example : ∃ c r, solve idealEnv dayT (daySeries 1 0 2) none (some 45) exOpts = .ok c ∧
    reconstruct idealEnv (.float [.fin 3]) c { recAll with constit := some (.names ["K1"]) } = .ok r ∧
    r = [some (level c 3)] := by
  obtain ⟨c, hc, D⟩ := day_run 1 0 2 none (.inl rfl)
  have R := day_ready 1 0 2 none (.inl rfl)
  have hr := C36_selected idealEnv dayT _ none (some 45) exOpts R (by decide) c hc D.kept idealEnv (.float [.fin 3])
    { recAll with constit := some (.names ["K1"]) }
  have ht : normalizeTime idealEnv.dt64 (.float [.fin 3]) (.str "python") = .ok [.fin 3] := by
    show (Except.ok (List.map _ _) : Except PyErr (List Fl)) = _
    congr 1
  have ht' : normalizeTime idealEnv.dt64 (.float [.fin 3]) recAll.epoch = .ok [.fin 3] := ht
  rw [ht'] at hr
  obtain ⟨tn, h1, h2⟩ := C36_nothing idealEnv dayT _ none (some 45) exOpts R (by decide) c hc D.kept idealEnv
    (.float [.fin 3]) { recAll with constit := some (.names ["K1"]) } (by
      intro i hi
      rw [D.name] at hi
      obtain rfl : i = 0 := by simpa using hi
      simp [Selected, D.name]) _ hr
  cases Except.ok.inj (h1.symm.trans ht')
  exact ⟨c, _, hc, hr, h2⟩

/-- `C68_reftime`, `C68_reftime_even`, `C68_inside`. -/
example : ∃ c, solve idealEnv dayT (daySeries 1 0 2) none (some 45) exOpts = .ok c ∧
    IsMidpoint [0, 0.5, 1] c.reftime ∧ ∃ b ∈ [0, 0.5, (1 : ℝ)], c.reftime ≤ b := by
  obtain ⟨c, hc, D⟩ := day_run 1 0 2 none (.inl rfl)
  have R := day_ready 1 0 2 none (.inl rfl)
  have e1 : finiteTimes [.fin 0, .fin 0.5, .fin 1] = [0, 0.5, 1] := by simp [finiteTimes, Fl.toReal?]
  have h1 := C68_reftime_even idealEnv dayT _ none (some 45) exOpts R.ht R.hu R.hv c hc _
    (by rw [D.opt]; exact day_times) (by rw [e1]; simp) (by
      rw [e1]
      refine ⟨0.5, fun i a b h1 h2 => ?_⟩
      match i with
      | 0 => simp at h1 h2; subst h1 h2; norm_num
      | 1 => simp at h1 h2; subst h1 h2; norm_num
      | n + 2 => simp at h2)
  have h2 := (C68_inside idealEnv dayT _ none (some 45) exOpts R.ht R.hu R.hv c hc _
    (by rw [D.opt]; exact day_times) (by rw [e1]; simp; norm_num)).2
  rw [e1] at h1 h2
  exact ⟨c, hc, h1, h2⟩

/-- `C80_bound`, `C80_nodal`. -/
example : ∃ c z, solve idealEnv dayT (daySeries 1 0 2) none (some 45) exOpts = .ok c ∧
    reconstruct idealEnv (.float [.fin 100]) c recAll = .ok [some z] ∧
    ‖z - level c 100‖ ≤ (((List.range c.name.length).filter (Selected c recAll)).map fun i =>
      ‖harmonic c (c.name.getD i "") 100‖ * amplitude c i).sum ∧
    ‖z - level c 100‖ ≤ (((List.range c.name.length).filter (Selected c recAll)).map fun i =>
      nodalFactor .off c.reftime c.lat 100 (constitNames.idxOf (c.name.getD i "")) * amplitude c i).sum := by
  obtain ⟨c, hc, D⟩ := day_run 1 0 2 none (.inl rfl)
  have hR := day_ready 1 0 2 none (.inl rfl)
  have hr := C36_selected idealEnv dayT _ none (some 45) exOpts hR (by decide) c hc D.kept idealEnv (.float [.fin 100])
    recAll
  have ht : normalizeTime idealEnv.dt64 (.float [.fin 100]) recAll.epoch = .ok [.fin 100] := by
    show (Except.ok (List.map _ _) : Except PyErr (List Fl)) = _
    congr 1
  rw [ht] at hr
  exact ⟨c, _, hc, hr, C80_bound idealEnv dayT _ none (some 45) exOpts hR (by decide) c hc D.kept idealEnv
    (.float [.fin 100]) recAll _ _ ht hr 0 100 _ rfl rfl,
    C80_nodal idealEnv dayT _ none (some 45) exOpts hR (by decide) c hc D.kept .off .off rfl rfl (.inr rfl)
      (by rw [D.name]; simp) idealEnv (.float [.fin 100]) recAll _ _ ht hr 0 100 _ rfl rfl⟩

end

end UTide.Props
