import Verif.Props.FillProps
import Verif.Props.NyquistExample
import Verif.Props.ShuffleExamples

/-!
# Cases of C103
-/

namespace UTide.Props

noncomputable section

open Classical

/-- The prediction of an elevation is real. -/
theorem elevation_real {E : Env} {t : TimeArg} {u : Series} {lat : Option ℝ} {opts : Dict PyVal} {c : Coef}
    (R : Ready E t u none) (hnd : opts.keys.Nodup) (h : solve E t u none lat opts = .ok c) (S : List ℕ) (τ : ℝ) :
    ∃ x : ℝ, curve c S τ = x := by
  obtain ⟨opt, p, tn, constit, m, W, rf, full, o, ind, F⟩ := solve_facts R h
  have hco := (F.coherent hnd).permute ind F.lt
  rw [← F.solved.result] at hco
  rcases hco.kind with ⟨-, A, g, mn, s, he, hm, -⟩ | ⟨htd, -⟩
  · refine ⟨(level c τ).re + (S.map fun i => (tide c τ i).re).sum, ?_⟩
    unfold curve
    have h1 : ∀ i, tide c τ i = (((tide c τ i).re : ℝ) : ℂ) := by
      intro i
      unfold tide
      rw [he]
      simp
    have h2 : level c τ = (((level c τ).re : ℝ) : ℂ) := by
      unfold level
      rw [hm]
      simp
    have h3 : (S.map (tide c τ)).sum = (((S.map fun i => (tide c τ i).re).sum : ℝ) : ℂ) := by
      induction S with
      | nil => simp
      | cons a S ih => simp only [List.map_cons, List.sum_cons, ih, Complex.ofReal_add, ← h1]
    rw [h3]
    push_cast
    rw [← h2]
  · rw [F.copt] at htd
    have := (getOpt_requests _ hnd _ _ F.hopt).twodim
    rw [htd] at this
    cases this

/-- The eight samples with the seventh missing or not. -/
def octGap (ys : Fin 8 → ℝ) : Series := ⟨[8], (List.ofFn ys).mapIdx fun i y => ⟨if i = 6 then .nan else .fin y, false⟩⟩

theorem octGap_data (ys : Fin 8 → ℝ) : (octGap ys).data = [⟨.fin (ys 0), false⟩, ⟨.fin (ys 1), false⟩, ⟨.fin (ys 2), false⟩,
    ⟨.fin (ys 3), false⟩, ⟨.fin (ys 4), false⟩, ⟨.fin (ys 5), false⟩, ⟨.nan, false⟩, ⟨.fin (ys 7), false⟩] := by
  simp [octGap, List.ofFn_succ, List.mapIdx_cons]

/-- Eight samples of any values, the seventh missing; the analysis with the gap filled by the prediction. -/
example (ys : Fin 8 → ℝ) : ∃ c c' x, solve idealEnv octT (octGap ys) none (some 45) (listOpts ["S2", "S4"] (.str "frequency")) = .ok c ∧
    solve idealEnv octT (octSeries fun i => if i = 6 then x else ys i) none (some 45) (listOpts ["S2", "S4"] (.str "frequency")) =
      .ok c' ∧ SameTide c c' ∧ c'.mean = c.mean ∧ c'.reftime = c.reftime := by
  have R : Ready idealEnv octT (octGap ys) none :=
    idealReady _ _ _ (by simp [TimeArg.WF, TimeArr.length, octT, octTn]) (by simp [Series.WF, octGap]) (by simp)
  obtain ⟨c, hc⟩ : ∃ c, solve idealEnv octT (octGap ys) none (some 45) (listOpts ["S2", "S4"] (.str "frequency")) = .ok c := by
    have := list_returns idealEnv octTn [] (octGap ys).data (by simp [octTn, octGap]) ["S2", "S4"] S2S4_known
      (by rw [octGap_data]; simp [usable, octTn, goodSamples, Fl.toReal?, Cell.value?])
    simpa [octT, octTn, octGap] using this
  have ho : c.opt = listOpt false ["S2", "S4"] (.str "frequency") := by
    obtain ⟨opt, p, tn, constit, m, W, rf, full, o, ind, F⟩ := solve_facts R hc
    rw [F.copt]
    exact Except.ok.inj (F.hopt.symm.trans (listOpt_frequency false _))
  have hn := (C17_honoured idealEnv octT (octGap ys) none (some 45) _ R (someOpts_nodup _ _) .list (by simp) _ rfl rfl _ rfl c hc).1
    (.inr ⟨_, rfl⟩)
  have hk := list_kept R _ c hc
  have hr := C36_selected idealEnv octT _ none (some 45) _ R (someOpts_nodup _ _) c hc hk idealEnv octT.arr recAll
  rw [show normalizeTime idealEnv.dt64 octT.arr recAll.epoch = .ok octTn from oct_times] at hr
  obtain ⟨x, hx⟩ := elevation_real R (someOpts_nodup _ _) hc ((List.range c.name.length).filter (Selected c recAll)) (6 / 16)
  obtain ⟨c', hc'⟩ := octS_returns fun i => if i = 6 then x else ys i
  obtain ⟨-, hn', -⟩ := octS_opt hc'
  obtain ⟨h1, h2, h3⟩ := S2S4_nyquist (S2S4_frq hc hn)
  have hsep := C101_separated R (someOpts_nodup _ _) hc (list_steady _ _) (list_notVanishing _ _ _) h1 h2 (1 / 16)
    (by norm_num) h3 (SampleTime octTn (octGap ys).data none) (by
      refine ⟨0, fun j hj => ?_⟩
      rw [hn.length_eq, ho] at hj
      have hj' : j < 5 := hj
      rw [octGap_data]
      refine ⟨j, ((ys ⟨j, by omega⟩ : ℝ) : ℂ), ?_, ?_⟩ <;> interval_cases j <;>
        simp [octTn, sampleValues, Cell.value?, Fl.toReal?] <;> norm_num) none false
  have e1 : sampleValues (octGap ys).data none = [some ((ys 0 : ℝ) : ℂ), some ((ys 1 : ℝ) : ℂ), some ((ys 2 : ℝ) : ℂ),
      some ((ys 3 : ℝ) : ℂ), some ((ys 4 : ℝ) : ℂ), some ((ys 5 : ℝ) : ℂ), none, some ((ys 7 : ℝ) : ℂ)] := by
    rw [octGap_data]; simp [sampleValues, Cell.value?, Fl.toReal?]
  have e2 : sampleValues (octSeries fun i => if i = 6 then x else ys i).data none = [some ((ys 0 : ℝ) : ℂ), some ((ys 1 : ℝ) : ℂ),
      some ((ys 2 : ℝ) : ℂ), some ((ys 3 : ℝ) : ℂ), some ((ys 4 : ℝ) : ℂ), some ((ys 5 : ℝ) : ℂ), some (x : ℂ),
      some ((ys 7 : ℝ) : ℂ)] := by
    simp [sampleValues, octSeries, Cell.value?, Fl.toReal?, List.ofFn_succ]
  have key := C103_gaps idealEnv octT (octGap ys) (octSeries fun i => if i = 6 then x else ys i) none none (some 45) _ R
    (octS_ready _) (someOpts_nodup _ _) ⟨_, rfl, .inl rfl⟩ rfl c c' hc hc' hk (list_kept (octS_ready _) _ c' hc') none
    (by rw [ho]; rfl) (by simp) octTn (by rw [ho]; exact oct_times) recAll (by rw [ho]; rfl) ⟨rfl, rfl, rfl⟩ _ hr
    (by
      show FilledBy (sampleValues (octGap ys).data none) (sampleValues (octSeries _).data none) _
      rw [e1, e2]
      intro i
      match i with
      | 0 | 1 | 2 | 3 | 4 | 5 | 7 => exact .inl rfl
      | 6 =>
        refine .inr ⟨rfl, ?_⟩
        rw [List.getElem?_map, show octTn[6]? = some (.fin (6 / 16)) from rfl]
        show some (some (x : ℂ)) = some (some _)
        exact congrArg (fun z => some (some z)) hx.symm
      | n + 8 => exact .inl rfl)
    (by
      show InGaps _ (sampleValues (octGap ys).data none) (sampleValues (octSeries _).data none)
      rw [e1, e2]
      intro i hi
      match i with
      | 0 | 1 | 2 | 3 | 4 | 5 | 7 => exact absurd rfl hi
      | 6 => exact ⟨⟨0, by norm_num, _, _, rfl, rfl⟩, 7, by norm_num, _, _, rfl, rfl⟩
      | n + 8 => exact absurd rfl hi)
    (hn'.trans hn.symm) hsep
  exact ⟨c, c', x, hc, hc', key⟩

/-- An M2 analysis with Greenwich phases of any samples. -/
theorem gw_run (xs : List Fl) (u : List Cell) (hl : xs.length = u.length) (hne : usable xs u none ≠ []) :
    ∃ c, solve idealEnv ⟨[xs.length], .float xs, []⟩ ⟨[u.length], u⟩ none (some 45) gwOpts = .ok c ∧ c.opt = gwOpt ∧ AllKept c ∧
      c.name = ["M2"] := by
  have R : Ready idealEnv ⟨[xs.length], .float xs, []⟩ ⟨[u.length], u⟩ none :=
    idealReady _ _ _ (by simp [TimeArg.WF, TimeArr.length]) (by simp [Series.WF]) (by simp)
  have htn : normalizeTime idealEnv.dt64 (.float xs) (.str "python") = .ok xs := by
    show (Except.ok (xs.map _) : Except PyErr (List Fl)) = _
    congr 1
    exact List.map_id xs
  obtain ⟨c, hc⟩ := solve_total idealEnv ⟨[xs.length], .float xs, []⟩ ⟨[u.length], u⟩ none 45 gwOpts gwOpt xs (.names ["M2"]) .frequency
    gwOpt_eq rfl rfl rfl rfl rfl ⟨by simpa using M2_known, .inl (by simp)⟩ rfl (.inr rfl) ⟨by simp [hl], rfl, by simp⟩ R.ht R.hu R.hv
    htn hne (fun k => by simp [nodalSingular, gwOpt]) (fun h => by cases h)
  obtain ⟨opt, p, tn, constit, m, W, rf, full, o, ind, F⟩ := solve_facts R hc
  have hopt : opt = gwOpt := Except.ok.inj (F.hopt.symm.trans gwOpt_eq)
  subst hopt
  refine ⟨c, hc, F.copt, ?_, ?_⟩
  · left; right; left; left; rw [F.copt]; rfl
  · exact List.perm_singleton.1 ((C17_honoured idealEnv _ _ none (some 45) gwOpts R
      (by decide) .list (by simp) ["M2"] rfl rfl (.str "frequency") rfl c hc).1 (.inr ⟨_, rfl⟩))

/-- Samples 1, 5, 3 at times 0, 0.5, 1, extended by the prediction for time 1.25. -/
example : ∃ c c' x, solve idealEnv ⟨[4], .float [.fin 0, .fin 0.5, .fin 1, .fin 1.25], []⟩
      ⟨[4], [⟨.fin 1, false⟩, ⟨.fin 5, false⟩, ⟨.fin 3, false⟩, ⟨.nan, false⟩]⟩ none (some 45) gwOpts = .ok c ∧
    solve idealEnv ⟨[4], .float [.fin 0, .fin 0.5, .fin 1, .fin 1.25], []⟩
      ⟨[4], [⟨.fin 1, false⟩, ⟨.fin 5, false⟩, ⟨.fin 3, false⟩, ⟨.fin x, false⟩]⟩ none (some 45) gwOpts = .ok c' ∧ SameTide c c' := by
  obtain ⟨c, hc, ho, hk, hn⟩ := gw_run [.fin 0, .fin 0.5, .fin 1, .fin 1.25] [⟨.fin 1, false⟩, ⟨.fin 5, false⟩, ⟨.fin 3, false⟩,
    ⟨.nan, false⟩] rfl (by simp [usable, goodSamples, Fl.toReal?, Cell.value?])
  have R : Ready idealEnv ⟨[4], .float [.fin 0, .fin 0.5, .fin 1, .fin 1.25], []⟩
      ⟨[4], [⟨.fin 1, false⟩, ⟨.fin 5, false⟩, ⟨.fin 3, false⟩, ⟨.nan, false⟩]⟩ none :=
    idealReady _ _ _ (by simp [TimeArg.WF, TimeArr.length]) (by simp [Series.WF]) (by simp)
  have hr := C36_selected idealEnv _ _ none (some 45) _ R (by decide) c hc hk idealEnv (.float [.fin 0, .fin 0.5, .fin 1, .fin 1.25]) recAll
  have ht : normalizeTime idealEnv.dt64 (.float [.fin 0, .fin 0.5, .fin 1, .fin 1.25]) recAll.epoch =
      .ok [.fin 0, .fin 0.5, .fin 1, .fin 1.25] := rfl
  rw [ht] at hr
  obtain ⟨x, hx⟩ := elevation_real R (by decide) hc ((List.range c.name.length).filter (Selected c recAll)) 1.25
  obtain ⟨c', hc', ho', hk', hn'⟩ := gw_run [.fin 0, .fin 0.5, .fin 1, .fin 1.25] [⟨.fin 1, false⟩, ⟨.fin 5, false⟩, ⟨.fin 3, false⟩,
    ⟨.fin x, false⟩] rfl (by simp [usable, goodSamples, Fl.toReal?, Cell.value?])
  have R' : Ready idealEnv ⟨[4], .float [.fin 0, .fin 0.5, .fin 1, .fin 1.25], []⟩
      ⟨[4], [⟨.fin 1, false⟩, ⟨.fin 5, false⟩, ⟨.fin 3, false⟩, ⟨.fin x, false⟩]⟩ none :=
    idealReady _ _ _ (by simp [TimeArg.WF, TimeArr.length]) (by simp [Series.WF]) (by simp)
  refine ⟨c, c', x, hc, hc', C103_filled idealEnv _ _ _ none none (some 45) gwOpts R R' (by decide) ⟨_, rfl, .inl rfl⟩ rfl c c' hc hc' hk hk'
    none (by rw [ho]; rfl) (by simp) _ (by rw [ho]; exact ht) recAll (by rw [ho]; rfl) ⟨rfl, rfl, rfl⟩ _ hr ?_ (by rw [hn, hn'])
    (gw_separated ho hn _ _ ⟨0, _, rfl, rfl⟩ ⟨1, _, rfl, rfl⟩ ⟨2, _, rfl, rfl⟩) .off rfl (by decide) rfl⟩
  intro i
  match i with
  | 0 | 1 | 2 => exact .inl rfl
  | 3 =>
    refine .inr ⟨rfl, ?_⟩
    exact congrArg (fun z => some (some z)) hx.symm
  | n + 4 => exact .inl rfl

end

end UTide.Props
