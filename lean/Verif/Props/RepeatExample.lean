import Verif.Props.RepeatCi

/-!
# A record of five samples given twice
-/

namespace UTide.Props

noncomputable section

open Classical

def decTn : List Fl := pentTn ++ pentTn
def decT : TimeArg := ⟨[10], .float decTn, []⟩

def decSeries (y0 y1 y2 y3 y4 : ℝ) : Series :=
  ⟨[10], (pentSeries y0 y1 y2 y3 y4).data ++ (pentSeries y0 y1 y2 y3 y4).data⟩

section
variable (y0 y1 y2 y3 y4 : ℝ)

theorem dec_ready : Ready idealEnv decT (decSeries y0 y1 y2 y3 y4) none :=
  idealReady _ _ _ (by simp [TimeArg.WF, TimeArr.length, decT, decTn, pentTn])
    (by simp [Series.WF, decSeries, pentSeries]) (by rintro w ⟨⟩)

theorem dec_times : normalizeTime idealEnv.dt64 decT.arr (.str "python") = .ok decTn := by
  show (Except.ok (decTn.map _) : Except PyErr (List Fl)) = _
  congr 1

theorem dec_finite : finiteTimes decTn = [0.25, 0.375, 0.5, 0.625, 0.75, 0.25, 0.375, 0.5, 0.625, 0.75] := by
  simp [finiteTimes, decTn, pentTn, Fl.toReal?]

theorem dec_usable : (usable decTn (decSeries y0 y1 y2 y3 y4).data (none : Option (List Cell))).map Prod.fst =
    [0.25, 0.375, 0.5, 0.625, 0.75, 0.25, 0.375, 0.5, 0.625, 0.75] := by
  simp [usable, decSeries, pentSeries, decTn, pentTn, goodSamples, Fl.toReal?, Cell.value?]

theorem dec_rows : RepeatedRows 2 pentTn (pentSeries y0 y1 y2 y3 y4) none decTn (decSeries y0 y1 y2 y3 y4) none := by
  unfold RepeatedRows
  simp [decTn, sampleValues, decSeries, pentSeries, pentTn, List.replicate]

/-- The facts used about the run. -/
structure DecRun (opts : Dict PyVal) (q : Opt) (co : Coef) : Prop where
  returned : solve idealEnv decT (decSeries y0 y1 y2 y3 y4) none (some 45) opts = .ok co
  opt : co.opt = q
  kept : AllKept co
  name : co.name = ["M2"]
  reftime : co.reftime = 0.5
  lat : co.lat = 45

theorem dec_facts {opts : Dict PyVal} {q : Opt} (hq : getOpt opts false = .ok q) (hnd : opts.keys.Nodup)
    (h6 : q.ordercnstit = .str "frequency") (h7 : q.epoch = .str "python")
    (h10 : requested opts "constit" = some (.seq .list [.str "M2"])) (h11 : requested opts "infer" = some .none)
    (h12 : requested opts "order_constit" = some (.str "frequency")) {co : Coef}
    (hc : solve idealEnv decT (decSeries y0 y1 y2 y3 y4) none (some 45) opts = .ok co) :
    DecRun y0 y1 y2 y3 y4 opts q co := by
  have R := dec_ready y0 y1 y2 y3 y4
  obtain ⟨opt, p, tn, constit, m, W, rf, full, o, ind, F⟩ := solve_facts R hc
  have hopt : opt = q := Except.ok.inj (F.hopt.symm.trans hq)
  subst hopt
  refine ⟨hc, F.copt, ?_, ?_, ?_, ?_⟩
  · left; right; left; left; rw [F.copt]; exact h6
  · exact List.perm_singleton.1 ((C17_honoured idealEnv decT _ none (some 45) opts R
      hnd .list (by simp) ["M2"] h10 h11 (.str "frequency") h12 co hc).1 (.inr ⟨_, rfl⟩))
  · have htn : tn = decTn := by
      have := F.prep.init.time
      rw [h7] at this
      exact Except.ok.inj (this.symm.trans dec_times)
    subst htn
    rw [F.creftime]
    obtain ⟨-, -, -, -, h5⟩ := editData_usable _ _ _ (F.samples R).1 _ F.prep.init.edit
    rw [dec_finite, Option.map_none, dec_usable] at h5
    unfold timeStats at h5
    by_cases he : isEqui [0.25, 0.375, 0.5, 0.625, 0.75, 0.25, 0.375, 0.5, 0.625, 0.75]
    · simp only [he, if_true] at h5
      have h6 := congrArg Prod.fst (Except.ok.inj h5)
      exact h6.symm.trans (by show (0.5 : ℝ) * (0.25 + 0.75) = 0.5; norm_num)
    · simp only [he] at h5
      have h6 := congrArg Prod.fst (Except.ok.inj h5)
      exact h6.symm.trans (by show (0.5 : ℝ) * (0.25 + 0.75) = 0.5; norm_num)
  · rw [F.clat]
    exact (Option.some.inj F.prep.init.hlat).symm

theorem dec_run : ∃ co, DecRun y0 y1 y2 y3 y4 (ciOpts "linear" true) (ciOpt false true true) co := by
  have R := dec_ready y0 y1 y2 y3 y4
  have hus := dec_usable y0 y1 y2 y3 y4
  obtain ⟨c0, hc0⟩ : ∃ c0, solve idealEnv decT (decSeries y0 y1 y2 y3 y4) none (some 45) (ciOpts "none" true) = .ok c0 := by
    refine solve_total idealEnv _ _ none 45 _ _ decTn (.names ["M2"]) .frequency (ciOpts_none false true) rfl rfl rfl rfl rfl
      ⟨by simpa using M2_known, .inl (by simp)⟩ rfl (.inr rfl) ⟨rfl, rfl, by rintro w ⟨⟩⟩ R.ht R.hu R.hv dec_times ?_
      (fun k => by simp [nodalSingular, exOpt]) (fun h => by simp [exOpt] at h)
    intro h0
    rw [Option.map_none] at h0
    rw [h0] at hus
    simp at hus
  have Q0 := dec_facts y0 y1 y2 y3 y4 (ciOpts_none false true) (by decide) rfl rfl rfl rfl rfl hc0
  obtain ⟨c5, Q5, -⟩ := pent_ci y0 y1 y2 y3 y4 none (.inl rfl) true
  have hsep : Separated c0 none false (SampleTime decTn (decSeries y0 y1 y2 y3 y4).data none) := by
    refine ⟨by rw [Q0.name]; simp, fun P M mean slope hT hs hz => ?_⟩
    have hcurve : ∀ τ, rotaryCurve c5 P M mean slope τ = rotaryCurve c0 P M mean slope τ := by
      intro τ
      unfold rotaryCurve harmonic
      rw [Q5.name, Q0.name, Q5.opt, Q0.opt, Q5.reftime, Q0.reftime, Q5.lat, Q0.lat]
      rfl
    have h1 := Q5.over.separated.indep P M mean slope hT (fun h => hs (by rw [Q0.opt]; rfl)) (fun τ hτ => by
      rw [hcurve]
      refine hz τ ?_
      obtain ⟨i, x, h1, h2⟩ := hτ
      refine ⟨i, x, ?_, ?_⟩
      · unfold decTn
        rw [List.getElem?_append_left (List.getElem?_eq_some_iff.1 h1).1]
        exact h1
      · have : sampleValues (decSeries y0 y1 y2 y3 y4).data none = sampleValues (pentSeries y0 y1 y2 y3 y4).data none ++
            sampleValues (pentSeries y0 y1 y2 y3 y4).data none := by
          simp [sampleValues, decSeries]
        rw [Option.map_none] at h2
        rw [this, List.getElem?_append_left (List.getElem?_eq_some_iff.1 h2).1]
        exact h2)
    rw [Q5.name, ← Q0.name] at h1
    exact h1
  have hnum : numPar c0 = 3 := by
    unfold numPar
    rw [Q0.name, Q0.opt]
    rfl
  obtain ⟨co, hco⟩ := C72_available R idealNum_ok.inv idealNum_ok.mvn (by decide) (by decide)
    (ciOpts_requested "none" "linear" true true) ⟨.str "ols", rfl, .inl rfl⟩ hc0 (by rw [Q0.opt]; rfl) Q0.kept
    (by rw [Q0.opt]; exact dec_times) ⟨hsep, by
      rw [hnum]
      unfold sampleTimes
      rw [Option.map_none, hus]
      simp⟩ _ (ciOpts_linear false true) rfl (.inl rfl)
  exact ⟨co, dec_facts y0 y1 y2 y3 y4 (ciOpts_linear false true) (by decide) rfl rfl rfl rfl rfl hco⟩

/-- Non-vacuity of `C113_repeated`: five samples with arbitrary values and three parameters; given twice, the intervals
shrink by `sqrt (2 / 7)`. -/
example : ∃ c c' ci ci' r, solve idealEnv pentT (pentSeries y0 y1 y2 y3 y4) none (some 45) (ciOpts "linear" true) = .ok c ∧
    solve idealEnv decT (decSeries y0 y1 y2 y3 y4) none (some 45) (ciOpts "linear" true) = .ok c' ∧
    c.ci = some ci ∧ c'.ci = some ci' ∧ intervalAt ci 0 = some r ∧
    intervalAt ci' 0 = some (Ci1.narrow (Real.sqrt (2 / 7)) r) := by
  obtain ⟨c, Q, -⟩ := pent_ci y0 y1 y2 y3 y4 none (.inl rfl) true
  obtain ⟨c', Q'⟩ := dec_run y0 y1 y2 y3 y4
  obtain ⟨ci, ci', h1, h2, h3⟩ := C113_repeated (pent_ready y0 y1 y2 y3 y4 none (.inl rfl)) (dec_ready y0 y1 y2 y3 y4)
    idealNum_ok.inv rfl
    ⟨Q.returned, by decide, ⟨.str "ols", rfl, .inl rfl⟩, by rw [Q.opt]; rfl, by rw [Q.opt]; rfl, by rw [Q.opt]; rfl,
      by rw [Q.opt]; rfl, Q.kept, by rw [Q.opt]; exact pent_times⟩
    ⟨Q'.returned, by decide, ⟨.str "ols", rfl, .inl rfl⟩, by rw [Q'.opt]; rfl, by rw [Q'.opt]; rfl, by rw [Q'.opt]; rfl,
      by rw [Q'.opt]; rfl, Q'.kept, by rw [Q'.opt]; exact dec_times⟩
    2 (by norm_num) (dec_rows y0 y1 y2 y3 y4) (by rw [Q.name, Q'.name]) (by rw [Q.reftime, Q'.reftime])
  obtain ⟨-, r, h4, h5⟩ := h3 0 0 "M2" (by rw [Q.name]; rfl) (by rw [Q'.name]; rfl)
  refine ⟨c, c', ci, ci', r, Q.returned, Q'.returned, h1, h2, h4, ?_⟩
  have hl : (sampleTimes pentTn (pentSeries y0 y1 y2 y3 y4) none).length = 5 := by
    unfold sampleTimes
    rw [pent_usable _ _ _ _ _ none (.inl rfl)]
    rfl
  have hp : numPar c = 3 := by
    unfold numPar
    rw [Q.name, Q.opt]
    rfl
  rw [h5, hl, hp]
  norm_num

end

end

end UTide.Props
