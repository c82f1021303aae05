import Verif.Props.ReverseCi
import Verif.Props.OrderProps
import Verif.Props.NoiseProps

/-!
# A record given backwards: C129
-/

namespace UTide.Props

noncomputable section

open Classical Matrix

local notation "conj" => starRingEnd ℂ

/-! ## Five samples, the last one first -/

def backTn : List Fl := [.fin 0.75, .fin 0.625, .fin 0.5, .fin 0.375, .fin 0.25]
def pentBackT : TimeArg := ⟨[5], .float backTn, []⟩

section
variable (y0 y1 y2 y3 y4 : ℝ)

theorem back_ready : Ready idealEnv pentBackT (pentSeries y0 y1 y2 y3 y4) none :=
  idealReady _ _ _ (by simp [TimeArg.WF, TimeArr.length, pentBackT, backTn]) (by simp [Series.WF, pentSeries]) (by simp)

theorem back_times : normalizeTime idealEnv.dt64 pentBackT.arr (.str "python") = .ok backTn := by
  show (Except.ok (backTn.map _) : Except PyErr (List Fl)) = _
  congr 1

theorem back_finite : finiteTimes backTn = [0.75, 0.625, 0.5, 0.375, 0.25] := by
  simp [finiteTimes, backTn, Fl.toReal?]

theorem back_even : EvenlySpaced ([0.75, 0.625, 0.5, 0.375, 0.25] : List ℝ) :=
  ⟨-0.125, fun i a b h1 h2 => by
    match i with
    | 0 => simp at h1 h2; subst h1 h2; norm_num
    | 1 => simp at h1 h2; subst h1 h2; norm_num
    | 2 => simp at h1 h2; subst h1 h2; norm_num
    | 3 => simp at h1 h2; subst h1 h2; norm_num
    | n + 4 => simp at h2⟩

theorem back_shuffled : Shuffled pentTn (pentSeries y0 y1 y2 y3 y4) none backTn (pentSeries y4 y3 y2 y1 y0) none := by
  unfold Shuffled pentTn backTn pentSeries sampleValues
  exact List.reverse_perm [((.fin 0.25 : Fl), some ((y0 : ℝ) : ℂ)), (.fin 0.375, some ((y1 : ℝ) : ℂ)),
    (.fin 0.5, some ((y2 : ℝ) : ℂ)), (.fin 0.625, some ((y3 : ℝ) : ℂ)), (.fin 0.75, some ((y4 : ℝ) : ℂ))]

theorem back_usable : (usable backTn (pentSeries y0 y1 y2 y3 y4).data none).map Prod.fst = [0.75, 0.625, 0.5, 0.375, 0.25] := by
  simp [usable, pentSeries, backTn, goodSamples, Fl.toReal?, Cell.value?]

/-- The facts used about a run on the reversed record. -/
structure BackRun (q : Opt) (co : Coef) : Prop where
  opt : co.opt = q
  kept : AllKept co
  name : co.name = ["M2"]
  frq : co.frq = [linFreqs 0.5 47]
  reftime : co.reftime = 0.5
  lat : co.lat = 45

theorem back_facts (ci : String) (wh : Bool) (q : Opt) (hopt : getOpt (ciOpts ci wh) false = .ok q) (he : q.epoch = .str "python")
    (ho : q.ordercnstit = .str "frequency")
    (co : Coef) (h : solve idealEnv pentBackT (pentSeries y0 y1 y2 y3 y4) none (some 45) (ciOpts ci wh) = .ok co) :
    BackRun q co := by
  have R := back_ready y0 y1 y2 y3 y4
  obtain ⟨opt, p, tn, constit, m, W, rf, full, o, ind, F⟩ := solve_facts R h
  cases Except.ok.inj (hopt.symm.trans F.hopt)
  have htn : tn = backTn := by
    have := F.prep.init.time
    rw [he] at this
    exact Except.ok.inj (this.symm.trans back_times)
  subst htn
  have href : co.reftime = 0.5 := by
    rw [F.creftime]
    obtain ⟨-, -, -, -, h5⟩ := editData_usable _ _ _ (F.samples R).1 _ F.prep.init.edit
    rw [back_finite, show (usable backTn (pentSeries y0 y1 y2 y3 y4).data (Option.map Series.data none)).map Prod.fst = _ from
      back_usable y0 y1 y2 y3 y4] at h5
    unfold timeStats at h5
    rw [C68_even _ (by simp) back_even] at h5
    have h6 := congrArg Prod.fst (Except.ok.inj h5)
    exact h6.symm.trans (by show (0.5 : ℝ) * (0.75 + 0.25) = 0.5; norm_num)
  have hname : co.name = ["M2"] := List.perm_singleton.1 ((C17_honoured idealEnv _ _ none (some 45) (ciOpts ci wh) R
    (by simp [ciOpts, Dict.keys]) .list (by simp) ["M2"] rfl rfl (.str "frequency") rfl co h).1 (.inr ⟨_, rfl⟩))
  refine ⟨F.copt, ?_, hname, ?_, href, ?_⟩
  · left; right; left; left; rw [F.copt]; exact ho
  · obtain ⟨a1, a2, a3⟩ := permute_aligned h
    rw [hname] at a1
    rw [a2, href]
    cases hl : co.lind with
    | nil => rw [hl] at a1; simp at a1
    | cons k r =>
      rw [hl] at a1
      obtain ⟨h1, h2⟩ := List.cons_eq_cons.1 a1
      rw [List.map_eq_nil_iff.1 h2.symm]
      have : k = 47 := by
        rw [← idxOf_nameAt (a3 k (by rw [hl]; simp)), ← h1, ← nameAt_M2]
        exact idxOf_nameAt (by norm_num)
      rw [this]; rfl
  · rw [F.clat]
    exact (Option.some.inj F.prep.init.hlat).symm

theorem back_over {co : Coef} {q : Opt} (Q : BackRun q co) (hq : LikeEx q) :
    Overdetermined co backTn (pentSeries y0 y1 y2 y3 y4) none := by
  obtain ⟨co0, Q0, -⟩ := pent_ci 0 0 0 0 0 none (.inl rfl) true
  have hh : ∀ n τ, harmonic co n τ = harmonic co0 n τ := by
    intro n τ
    unfold harmonic
    rw [Q.opt, Q0.opt, hq.flags, Q.reftime, Q0.reftime, Q.lat, Q0.lat]
    rfl
  refine ⟨⟨by rw [Q.name]; simp, ?_⟩, ?_⟩
  · intro P M mean slope hT hs hz
    rw [Q.name, ← Q0.name]
    refine Q0.over.separated.indep P M mean slope hT (fun _ => hs (by rw [Q.opt]; exact hq.notrend)) fun τ hτ => ?_
    rw [← rotaryCurve_same (by rw [Q.name, Q0.name]) hh (by rw [Q.reftime, Q0.reftime])]
    refine hz τ ?_
    obtain ⟨i, x, e1, -⟩ := hτ
    have hm : τ ∈ ([0.25, 0.375, 0.5, 0.625, 0.75] : List ℝ) := by
      have := List.mem_of_getElem? e1
      simpa [pentTn] using this
    simp only [List.mem_cons, List.not_mem_nil, or_false] at hm
    rcases hm with rfl | rfl | rfl | rfl | rfl
    · exact ⟨4, _, rfl, rfl⟩
    · exact ⟨3, _, rfl, rfl⟩
    · exact ⟨2, _, rfl, rfl⟩
    · exact ⟨1, _, rfl, rfl⟩
    · exact ⟨0, _, rfl, rfl⟩
  · unfold numPar sampleTimes
    rw [Q.name, Q.opt, hq.notrend]
    rw [show (usable backTn (pentSeries y0 y1 y2 y3 y4).data (Option.map Series.data none)).map Prod.fst = _ from
      back_usable y0 y1 y2 y3 y4]
    simp

end

/-! ## C129 -/

/-- Both noise models give intervals. -/
theorem back_ci (y0 y1 y2 y3 y4 : ℝ) (wh : Bool) :
    ∃ co, solve idealEnv pentBackT (pentSeries y0 y1 y2 y3 y4) none (some 45) (ciOpts "linear" wh) = .ok co ∧
      BackRun (ciOpt false true wh) co := by
  have R := back_ready y0 y1 y2 y3 y4
  obtain ⟨c0, hc0⟩ : ∃ c0, solve idealEnv pentBackT (pentSeries y0 y1 y2 y3 y4) none (some 45) (ciOpts "none" true) = .ok c0 := by
    refine solve_total idealEnv _ _ none 45 _ _ backTn (.names ["M2"]) .frequency (ciOpts_none false true) rfl rfl rfl rfl rfl
      ⟨by simpa using M2_known, .inl (by simp)⟩ rfl (.inr rfl) ⟨rfl, rfl, by simp⟩ R.ht R.hu R.hv back_times ?_
      (fun k => by simp [nodalSingular, exOpt]) (fun h => by simp [exOpt] at h)
    intro h0
    have hus := back_usable y0 y1 y2 y3 y4
    rw [show usable backTn (pentSeries y0 y1 y2 y3 y4).data none = [] from h0] at hus
    simp at hus
  have Q0 := back_facts _ _ _ _ _ _ _ _ (ciOpts_none false true) rfl rfl _ hc0
  obtain ⟨co, hco⟩ := C72_available R idealNum_ok.inv idealNum_ok.mvn (by decide)
    (by cases wh <;> decide) (ciOpts_requested "none" "linear" true wh)
    ⟨.str "ols", rfl, .inl rfl⟩ hc0 (by rw [Q0.opt]; rfl) Q0.kept (by rw [Q0.opt]; exact back_times)
    (back_over _ _ _ _ _ Q0 ⟨rfl, rfl, rfl, rfl, rfl⟩) _ (ciOpts_linear false wh) rfl
    (.inr ⟨rfl, by rw [back_finite]; exact back_even, 0.75, 0.625, [0.5, 0.375, 0.25], back_finite, by norm_num⟩)
  exact ⟨co, hco, back_facts _ _ _ _ _ _ _ _ (ciOpts_linear false wh) rfl rfl _ hco⟩

/-- **C129 is not so**: M2 in five samples three hours apart, given forwards, has a finite interval; given backwards, the
interval is NaN. -/
theorem C129_false : ¬ C129_full := by
  intro hfull
  obtain ⟨z, h0, h1, h2, h3, h4, hu, hr, hi⟩ := m2_pent
  obtain ⟨c, hname, H, ci, vX, vY, da, dg, r, hci, -, -, -, hint⟩ := pent_scalar z h0 h1 h2 h3 h4 hu hr hi
  obtain ⟨c', hc', Q'⟩ := back_ci _ _ _ _ _ false
  have hC : ColourRun idealEnv pentBackT _ none (some 45) (ciOpts "linear" false) c' backTn :=
    ⟨hc', by decide, ⟨.str "ols", rfl, .inl rfl⟩, by rw [Q'.opt]; rfl, by rw [Q'.opt]; rfl,
      by rw [Q'.opt]; rfl, by rw [Q'.opt]; rfl, Q'.kept, by rw [Q'.opt]; exact back_times⟩
  obtain ⟨ci', hci', hnan⟩ := C129_descending (back_ready _ _ _ _ _) idealNum_ok.inv hC 0.75 0.625 [0.5, 0.375, 0.25]
    (by rw [back_finite]; exact back_even) back_finite (by norm_num)
  obtain ⟨f1, f2⟩ := m2_freq
  have hN := hnan 0 (linFreqs 0.5 47) (by rw [Q'.frq]; rfl) ⟨(0.07218, 0.08884), by simp [noiseBands], by
    constructor <;> norm_num at f1 f2 ⊢ <;> linarith⟩
  have href : c.reftime = 0.5 := by
    exact (pent_run_facts (q := ciOpt false true false) (.inl rfl) (by decide) (ciOpts_linear false false)
      ⟨rfl, rfl, rfl, rfl, rfl⟩ rfl H.returned).reftime
  obtain ⟨k, k', g1, g2, g⟩ := hfull idealEnv pentT pentBackT _ _ none none (some 45) (ciOpts "linear" false) c c' pentTn backTn
    (pent_ready _ _ _ _ _ none (.inl rfl)) (back_ready _ _ _ _ _) idealNum_ok rfl
    ⟨H.returned, H.keys, H.ols, H.infer, H.ci, H.linear, H.kept, H.time⟩
    ⟨hC.returned, hC.keys, hC.ols, hC.infer, hC.ci, hC.linear, hC.kept, hC.time⟩
    (back_shuffled _ _ _ _ _) (by rw [Q'.name, hname]) (by rw [Q'.reftime, href])
  cases Option.some.inj (hci.symm.trans g1)
  cases Option.some.inj (hci'.symm.trans g2)
  obtain ⟨r, g3, g4⟩ := g 0 0 "M2" (by rw [hname]; rfl) (by rw [Q'.name]; rfl)
  have := (hint.symm.trans g3).trans (g4.symm.trans hN)
  cases Option.some.inj this

/-- White noise: forwards and backwards, the same interval. -/
example (y0 y1 y2 y3 y4 : ℝ) : ∃ c c', solve idealEnv pentT (pentSeries y0 y1 y2 y3 y4) none (some 45) (ciOpts "linear" true) = .ok c ∧
    solve idealEnv pentBackT (pentSeries y4 y3 y2 y1 y0) none (some 45) (ciOpts "linear" true) = .ok c' ∧ SameIntervals c c' := by
  obtain ⟨c, Q, -⟩ := pent_ci y0 y1 y2 y3 y4 none (.inl rfl) true
  obtain ⟨c', hc', Q'⟩ := back_ci y4 y3 y2 y1 y0 true
  refine ⟨c, c', Q.returned, hc', C129_white_partial (pent_ready _ _ _ _ _ none (.inl rfl)) (back_ready _ _ _ _ _) idealNum_ok.inv rfl
    ⟨Q.returned, by decide, ⟨.str "ols", rfl, .inl rfl⟩, by rw [Q.opt]; rfl, by rw [Q.opt]; rfl,
      by rw [Q.opt]; rfl, by rw [Q.opt]; rfl, Q.kept, by rw [Q.opt]; exact pent_times⟩
    ⟨hc', by decide, ⟨.str "ols", rfl, .inl rfl⟩, by rw [Q'.opt]; rfl, by rw [Q'.opt]; rfl,
      by rw [Q'.opt]; rfl, by rw [Q'.opt]; rfl, Q'.kept, by rw [Q'.opt]; exact back_times⟩
    (back_shuffled _ _ _ _ _) (by rw [Q.name, Q'.name]) (by rw [Q.reftime, Q'.reftime])⟩

/-! ## Unevenly sampled -/

def gapTn : List Fl := [.fin 2, .fin 1.25, .fin 1, .fin 0.5, .fin 0]

/-- Times 2, 1.25, 1, 0.5, 0: without intervals the record can be analysed, with coloured noise it cannot. -/
example (y0 y1 y2 y3 y4 : ℝ) :
    (∃ c, solve idealEnv ⟨[5], .float gapTn, []⟩ (pentSeries y0 y1 y2 y3 y4) none (some 45) (ciOpts "none" true) = .ok c) ∧
    ∀ c, solve idealEnv ⟨[5], .float gapTn, []⟩ (pentSeries y0 y1 y2 y3 y4) none (some 45) (ciOpts "linear" false) ≠ .ok c := by
  have R : Ready idealEnv ⟨[5], .float gapTn, []⟩ (pentSeries y0 y1 y2 y3 y4) none :=
    idealReady _ _ _ (by simp [TimeArg.WF, TimeArr.length, gapTn]) (by simp [Series.WF, pentSeries]) (by simp)
  have ht : normalizeTime idealEnv.dt64 (.float gapTn) (.str "python") = .ok gapTn := by
    show (Except.ok (gapTn.map _) : Except PyErr (List Fl)) = _
    congr 1
  have hf : finiteTimes gapTn = [2, 1.25, 1, 0.5, 0] := by simp [finiteTimes, gapTn, Fl.toReal?]
  have hu : (usable gapTn (pentSeries y0 y1 y2 y3 y4).data none).map Prod.fst = [2, 1.25, 1, 0.5, 0] := by
    simp [usable, pentSeries, gapTn, goodSamples, Fl.toReal?, Cell.value?]
  constructor
  · refine solve_total idealEnv _ _ none 45 _ _ gapTn (.names ["M2"]) .frequency (ciOpts_none false true) rfl rfl rfl rfl rfl
      ⟨by simpa using M2_known, .inl (by simp)⟩ rfl (.inr rfl) ⟨rfl, rfl, by simp⟩ R.ht R.hu R.hv ht ?_
      (fun k => by simp [nodalSingular, exOpt]) (fun h => by simp [exOpt] at h)
    intro h0
    rw [show usable gapTn (pentSeries y0 y1 y2 y3 y4).data none = [] from h0] at hu
    simp at hu
  · intro c hc
    obtain ⟨opt, p, tn, constit, m, W, rf, full, o, ind, F⟩ := solve_facts R hc
    have hopt : c.opt = ciOpt false true false := F.copt.trans (Except.ok.inj (F.hopt.symm.trans (ciOpts_linear false false)))
    have := C129_uneven (tn := gapTn) R hc (by rw [hopt]; exact ht) (by
      rw [hf]
      exact C68_uneven _ 0 1 2 1.25 1.25 1 rfl rfl rfl rfl (by norm_num [eps])) (by
      unfold sampleTimes
      rw [show (usable gapTn (pentSeries y0 y1 y2 y3 y4).data (Option.map Series.data none)).map Prod.fst = _ from hu]
      norm_num) (by rw [hopt]; rfl)
    rw [hopt] at this
    cases this

end

end UTide.Props
