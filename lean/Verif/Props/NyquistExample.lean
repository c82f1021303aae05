import Verif.Props.NyquistProps
import Verif.Props.OctRun
import Verif.Props.OrderProps

/-!
# C101 for S2 and S4, whose frequencies are exactly two and four cycles per day

Eight samples 1.5 hours apart determine them; samples twelve hours apart do not.
-/

namespace UTide.Props

noncomputable section

open Classical

theorem S2S4_known : ∀ n ∈ ["S2", "S4"], n ∈ constitNames := by decide +kernel

/-- The frequency at the place of a name. -/
theorem frq_of_name {E : Env} {t : TimeArg} {u : Series} {v : Option Series} {lat : Option ℝ}
    {opts : Dict PyVal} {c : Coef} (h : solve E t u v lat opts = .ok c) :
    c.frq = c.name.map fun n => linFreqs c.reftime (constitNames.idxOf n) := by
  obtain ⟨e1, e2, e3⟩ := permute_aligned h
  rw [e1, e2, List.map_map]
  refine List.map_congr_left fun k hk => ?_
  simp only [Function.comp, idxOf_nameAt (e3 k hk)]

theorem idx_S2 : constitNames.idxOf "S2" = 56 := by decide +kernel
theorem idx_S4 : constitNames.idxOf "S4" = 88 := by decide +kernel

theorem S2S4_frq {E : Env} {t : TimeArg} {u : Series} {v : Option Series} {lat : Option ℝ}
    {opts : Dict PyVal} {c : Coef} (h : solve E t u v lat opts = .ok c) (hp : c.name.Perm ["S2", "S4"]) :
    c.frq.Perm [1 / 12, 1 / 6] := by
  rw [frq_of_name h]
  refine (hp.map _).trans ?_
  simp only [List.map_cons, List.map_nil, idx_S2, idx_S4, freq_S2, freq_S4]
  exact List.Perm.refl _

theorem list_steady (ns : List String) (oc : PyVal) : Steady (listOpts ns oc) := ⟨.inl rfl, .inl rfl⟩
theorem list_notVanishing (ns : List String) (oc : PyVal) (c : Coef) : NotVanishing (listOpts ns oc) c := .inl rfl

/-- Eight samples. -/
def octSeries (ys : Fin 8 → ℝ) : Series := ⟨[8], (List.ofFn ys).map fun y => ⟨.fin y, false⟩⟩

theorem octS_ready (ys : Fin 8 → ℝ) : Ready idealEnv octT (octSeries ys) none :=
  idealReady _ _ _ (by simp [TimeArg.WF, TimeArr.length, octT, octTn]) (by simp [Series.WF, octSeries]) (by simp)

theorem octS_usable (ys : Fin 8 → ℝ) : (usable octTn (octSeries ys).data none).map Prod.fst = octTimes := by
  simp [usable, octSeries, octTn, octTimes, goodSamples, Fl.toReal?, Cell.value?, List.ofFn_succ]

theorem octS_returns (ys : Fin 8 → ℝ) :
    ∃ c, solve idealEnv octT (octSeries ys) none (some 45) (listOpts ["S2", "S4"] (.str "frequency")) = .ok c := by
  have := list_returns idealEnv octTn [] (octSeries ys).data (by simp [octTn, octSeries]) ["S2", "S4"] S2S4_known
    (by intro h; have := octS_usable ys; rw [h] at this; simp [octTimes] at this)
  simpa [octT, octTn, octSeries] using this

/-- What is known of a result of the eight samples. -/
theorem octS_opt {ys : Fin 8 → ℝ} {c : Coef}
    (h : solve idealEnv octT (octSeries ys) none (some 45) (listOpts ["S2", "S4"] (.str "frequency")) = .ok c) :
    c.opt = listOpt false ["S2", "S4"] (.str "frequency") ∧ c.name.Perm ["S2", "S4"] ∧ c.reftime = 7 / 32 := by
  have R := octS_ready ys
  obtain ⟨opt, p, tn, constit, m, W, rf, full, o, ind, F⟩ := solve_facts R h
  have ho : c.opt = listOpt false ["S2", "S4"] (.str "frequency") := by
    rw [F.copt]
    exact Except.ok.inj (F.hopt.symm.trans (listOpt_frequency false _))
  refine ⟨ho, (C17_honoured idealEnv octT (octSeries ys) none (some 45) _ R (someOpts_nodup _ _) .list (by simp) _ rfl rfl _ rfl c h).1
    (.inr ⟨_, rfl⟩), ?_⟩
  have htn : tn = octTn := by
    have := F.prep.init.time
    rw [← F.copt, ho] at this
    exact Except.ok.inj (this.symm.trans oct_times)
  subst htn
  rw [F.creftime]
  obtain ⟨-, -, -, -, h5⟩ := editData_usable _ _ _ (F.samples R).1 _ F.prep.init.edit
  have e1 : finiteTimes octTn = octTimes := by simp [finiteTimes, Fl.toReal?, octTn, octTimes]
  rw [e1, show (usable octTn (octSeries ys).data (Option.map Series.data none)).map Prod.fst = octTimes from octS_usable ys] at h5
  unfold timeStats at h5
  by_cases he : isEqui octTimes
  · simp only [he, if_true] at h5
    have h6 := congrArg Prod.fst (Except.ok.inj h5)
    exact h6.symm.trans (by show (0.5 : ℝ) * (0 + 7 / 16) = 7 / 32; norm_num)
  · simp only [he, if_false] at h5
    have h6 := congrArg Prod.fst (Except.ok.inj h5)
    exact h6.symm.trans (by show (0.5 : ℝ) * (0 + 7 / 16) = 7 / 32; norm_num)

theorem octS_stretch {ys : Fin 8 → ℝ} {c : Coef} (hn : c.name.Perm ["S2", "S4"])
    (ho : c.opt = listOpt false ["S2", "S4"] (.str "frequency")) :
    RegularStretch c (SampleTime octTn (octSeries ys).data none) (1 / 16) := by
  refine ⟨0, fun j hj => ?_⟩
  rw [hn.length_eq, ho] at hj
  have hj' : j < 5 := hj
  refine ⟨j, ((ys ⟨j, by omega⟩ : ℝ) : ℂ), ?_, ?_⟩ <;> interval_cases j <;>
    simp [octTn, octSeries, sampleValues, Cell.value?, Fl.toReal?, List.ofFn_succ] <;> norm_num

theorem S2S4_nyquist {l : List ℝ} (hf : l.Perm [1 / 12, 1 / 6]) :
    l.Nodup ∧ (∀ f ∈ l, 0 < f) ∧ ∀ f ∈ l, 2 * f < 1 / (24 * (1 / 16)) := by
  refine ⟨hf.nodup_iff.2 (by simp), fun f h => ?_, fun f h => ?_⟩ <;> rw [hf.mem_iff] at h <;> simp at h <;>
    rcases h with rfl | rfl <;> norm_num

/-- Whatever the eight values, S2 and S4 are separated. -/
example (ys : Fin 8 → ℝ) : ∃ c, solve idealEnv octT (octSeries ys) none (some 45) (listOpts ["S2", "S4"] (.str "frequency")) = .ok c ∧
    Separated c none false (SampleTime octTn (octSeries ys).data none) := by
  obtain ⟨c, hc⟩ := octS_returns ys
  obtain ⟨ho, hn, -⟩ := octS_opt hc
  obtain ⟨h1, h2, h3⟩ := S2S4_nyquist (S2S4_frq hc hn)
  exact ⟨c, hc, C101_separated (octS_ready ys) (someOpts_nodup _ _) hc (list_steady _ _) (list_notVanishing _ _ _) h1 h2 (1 / 16)
    (by norm_num) h3 _ (octS_stretch hn ho) none false⟩

/-- The sample times of the run, by number. -/
theorem octTn_get {i : ℕ} {τ : ℝ} (h : octTn[i]? = some (.fin τ)) : i < 8 ∧ τ = i / 16 := by
  have hi : i < 8 := by
    by_contra hc
    rw [List.getElem?_eq_none (by simp [octTn]; omega)] at h
    cases h
  refine ⟨hi, ?_⟩
  interval_cases i <;> simp [octTn] at h <;> rw [← h] <;> norm_num

/-- A mean of 5, S2 of amplitude 2 and S4 of amplitude 3 are found again in the eight samples of their sum. -/
example : ∃ c, solve idealEnv octT (octSeries fun i => 5 + 2 * Real.cos (4 * Real.pi * (i / 16 - 7 / 32)) +
      3 * Real.cos (8 * Real.pi * (i / 16 - 7 / 32))) none (some 45) (listOpts ["S2", "S4"] (.str "frequency")) = .ok c ∧
    c.mean = .one 5 none ∧
    ∀ i, (c.name[i]? = some "S2" → ∃ e, ellipseAt c.ell i = some e ∧ e.Lsmaj = 2 ∧ ∃ k : ℤ, e.g = 360 * k) ∧
      (c.name[i]? = some "S4" → ∃ e, ellipseAt c.ell i = some e ∧ e.Lsmaj = 3 ∧ ∃ k : ℤ, e.g = 360 * k) := by
  obtain ⟨c, hc⟩ := octS_returns fun i => 5 + 2 * Real.cos (4 * Real.pi * (i / 16 - 7 / 32)) +
      3 * Real.cos (8 * Real.pi * (i / 16 - 7 / 32))
  obtain ⟨ho, hn, hr⟩ := octS_opt hc
  obtain ⟨h1, h2, h3⟩ := S2S4_nyquist (S2S4_frq hc hn)
  have hE : ∀ k n : ℕ, linFreqs (7 / 32) k = n / 12 → ∀ τ,
      (utE c.opt.flags c.reftime c.lat τ (linFreqs c.reftime k) k).re = Real.cos (n * (4 * Real.pi * (τ - 7 / 32))) := by
    intro k n hf τ
    rw [hr, oct_utE c.opt.flags (by rw [ho]; exact ⟨rfl, rfl⟩) c.lat τ k n hf, octTurn_eq]
    show Real.cos _ = _
    congr 1; ring
  obtain ⟨k1, k2⟩ := C101_scalar (octS_ready _) (someOpts_nodup _ _) ⟨_, rfl, .inl rfl⟩ hc (list_kept (octS_ready _) _ c hc)
    (by rw [ho]; rfl) octTn (by rw [ho]; exact oct_times) (list_steady _ _) (list_notVanishing _ _ _) h1 h2 (1 / 16)
    (by norm_num) h3 (octS_stretch hn ho) (fun n => if n = "S2" then 2 else 3) (fun _ => 0) 5 0
    (fun n _ => by split <;> norm_num) (fun _ => rfl) (by
      intro i x τ hx hτ
      obtain ⟨hi, rfl⟩ := octTn_get hτ
      have hx' : x = 5 + 2 * Real.cos (4 * Real.pi * ((i : ℝ) / 16 - 7 / 32)) + 3 * Real.cos (8 * Real.pi * ((i : ℝ) / 16 - 7 / 32)) := by
        simp only [octSeries, List.map_ofFn, List.getElem?_ofFn, hi, dif_pos, Option.bind_some, Function.comp, Cell.value?,
          Fl.toReal?] at hx
        simpa using hx.symm
      unfold scalarCurve
      rw [(hn.map _).sum_eq, hx']
      simp only [List.map_cons, List.map_nil, List.sum_cons, List.sum_nil, harmonic, nameBasis, idx_S2, idx_S4, neg_zero, cisd_zero,
        mul_one, zero_mul, add_zero, if_true]
      rw [hE 56 1 (by rw [freq_S2]; norm_num), hE 88 2 (by rw [freq_S4]; norm_num), if_neg (by decide)]
      push_cast
      rw [one_mul, show (2 : ℝ) * (4 * Real.pi * ((i : ℝ) / 16 - 7 / 32)) = 8 * Real.pi * ((i : ℝ) / 16 - 7 / 32) by ring]
      ring)
  refine ⟨c, hc, by rw [k2, ho]; rfl, fun i => ⟨fun hi => ?_, fun hi => ?_⟩⟩
  · obtain ⟨e, e1, e2, -, -, e3⟩ := k1 i _ hi
    rw [if_pos rfl] at e2 e3
    obtain ⟨k, hk⟩ := e3 (by norm_num)
    exact ⟨e, e1, e2, k, by rw [hk]; ring⟩
  · obtain ⟨e, e1, e2, -, -, e3⟩ := k1 i _ hi
    rw [if_neg (by decide)] at e2 e3
    obtain ⟨k, hk⟩ := e3 (by norm_num)
    exact ⟨e, e1, e2, k, by rw [hk]; ring⟩

/-- Every twelve hours S2 and S4 come round to the same phases: they cannot be told apart. -/
example : ∃ c, solve idealEnv dayT dayU none (some 45) (listOpts ["S2", "S4"] (.str "frequency")) = .ok c ∧
    ¬ Separated c none false (SampleTime [.fin 0, .fin 0.5, .fin 1] dayU.data none) := by
  obtain ⟨c, hc⟩ := day_list ["S2", "S4"] S2S4_known
  have hn := day_list_names _ c hc
  obtain ⟨opt, p, tn, constit, m, W, rf, full, o, ind, F⟩ := solve_facts dayReady hc
  have ho : c.opt = listOpt false ["S2", "S4"] (.str "frequency") := by
    rw [F.copt]
    exact Except.ok.inj (F.hopt.symm.trans (listOpt_frequency false _))
  obtain ⟨i, hi⟩ := List.mem_iff_getElem?.1 (hn.mem_iff.2 (by simp : "S2" ∈ _))
  obtain ⟨i', hi'⟩ := List.mem_iff_getElem?.1 (hn.mem_iff.2 (by simp : "S4" ∈ _))
  refine ⟨c, hc, (C101_aliased dayReady idealNum_ok.inv (someOpts_nodup _ _) ⟨_, rfl, .inl rfl⟩ hc (by rw [ho]; rfl)
    (list_kept dayReady _ c hc) [.fin 0, .fin 0.5, .fin 1] (by rw [ho]; rfl) (list_steady _ _) (list_notVanishing _ _ _) 0.5 0 ?_
    i i' _ _ (1 / 12) (1 / 6) hi hi' (by decide) ?_ ?_ ⟨-1, .inl (by norm_num)⟩).1⟩
  · rintro τ ⟨j, x, hj, -⟩
    match j, hj with
    | 0, h => exact ⟨0, by simp at h; rw [← h]; norm_num⟩
    | 1, h => exact ⟨1, by simp at h; rw [← h]; norm_num⟩
    | 2, h => exact ⟨2, by simp at h; rw [← h]; norm_num⟩
  · rw [frq_of_name hc, List.getElem?_map, hi, Option.map_some, idx_S2, freq_S2]
  · rw [frq_of_name hc, List.getElem?_map, hi', Option.map_some, idx_S4, freq_S4]

end

end UTide.Props
