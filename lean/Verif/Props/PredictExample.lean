import Verif.Props.PredictAgain
import Verif.Props.FourierExample

/-!
# A case of C136

Three samples of any values are analysed for S2; eight predictions are analysed for S2 and S4.
-/

namespace UTide.Props

noncomputable section

open Classical

def triTn : List Fl := [.fin 0, .fin (7 / 32), .fin (7 / 16)]
def triTimes : List ℝ := [0, 7 / 32, 7 / 16]
def triT : TimeArg := ⟨[3], .float triTn, []⟩
def triSeries (x y z : ℝ) : Series := ⟨[3], [⟨.fin x, false⟩, ⟨.fin y, false⟩, ⟨.fin z, false⟩]⟩

theorem tri_ready (x y z : ℝ) : Ready idealEnv triT (triSeries x y z) none :=
  idealReady _ _ _ (by simp [TimeArg.WF, TimeArr.length, triT, triTn]) (by simp [Series.WF, triSeries]) (by simp)

theorem tri_times : normalizeTime idealEnv.dt64 triT.arr (.str "python") = .ok triTn := by
  show (Except.ok (triTn.map _) : Except PyErr (List Fl)) = _
  congr 1

theorem tri_usable (x y z : ℝ) : (usable triTn (triSeries x y z).data none).map Prod.fst = triTimes := by
  simp [usable, triSeries, triTn, triTimes, goodSamples, Fl.toReal?, Cell.value?]

theorem tri_run (x y z : ℝ) : ∃ c, solve idealEnv triT (triSeries x y z) none (some 45)
    (listOpts ["S2"] (.str "frequency")) = .ok c ∧ c.name = ["S2"] ∧ c.reftime = 7 / 32 ∧ c.opt.notrend = true := by
  have R := tri_ready x y z
  obtain ⟨c, hc⟩ : ∃ c, solve idealEnv triT (triSeries x y z) none (some 45) (listOpts ["S2"] (.str "frequency")) = .ok c := by
    have := list_returns idealEnv triTn [] (triSeries x y z).data (by simp [triTn, triSeries]) ["S2"]
      (fun n hn => S2S4_known n (by rw [List.mem_singleton.1 hn]; simp))
      (by intro h; have := tri_usable x y z; rw [h] at this; simp [triTimes] at this)
    simpa [triT, triTn, triSeries] using this
  obtain ⟨opt, p, tn, constit, m, W, rf, full, o, ind, F⟩ := solve_facts R hc
  have ho : c.opt = listOpt false ["S2"] (.str "frequency") := by
    rw [F.copt]
    exact Except.ok.inj (F.hopt.symm.trans (listOpt_frequency false _))
  have hn : c.name = ["S2"] := List.perm_singleton.1 ((C17_honoured idealEnv triT (triSeries x y z) none (some 45) _ R
    (someOpts_nodup _ _) .list (by simp) _ rfl rfl _ rfl c hc).1 (.inr ⟨_, rfl⟩))
  refine ⟨c, hc, hn, ?_, by rw [ho]; rfl⟩
  have htn : tn = triTn := by
    have := F.prep.init.time
    rw [← F.copt, ho] at this
    exact Except.ok.inj (this.symm.trans tri_times)
  subst htn
  rw [F.creftime]
  obtain ⟨-, -, -, -, h5⟩ := editData_usable _ _ _ (F.samples R).1 _ F.prep.init.edit
  have e1 : finiteTimes triTn = triTimes := by simp [finiteTimes, Fl.toReal?, triTn, triTimes]
  rw [e1, show (usable triTn (triSeries x y z).data (Option.map Series.data none)).map Prod.fst = triTimes from
    tri_usable x y z] at h5
  unfold timeStats at h5
  by_cases he : isEqui triTimes
  · simp only [he, if_true] at h5
    have h6 := congrArg Prod.fst (Except.ok.inj h5)
    exact h6.symm.trans (by show (0.5 : ℝ) * (0 + 7 / 16) = 7 / 32; norm_num)
  · simp only [he, if_false] at h5
    have h6 := congrArg Prod.fst (Except.ok.inj h5)
    exact h6.symm.trans (by show (0.5 : ℝ) * (0 + 7 / 16) = 7 / 32; norm_num)

/-- Three samples `x`, `y`, `z` analysed for S2; the prediction `ys` at eight times analysed for S2 and S4. -/
example (x y z : ℝ) : ∃ (c c' : Coef) (ys : Fin 8 → ℝ),
    solve idealEnv triT (triSeries x y z) none (some 45) (listOpts ["S2"] (.str "frequency")) = .ok c ∧
    reconstruct idealEnv octT.arr c recAll = .ok (List.ofFn fun i => some (ys i : ℂ)) ∧
    solve idealEnv octT (octSeries ys) none (some 45) (listOpts ["S2", "S4"] (.str "frequency")) = .ok c' ∧
    SameTide c c' ∧ "S4" ∉ c.name ∧ "S4" ∈ c'.name := by
  have R := tri_ready x y z
  obtain ⟨c, hc, hn, hr, htr⟩ := tri_run x y z
  have hd : c.name.Nodup := by rw [hn]; simp
  obtain ⟨f, hf⟩ := prediction_real R (someOpts_nodup _ _) hc (list_kept R _ c hc) hd
  have hrec := hf recAll ⟨rfl, rfl, rfl⟩ idealEnv octT.arr
  rw [show normalizeTime idealEnv.dt64 octT.arr recAll.epoch = .ok octTn from oct_times] at hrec
  have hrec : reconstruct idealEnv octT.arr c recAll = .ok (List.ofFn fun i : Fin 8 => some ((f (i / 16) : ℝ) : ℂ)) := by
    rw [hrec]
    show Except.ok _ = _
    congr 1
    simp [octTn, List.ofFn_succ, Fl.toReal?]
    norm_num
  obtain ⟨c', hc'⟩ := octS_returns fun i : Fin 8 => f (i / 16)
  obtain ⟨ho', hn', hr'⟩ := octS_opt hc'
  obtain ⟨h1, h2, h3⟩ := S2S4_nyquist (S2S4_frq hc' hn')
  have R' := octS_ready fun i : Fin 8 => f (i / 16)
  have hsep := C101_separated R' (someOpts_nodup _ _) hc' (list_steady _ _) (list_notVanishing _ _ _)
    h1 h2 (1 / 16) (by norm_num) h3 _ (octS_stretch (ys := fun i : Fin 8 => f (i / 16)) hn' ho') none false
  have H' : OlsRun idealEnv (some 45) (listOpts ["S2", "S4"] (.str "frequency")) none octT
      (octSeries fun i : Fin 8 => f (i / 16)) none octTn c' :=
    ⟨R', someOpts_nodup _ _, ⟨_, rfl, .inl rfl⟩, hc', list_kept R' _ c' hc', by rw [ho']; rfl, by simp,
      by rw [ho']; exact oct_times, hn'.nodup_iff.2 (by simp)⟩
  refine ⟨c, c', fun i => f (i / 16), hc, hrec, hc', (C136_again R (someOpts_nodup _ _) hc (list_kept R _ c hc) hd H' rfl ?_ ?_
    (.inr (hr'.trans hr.symm)) (fun _ => htr) hsep recAll ⟨rfl, rfl, rfl⟩ (by rw [ho']; rfl) _ hrec ?_).1,
    by rw [hn]; simp, hn'.mem_iff.2 (by simp)⟩
  · intro n h
    rw [hn] at h
    rw [List.mem_singleton.1 h]
    exact hn'.mem_iff.2 (by simp)
  · intro k hk
    simp only [List.mem_cons, List.not_mem_nil, or_false] at hk
    rcases hk with rfl | rfl <;> rfl
  · intro i w h1 w' h2
    by_cases hi : i < 8
    · rw [List.getElem?_ofFn, dif_pos hi] at h2
      have h1 : some (some ((f (i / 16) : ℝ) : ℂ)) = some (some w) := by
        rw [← h1]
        interval_cases i <;> simp [octSeries, sampleValues, Cell.value?, Fl.toReal?] <;> norm_num
      exact Option.some.inj (Option.some.inj (h1.symm.trans h2))
    · rw [List.getElem?_ofFn, dif_neg hi] at h2
      cases h2

end

end UTide.Props
