import Verif.Props.OutputProps
import Verif.Props.OctRun
import Verif.Props.BoundProps

/-!
# Cases of C102
-/

namespace UTide.Props

noncomputable section

open Classical

/-- A current without trend and intervals, in order of frequency. -/
example : ∃ c, solve idealEnv dayT (daySeries 1 0 2) (some (daySeries 0 1 1)) (some 45) exOpts = .ok c ∧
    (coefOut c).keys.Perm ["name", "aux", "nR", "nNR", "nI", "weights", "Lsmaj", "Lsmin", "theta", "g", "umean", "vmean"] ∧
    ∀ k x, (k, x) ∈ coefOut c → k ∈ constituentArrays → lenOut x = some 1 := by
  obtain ⟨c, hc, D⟩ := day_run 1 0 2 (some (daySeries 0 1 1)) (.inr ⟨0, 1, 1, rfl⟩)
  have R := day_ready 1 0 2 (some (daySeries 0 1 1)) (.inr ⟨0, 1, 1, rfl⟩)
  have h1 := (C102_entries R (by decide) hc _ _ _ _ false rfl rfl rfl rfl rfl).1
  have h2 := (C102_arrays R hc).1
  rw [D.name] at h2
  refine ⟨c, hc, h1.trans (List.Perm.of_eq ?_), h2⟩
  simp [IsStr, documentedEntries]

/-- The names and `aux` of that result. -/
example : ∃ c d, solve idealEnv dayT (daySeries 1 0 2) (some (daySeries 0 1 1)) (some 45) exOpts = .ok c ∧
    (coefOut c).get? "name" = some (.names ["M2"]) ∧ (coefOut c).get? "aux" = some (.dict d) ∧
    Dict.get? d "reftime" = some (.num 0.5) ∧ Dict.get? d "lat" = some (.num 45) := by
  obtain ⟨c, hc, D⟩ := day_run 1 0 2 (some (daySeries 0 1 1)) (.inr ⟨0, 1, 1, rfl⟩)
  obtain ⟨⟨h1, -⟩, ⟨d, h2, -, -, -, h3, h4, -⟩, -⟩ := C102_values c
  rw [D.name] at h1
  rw [D.reftime] at h3
  rw [D.lat] at h4
  exact ⟨c, d, hc, h1, h2, h3, h4⟩

/-- An elevation with linearised intervals. -/
example : ∃ c, solve idealEnv octT octU none (some 45) (octOpts "linear") = .ok c ∧
    (coefOut c).keys.Perm ["name", "aux", "nR", "nNR", "nI", "weights", "A", "g", "mean", "A_ci", "g_ci", "diagn", "SNR", "PE"] := by
  obtain ⟨c, ci, O⟩ := oct_run
  have h1 := (C102_entries oct_ready (by decide) O.returned _ _ _ _ false rfl rfl rfl rfl rfl).1
  refine ⟨c, O.returned, h1.trans (List.Perm.of_eq ?_)⟩
  simp [IsStr, documentedEntries]

/-- Day 100 as a single Matlab day number, and as a 1x1 array, which is refused. -/
example : ∃ c out x, solve idealEnv dayT (daySeries 1 0 2) none (some 45) exOpts = .ok c ∧
    reconstructOut idealEnv ⟨[], .float [.fin 466], []⟩ c { recAll with epoch := .str "matlab" } = .ok out ∧
    out.get? "t_mpl" = some (.floats [.fin 100]) ∧ out.get? "h" = some (.series [some x]) ∧
    reconstructOut idealEnv ⟨[1, 1], .float [.fin 466], []⟩ c { recAll with epoch := .str "matlab" } = .error .valueError := by
  obtain ⟨c, hc, D⟩ := day_run 1 0 2 none (.inl rfl)
  have hR := day_ready 1 0 2 none (.inl rfl)
  have hr := C36_selected idealEnv dayT _ none (some 45) exOpts hR (by decide) c hc D.kept idealEnv (.float [.fin 466])
    { recAll with epoch := .str "matlab" }
  have ht : normalizeTime idealEnv.dt64 (.float [.fin 466]) (.str "matlab") = .ok [.fin 100] := by
    show (Except.ok [Fl.fin (466 - 366)] : Except PyErr (List Fl)) = _
    norm_num
  rw [ht] at hr
  obtain ⟨out, ho⟩ := (C102_axes (E := idealEnv) (t := ⟨[], .float [.fin 466], []⟩) (c := c)
    (a := { recAll with epoch := .str "matlab" })).2 (by simp) |>.2 ⟨_, hr⟩
  obtain ⟨-, -, -, -, -, -, ⟨tn, g1, -, g2⟩, r, g3, -, g4⟩ := C102_reconstruct out ho
  cases Except.ok.inj (g1.symm.trans ht)
  cases Except.ok.inj (g3.symm.trans hr)
  rw [D.opt] at g4
  exact ⟨c, out, _, hc, ho, g2 (by simp [IsStr]), g4, C102_axes.1 (by simp)⟩

end

end UTide.Props
