import Verif.Props.ZeroProps
import Verif.Props.SixExample

/-!
# C07 for a robust fit: an example
-/

namespace UTide.Props

noncomputable section

open Classical

/-- The six observations with a second component which is zero. -/
theorem six_zero : ∃ c, solve idealEnv sixT (sixSeries (sixY 1 0)) (some (sixSeries fun _ => 0)) (some 45)
    (methodOpts "robust" sixKw) = .ok c ∧ c.opt = { exOpt true with method := .robust sixKw } := by
  have hv : SixV (some (sixSeries fun _ => 0)) := .inr ⟨_, rfl⟩
  have R := six_ready (sixY 1 0) _ hv
  have hopt : getOpt (methodOpts "robust" sixKw) true = .ok { exOpt true with method := .robust sixKw } := by
    unfold methodOpts; rfl
  obtain ⟨c, hc⟩ := six_returns (sixY 1 0) _ hv (methodOpts "robust" sixKw) _ hopt
    ⟨rfl, rfl, rfl, rfl, rfl⟩ rfl rfl rfl (by
      intro z p hz hz' hp
      have hs : sigmaHat [((sixY 1 0 0 : ℂ) - sixY 1 0 1) / 2, ((sixY 1 0 1 : ℂ) - sixY 1 0 0) / 2,
          ((sixY 1 0 2 : ℂ) - sixY 1 0 3) / 2, ((sixY 1 0 3 : ℂ) - sixY 1 0 2) / 2,
          ((sixY 1 0 4 : ℂ) - sixY 1 0 5) / 2, ((sixY 1 0 5 : ℂ) - sixY 1 0 4) / 2] ≠ 0 := by
        have e : [((sixY 1 0 0 : ℂ) - sixY 1 0 1) / 2, ((sixY 1 0 1 : ℂ) - sixY 1 0 0) / 2,
          ((sixY 1 0 2 : ℂ) - sixY 1 0 3) / 2, ((sixY 1 0 3 : ℂ) - sixY 1 0 2) / 2,
          ((sixY 1 0 4 : ℂ) - sixY 1 0 5) / 2, ((sixY 1 0 5 : ℂ) - sixY 1 0 4) / 2] = [1, -1, 2, -2, -3, 3] := by
          simp only [sixY, List.cons.injEq, and_true]
          refine ⟨?_, ?_, ?_, ?_, ?_, ?_⟩ <;> · push_cast; simp [Matrix.cons_val]; try norm_num
        rw [e, six_sigma]; norm_num
      obtain ⟨out, hout⟩ := six_robust idealEnv.num idealNum_ok z hz hz' (sixY 1 0 0) (sixY 1 0 1) (sixY 1 0 2)
        (sixY 1 0 3) (sixY 1 0 4) (sixY 1 0 5) { robDefaults with maxit := 1 } rfl (.inr le_rfl) rfl rfl hs
      refine ⟨out.b, out.w, some out, ?_⟩
      unfold stageFit
      rw [hp.prep.hopt, hp.B, hp.nm, hp.x]
      show ((readRobArgs sixKw robDefaults) >>= fun a => _) = _
      have h1 : readRobArgs sixKw robDefaults = .ok { robDefaults with maxit := 1 } := by
        unfold sixKw readRobArgs; rfl
      have h2 : sixValues (sixY 1 0) (some (sixSeries fun _ => 0)) = [(sixY 1 0 0 : ℂ), (sixY 1 0 1 : ℂ),
          (sixY 1 0 2 : ℂ), (sixY 1 0 3 : ℂ), (sixY 1 0 4 : ℂ), (sixY 1 0 5 : ℂ)] := by
        unfold sixValues
        rw [Option.map_some, (six_samples _ _).2]; rfl
      rw [h1, ok_bind, h2, hout]
      rfl)
  obtain ⟨opt, p, tn, constit, m, W, rf, full, o, ind, F⟩ := solve_facts R hc
  exact ⟨c, hc, F.copt.trans (Except.ok.inj (hopt.symm.trans F.hopt)).symm⟩

/-- `C07_robust`: robust fits of the six observations as an elevation and as a current along the x axis. -/
example : ∃ c c' A g, solve idealEnv sixT (sixSeries (sixY 1 0)) none (some 45) (methodOpts "robust" sixKw) = .ok c ∧
    solve idealEnv sixT (sixSeries (sixY 1 0)) (some (sixSeries fun _ => 0)) (some 45)
      (methodOpts "robust" sixKw) = .ok c' ∧
    c'.weights = c.weights ∧ c.ell = .one A g ∧ c'.ell = .two A (A.map fun _ => 0) (A.map fun _ => 0) g := by
  obtain ⟨c, H⟩ := six_run' 1 0 one_ne_zero
  obtain ⟨c', hc', ho'⟩ := six_zero
  obtain ⟨h1, -, -, h2⟩ := C07_robust idealEnv sixT _ _ (some 45) (methodOpts "robust" sixKw) (methodOpts "robust" sixKw)
    (six_ready _ none (.inl rfl)) (six_ready _ _ (.inr ⟨_, rfl⟩)) (by simp [sixSeries, Cell.value?, Fl.toReal?])
    (by decide) (by decide) (fun _ _ => rfl) sixKw ⟨⟨"robust", by decide, rfl⟩, false, rfl⟩ ⟨by decide, by simp [sixKw]⟩
    c c' H.returned hc' none (by rw [H.opt]; rfl) (by rw [ho']; rfl)
  obtain ⟨-, -, -, -, A, g, h3, h4⟩ := h2 (by rw [H.opt]; simp [IsStr, exOpt])
  exact ⟨c, c', A, g, H.returned, hc', h1, h3, h4⟩

end

end UTide.Props
