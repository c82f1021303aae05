import Verif.Props.EnergyExample

/-!
# C36: the thresholds of `reconstruct`
-/

namespace UTide.Props

noncomputable section

open Classical

/-- Specification: a value is at least `x`: infinity is, NaN is not. -/
def Reaches (x : ℝ) : Fl → Prop
  | .fin y => x ≤ y
  | .pinf => True
  | .ninf => False
  | .nan => False

theorem reaches_iff (x : ℝ) (s : Fl) : Fl.fin x ≤ s ↔ Reaches x s := by
  cases s <;> exact Iff.rfl

/-- **C36**, by thresholds: without `constit`, and with `min_SNR` or `min_PE` other than zero, the constituents used are
exactly those whose `SNR` and `PE` in the solution reach the thresholds. One whose `SNR` or `PE` is NaN is never used; one
of infinite `SNR` passes any `min_SNR`. -/
theorem C36_thresholds (E : Env) (t : TimeArg) (u : Series) (v : Option Series) (lat : Option ℝ) (opts : Dict PyVal)
    (R : Ready E t u v) (hnd : opts.keys.Nodup) (c : Coef) (h : solve E t u v lat opts = .ok c) (hk : AllKept c)
    (E' : Env) (t' : TimeArr) (a : RecArgs) (ha : a.constit = none) (h0 : a.minSNR ≠ 0 ∨ a.minPE ≠ 0) (S P : List Fl)
    (hS : c.SNR = some S) (hP : c.PE = some P) :
    reconstruct E' t' c a = (normalizeTime E'.dt64 t' a.epoch).map fun tn => tn.map fun x => x.toReal?.map fun τ =>
      level c τ + (((List.range c.name.length).filter fun i => (∃ s, S[i]? = some s ∧ Reaches a.minSNR s) ∧
        ∃ p, P[i]? = some p ∧ Reaches a.minPE p).map (tide c τ)).sum := by
  have hsel : ∀ i, Selected c a i ↔ (∃ s, S[i]? = some s ∧ Reaches a.minSNR s) ∧ ∃ p, P[i]? = some p ∧ Reaches a.minPE p := by
    intro i
    unfold Selected
    rw [ha]
    dsimp only
    constructor
    · rintro (⟨h1, h2⟩ | h1 | ⟨S', P', s, p, e1, e2, e3, e4, e5, e6⟩)
      · exact (h0.elim (fun h => h h1) fun h => h h2).elim
      · rw [hS] at h1; cases h1
      · rw [hS] at e1
        rw [hP] at e2
        cases e1
        cases e2
        exact ⟨⟨s, e3, (reaches_iff _ _).1 e5⟩, p, e4, (reaches_iff _ _).1 e6⟩
    · rintro ⟨⟨s, h1, h2⟩, p, h3, h4⟩
      exact .inr (.inr ⟨S, P, s, p, hS, hP, h1, h3, (reaches_iff _ _).2 h2, (reaches_iff _ _).2 h4⟩)
  rw [C36_selected E t u v lat opts R hnd c h hk E' t' a]
  have : (fun i => decide (Selected c a i)) = fun i => decide ((∃ s, S[i]? = some s ∧ Reaches a.minSNR s) ∧
      ∃ p, P[i]? = some p ∧ Reaches a.minPE p) := by
    funext i
    exact decide_eq_decide.2 (hsel i)
  rw [this]

/-- Non-vacuity: a spike in eight samples over half a day, analysed for S2 and S4 with intervals; a threshold of 1 percent
of the energy. -/
example : ∃ (c : Coef) (S P : List Fl), solve idealEnv octT (octSeries spike) none (some 45) (listCiOpts ["S2", "S4"]) = .ok c ∧
    c.SNR = some S ∧ c.PE = some P ∧ ∀ (E' : Env) (t' : TimeArr),
      reconstruct E' t' c { recAll with minPE := 1 } = (normalizeTime E'.dt64 t' recAll.epoch).map fun tn => tn.map fun x =>
        x.toReal?.map fun τ => level c τ + (((List.range c.name.length).filter fun i =>
          (∃ s, S[i]? = some s ∧ Reaches recAll.minSNR s) ∧ ∃ p, P[i]? = some p ∧ Reaches 1 p).map (tide c τ)).sum := by
  obtain ⟨c, i, l, p, H, hn, hi, hl, hlp, hnz, hr⟩ := spike_run
  have R := octS_ready spike
  have hc := H.returned
  obtain ⟨S, hS⟩ : ∃ S, c.SNR = some S := by
    cases hs : c.SNR with
    | some S => exact ⟨S, rfl⟩
    | none =>
      obtain ⟨ci, qu, qv, h1, -⟩ := white_facts R idealNum_ok.inv H
      rw [(C83_snr idealEnv octT _ none _ _ R H.keys c hc).1.1 hs] at h1
      cases h1
  exact ⟨c, S, l, hc, hS, hl, fun E' t' => C36_thresholds idealEnv octT _ none _ _ R H.keys c hc H.kept E' t' _ rfl
    (.inr one_ne_zero) S l hS hl⟩

end

end UTide.Props
