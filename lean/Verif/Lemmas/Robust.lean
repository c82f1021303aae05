import Verif.Model.Robust
import Verif.Lemmas.Options
import Verif.Lemmas.Lstsq
import Mathlib.Analysis.SpecialFunctions.Trigonometric.DerivHyp
import Mathlib.Analysis.SpecialFunctions.Trigonometric.Bounds
import Mathlib.Analysis.Convex.SpecificFunctions.Deriv
import Mathlib.Analysis.Convex.Slope

/-!
# The iteration of `robustfit`
-/

namespace UTide

noncomputable section

open Classical

/-! ## Weights -/

theorem tanh_div_antitone {a b : ℝ} (ha : 1 ≤ a) (hab : a ≤ b) : Real.tanh b / b ≤ Real.tanh a / a := by
  have h : AntitoneOn (fun x : ℝ => Real.tanh x / x) (Set.Ici 1) := by
    have hd : ∀ x : ℝ, 1 ≤ x → HasDerivAt (fun x : ℝ => Real.tanh x / x)
        (((Real.cosh x * Real.cosh x - Real.sinh x * Real.sinh x) / Real.cosh x ^ 2 * x - Real.tanh x * 1) / x ^ 2) x := by
      intro x hx
      have hc : Real.cosh x ≠ 0 := (Real.cosh_pos x).ne'
      have h1 : HasDerivAt Real.tanh
          ((Real.cosh x * Real.cosh x - Real.sinh x * Real.sinh x) / Real.cosh x ^ 2) x := by
        have := (Real.hasDerivAt_sinh x).div (Real.hasDerivAt_cosh x) hc
        refine this.congr_of_eventuallyEq (Filter.Eventually.of_forall fun y => ?_)
        exact Real.tanh_eq_sinh_div_cosh y
      exact h1.div (hasDerivAt_id x) (by positivity)
    refine antitoneOn_of_deriv_nonpos (convex_Ici 1) ?_ ?_ ?_
    · intro x hx
      exact (hd x hx).continuousAt.continuousWithinAt
    · intro x hx
      rw [interior_Ici] at hx
      exact (hd x (le_of_lt hx)).differentiableAt.differentiableWithinAt
    · intro x hx
      rw [interior_Ici] at hx
      have hx' : (1 : ℝ) ≤ x := le_of_lt hx
      rw [(hd x hx').deriv]
      refine div_nonpos_of_nonpos_of_nonneg ?_ (by positivity)
      have hc := Real.cosh_pos x
      have hs : Real.cosh x * Real.cosh x - Real.sinh x * Real.sinh x = 1 := by
        have := Real.cosh_sq x; nlinarith
      rw [hs, Real.tanh_eq_sinh_div_cosh]
      have h1 : x ≤ Real.sinh x := Real.self_le_sinh_iff.2 (by linarith)
      have h2 : 1 ≤ Real.cosh x := Real.one_le_cosh x
      have h3 : x ≤ Real.sinh x * Real.cosh x := by nlinarith
      rw [sub_nonpos, mul_one, one_div, inv_mul_eq_div, div_le_div_iff₀ (by positivity) hc]
      nlinarith
  exact h ha (le_trans ha hab) hab

theorem sinc_antitone {a b : ℝ} (ha : 0 < a) (hab : a ≤ b) (hb : b ≤ Real.pi) :
    Real.sin b / b ≤ Real.sin a / a := by
  rcases hab.eq_or_lt with rfl | hab
  · exact le_rfl
  have := strictConcaveOn_sin_Icc.concaveOn.slope_anti_adjacent (x := 0) (y := a) (z := b)
    ⟨le_rfl, Real.pi_pos.le⟩ ⟨by linarith, hb⟩ ha hab
  simp only [Real.sin_zero, sub_zero] at this
  have hb' : 0 < b := by linarith
  have hba : 0 < b - a := by linarith
  rw [div_le_div_iff₀ hba ha] at this
  rw [div_le_div_iff₀ hb' ha]
  nlinarith

theorem WFun.weight_range (f : WFun) (r : ℂ) : 0 ≤ f.weight r ∧ f.weight r ≤ 1 := by
  have hn := norm_nonneg r
  cases f <;> simp only [WFun.weight]
  · set a := max (Real.sqrt WFun.weight.eps52) ‖r‖
    have ha : 0 < a := lt_of_lt_of_le (Real.sqrt_pos.2 (by unfold WFun.weight.eps52; positivity)) (le_max_left _ _)
    by_cases h : a < Real.pi
    · rw [if_pos h, one_mul]
      exact ⟨div_nonneg (Real.sin_nonneg_of_nonneg_of_le_pi ha.le h.le) ha.le,
        (div_le_one ha).2 (Real.sin_le ha.le)⟩
    · rw [if_neg h]; simp
  · by_cases h : ‖r‖ < 1
    · rw [if_pos h, one_mul]
      refine ⟨by positivity, ?_⟩
      have h1 : ‖r‖ ^ 2 ≤ 1 := by nlinarith
      have h2 : 0 ≤ ‖r‖ ^ 2 := by positivity
      nlinarith
    · rw [if_neg h]; simp
  · exact ⟨by positivity, (div_le_one (by positivity)).2 (by nlinarith [sq_nonneg ‖r‖])⟩
  · exact ⟨by positivity, (div_le_one (by positivity)).2 (by linarith)⟩
  · have : 0 < max 1 ‖r‖ := lt_of_lt_of_le one_pos (le_max_left _ _)
    exact ⟨by positivity, (div_le_one this).2 (le_max_left _ _)⟩
  · have h1 : 1 ≤ max (Real.sqrt 1) ‖r‖ := by rw [Real.sqrt_one]; exact le_max_left _ _
    generalize max (Real.sqrt 1) ‖r‖ = a at h1
    have ht : Real.tanh a ≤ a := by
      have := tanh_div_antitone (le_refl 1) h1
      rw [div_one] at this
      have h3 : Real.tanh a < 1 := Real.tanh_lt_one a
      linarith
    exact ⟨div_nonneg (by
      rw [Real.tanh_eq_sinh_div_cosh]
      exact div_nonneg (Real.sinh_nonneg_iff.2 (by linarith)) (Real.cosh_pos a).le) (by linarith),
      (div_le_one (by linarith)).2 ht⟩
  · simp
  · by_cases h : ‖r‖ < 1
    · rw [if_pos h]; simp
    · rw [if_neg h]; simp
  · refine ⟨(Real.exp_pos _).le, ?_⟩
    rw [Real.exp_le_one_iff]
    nlinarith [sq_nonneg ‖r‖]

theorem WFun.weight_norm (f : WFun) (r r' : ℂ) (h : ‖r‖ = ‖r'‖) : f.weight r = f.weight r' := by
  unfold WFun.weight; rw [h]

theorem WFun.weight_antitone (f : WFun) (r r' : ℂ) (h : ‖r‖ ≤ ‖r'‖) : f.weight r' ≤ f.weight r := by
  have hn := norm_nonneg r
  have hr' := f.weight_range r
  cases f <;> simp only [WFun.weight] at hr' ⊢
  · have hm : max (Real.sqrt WFun.weight.eps52) ‖r‖ ≤ max (Real.sqrt WFun.weight.eps52) ‖r'‖ := max_le_max le_rfl h
    have ha : 0 < max (Real.sqrt WFun.weight.eps52) ‖r‖ :=
      lt_of_lt_of_le (Real.sqrt_pos.2 (by unfold WFun.weight.eps52; positivity)) (le_max_left _ _)
    generalize max (Real.sqrt WFun.weight.eps52) ‖r‖ = a at *
    generalize max (Real.sqrt WFun.weight.eps52) ‖r'‖ = b at *
    by_cases h : b < Real.pi
    · rw [if_pos h, if_pos (lt_of_le_of_lt hm h), one_mul, one_mul]
      exact sinc_antitone ha hm h.le
    · rw [if_neg h]; simpa using hr'.1
  · by_cases h' : ‖r'‖ < 1
    · rw [if_pos h', if_pos (lt_of_le_of_lt h h'), one_mul, one_mul]
      have h1 : ‖r‖ ^ 2 ≤ ‖r'‖ ^ 2 := by gcongr
      have h2 : ‖r'‖ ^ 2 ≤ 1 := by nlinarith
      exact pow_le_pow_left₀ (by linarith) (by linarith) 2
    · rw [if_neg h']; simpa using hr'.1
  · gcongr
  · gcongr
  · have : 0 < max 1 ‖r‖ := lt_of_lt_of_le one_pos (le_max_left _ _)
    gcongr
  · exact tanh_div_antitone (by rw [Real.sqrt_one]; exact le_max_left _ _) (max_le_max le_rfl h)
  · exact le_rfl
  · by_cases h' : ‖r'‖ < 1
    · rw [if_pos h', if_pos (lt_of_le_of_lt h h')]
    · rw [if_neg h']; exact hr'.1
  · apply Real.exp_le_exp.2
    have : ‖r‖ ^ 2 ≤ ‖r'‖ ^ 2 := by gcongr
    linarith

theorem WFun.weight_zero (f : WFun) (h : f.usesMax = false) : f.weight 0 = 1 := by
  cases f <;> simp_all [WFun.weight, WFun.usesMax]

theorem WFun.apply_ok (f : WFun) (r : List ℂ) (w : List ℝ) :
    f.apply r = .ok w ↔ (f.usesMax = true → r.length = 1) ∧ w = r.map f.weight := by
  unfold WFun.apply
  by_cases h : f.usesMax = true
  · by_cases h1 : r.length = 1
    · simp [h, h1, eq_comm]
    · by_cases h0 : r.length = 0
      · simp [h, h0]
      · simp [h, h1, h0]
  · simp only [Bool.not_eq_true] at h
    simp [h, eq_comm]

/-! ## Improvement -/

theorem improvement_neg {a b : ℝ} (ha : 0 ≤ a) (hb : 0 ≤ b) :
    improvement a b < Fl.fin 0 ↔ a < b := by
  unfold improvement Fl.div
  by_cases h : a = 0
  · subst h
    simp only [if_true, zero_sub, neg_eq_zero]
    by_cases hb0 : b = 0
    · subst hb0; rw [if_pos rfl]; exact ⟨fun h => h.elim, fun h => absurd h (lt_irrefl _)⟩
    · have : 0 < b := lt_of_le_of_ne hb (Ne.symm hb0)
      rw [if_neg hb0, if_neg (by linarith)]
      exact ⟨fun _ => this, fun _ => trivial⟩
  · dsimp only
    rw [if_neg h]
    have : 0 < a := lt_of_le_of_ne ha (Ne.symm h)
    show (a - b) / a < 0 ↔ _
    rw [div_lt_iff₀ this]
    constructor <;> intro h <;> linarith

theorem improvement_small {a b : ℝ} (ha : 0 ≤ a) (hb : 0 ≤ b) (t : ℚ) (h0 : ¬ improvement a b < Fl.fin 0) :
    improvement a b < Fl.fin (t : ℝ) ↔ a - b < t * a := by
  have hab : ¬ a < b := fun h => h0 ((improvement_neg ha hb).2 h)
  unfold improvement Fl.div
  by_cases h : a = 0
  · subst h
    have : b = 0 := by linarith
    subst this
    simp only [if_true, zero_sub, neg_zero]
    exact ⟨fun h => h.elim, fun h => by simp at h⟩
  · dsimp only
    rw [if_neg h]
    have : 0 < a := lt_of_le_of_ne ha (Ne.symm h)
    show (a - b) / a < t ↔ _
    rw [div_lt_iff₀ this]

/-! ## The passes -/

variable (N : Num) (p : RobProblem)

/-- Weights used in pass `k`. -/
def passW : ℕ → List ℝ
  | 0 => p.y.map fun _ => 1
  | k + 1 => (rNormed (residual p (weightedFit N p (passW k)).b) p.rfac).map p.wf.weight

/-- Fit of pass `k`. -/
def passFit (k : ℕ) : Lstsq := weightedFit N p (passW N p k)

/-- Weighted mean square misfit of pass `k`. -/
def passMs (k : ℕ) : ℝ := (passFit N p k).resid.getD 0 / (passW N p k).sum

/-- The state after pass `j`. -/
def passOld (j : ℕ) : Old := ⟨passFit N p j, passW N p j, passMs N p j, residual p (passFit N p j).b⟩

/-- Reweighting after pass `j` is possible. -/
def Goes (j : ℕ) : Prop :=
  ¬ (p.wf ≠ .ols ∧ sigmaHat (residual p (passFit N p j).b) = 0) ∧
  (p.wf.usesMax = true → (rNormed (residual p (passFit N p j).b) p.rfac).length = 1)

theorem reweight_ok (j : ℕ) (st : RobStep) :
    reweight p (passFit N p j) (passW N p j) (passMs N p j) = .ok st ↔
      Goes N p j ∧ st = .next (passOld N p j) (passW N p (j + 1)) := by
  unfold reweight Goes
  dsimp only
  by_cases h : p.wf ≠ .ols ∧ sigmaHat (residual p (passFit N p j).b) = 0
  · rw [if_pos h]; simp [h]
  · rw [if_neg h]
    simp only [bind_eq_ok, pure_eq_ok, Except.ok.injEq, WFun.apply_ok]
    constructor
    · rintro ⟨w', ⟨h1, rfl⟩, rfl⟩
      exact ⟨⟨h, h1⟩, rfl⟩
    · rintro ⟨⟨_, h1⟩, rfl⟩
      exact ⟨_, ⟨h1, rfl⟩, rfl⟩

/-- Pass `j` was accepted and followed by reweighting. -/
def Passed (j : ℕ) : Prop :=
  (passFit N p j).resid.isSome ∧ Goes N p j ∧
  (1 ≤ j → ¬ improvement (passMs N p (j - 1)) (passMs N p j) < Fl.fin 0 ∧
    ¬ improvement (passMs N p (j - 1)) (passMs N p j) < Fl.fin p.tol)

/-- How the loop ended after fit number `n` was accepted. -/
inductive Ending (maxit n : ℕ) (e : RobEnd) : Prop
  | worse (h : n + 1 < maxit) (hp : Passed N p n) (hw : e.w = passW N p n) (hr : e.resid = residual p (passFit N p n).b)
      (hs : (passFit N p (n + 1)).resid.isSome) (hi : improvement (passMs N p n) (passMs N p (n + 1)) < Fl.fin 0)
  | small (h : 1 ≤ n) (hw : e.w = passW N p n) (hr : e.resid = residual p (passFit N p (n - 1)).b)
      (hi0 : ¬ improvement (passMs N p (n - 1)) (passMs N p n) < Fl.fin 0)
      (hi : improvement (passMs N p (n - 1)) (passMs N p n) < Fl.fin p.tol)
  | exhausted (h : n + 1 = maxit) (hw : e.w = passW N p (n + 1)) (hr : e.resid = residual p (passFit N p n).b)
      (hp : Passed N p n)

theorem robStep_none (st : RobStep) :
    robStep N p 0 (passW N p 0) none = .ok st ↔
      Passed N p 0 ∧ st = .next (passOld N p 0) (passW N p 1) := by
  unfold robStep
  dsimp only
  have hf : weightedFit N p (passW N p 0) = passFit N p 0 := rfl
  rw [hf]
  cases hr : (passFit N p 0).resid with
  | none => simp [Passed, hr]
  | some s =>
    have : s / (passW N p 0).sum = passMs N p 0 := by simp [passMs, hr]
    dsimp only
    rw [this, reweight_ok]
    simp [Passed, hr]

theorem robStep_some (j : ℕ) (st : RobStep) :
    robStep N p (j + 1) (passW N p (j + 1)) (some (passOld N p j)) = .ok st ↔
      (passFit N p (j + 1)).resid.isSome ∧
      ((improvement (passMs N p j) (passMs N p (j + 1)) < Fl.fin 0 ∧
          st = .stop ⟨passFit N p j, passW N p j, residual p (passFit N p j).b, j + 1⟩) ∨
       (¬ improvement (passMs N p j) (passMs N p (j + 1)) < Fl.fin 0 ∧
          improvement (passMs N p j) (passMs N p (j + 1)) < Fl.fin p.tol ∧
          st = .stop ⟨passFit N p (j + 1), passW N p (j + 1), residual p (passFit N p j).b, j + 2⟩) ∨
       (Passed N p (j + 1) ∧ st = .next (passOld N p (j + 1)) (passW N p (j + 2)))) := by
  unfold robStep
  dsimp only
  have hf : weightedFit N p (passW N p (j + 1)) = passFit N p (j + 1) := rfl
  rw [hf]
  cases hr : (passFit N p (j + 1)).resid with
  | none => simp
  | some s =>
    have : s / (passW N p (j + 1)).sum = passMs N p (j + 1) := by simp [passMs, hr]
    dsimp only
    rw [this]
    have ho : (passOld N p j).rmeansq = passMs N p j := rfl
    rw [ho]
    by_cases h1 : improvement (passMs N p j) (passMs N p (j + 1)) < Fl.fin 0
    · rw [if_pos h1]
      constructor
      · intro h; exact ⟨rfl, .inl ⟨h1, (Except.ok.inj h).symm⟩⟩
      · rintro ⟨_, ⟨_, rfl⟩ | ⟨h, _⟩ | ⟨h, _⟩⟩
        · rfl
        · exact absurd h1 h
        · exact absurd h1 (h.2.2 (by omega)).1
    · rw [if_neg h1]
      by_cases h2 : improvement (passMs N p j) (passMs N p (j + 1)) < Fl.fin p.tol
      · rw [if_pos h2]
        constructor
        · intro h; exact ⟨rfl, .inr (.inl ⟨h1, h2, (Except.ok.inj h).symm⟩)⟩
        · rintro ⟨_, ⟨h, _⟩ | ⟨_, _, rfl⟩ | ⟨h, _⟩⟩
          · exact absurd h h1
          · rfl
          · exact absurd h2 (h.2.2 (by omega)).2
      · rw [if_neg h2, reweight_ok]
        simp [h1, h2, Passed, hr]

theorem robLoop_some (maxit k : ℕ) (j : ℕ) (hk : k + (j + 1) = maxit) (e : RobEnd)
    (h : robLoop N p maxit k (j + 1) (passW N p (j + 1)) (some (passOld N p j)) = .ok e) (hj : Passed N p j) :
    ∃ n, j ≤ n ∧ n < maxit ∧ e.fit = passFit N p n ∧ e.iterations = n + 1 ∧
      (passFit N p n).resid.isSome ∧
      (∀ i, j < i → i < n → Passed N p i) ∧ Ending N p maxit n e := by
  induction k generalizing j with
  | zero =>
    simp only [robLoop, Except.ok.injEq] at h
    subst h
    exact ⟨j, le_rfl, by omega, rfl, (by omega : maxit = j + 1), hj.1, fun i h1 h2 => by omega,
      .exhausted (by omega) rfl rfl hj⟩
  | succ k ih =>
    simp only [robLoop] at h
    cases hs : robStep N p (j + 1) (passW N p (j + 1)) (some (passOld N p j)) with
    | error e' => rw [hs] at h; simp at h
    | ok st =>
      rw [hs] at h
      obtain ⟨h0, h' | h' | h'⟩ := (robStep_some N p j st).1 hs
      · obtain ⟨h1, rfl⟩ := h'
        simp only [Except.ok.injEq] at h
        subst h
        exact ⟨j, le_rfl, by omega, rfl, rfl, hj.1, fun i h1 h2 => by omega, .worse (by omega) hj rfl rfl h0 h1⟩
      · obtain ⟨h1, h2, rfl⟩ := h'
        simp only [Except.ok.injEq] at h
        subst h
        exact ⟨j + 1, by omega, by omega, rfl, rfl, h0, fun i h1 h2 => by omega, .small (by omega) rfl rfl h1 h2⟩
      · obtain ⟨h1, rfl⟩ := h'
        simp only at h
        obtain ⟨n, a1, a2, a3, a4, a5, a6, a7⟩ := ih (j + 1) (by omega) h h1
        refine ⟨n, by omega, a2, a3, a4, a5, fun i hi hin => ?_, a7⟩
        by_cases hi' : i = j + 1
        · subst hi'; exact h1
        · exact a6 i (by omega) hin

theorem robLoop_spec (maxit : ℕ) (e : RobEnd)
    (h : robLoop N p maxit maxit 0 (p.y.map fun _ => 1) none = .ok e) :
    ∃ n, n < maxit ∧ e.fit = passFit N p n ∧ e.iterations = n + 1 ∧ (passFit N p n).resid.isSome ∧
      (∀ i, i < n → Passed N p i) ∧ Ending N p maxit n e := by
  cases maxit with
  | zero => simp [robLoop] at h
  | succ k =>
    simp only [robLoop] at h
    cases hs : robStep N p 0 (p.y.map fun _ => 1) none with
    | error e' => rw [hs] at h; simp at h
    | ok st =>
      rw [hs] at h
      obtain ⟨h0, rfl⟩ := (robStep_none N p st).1 hs
      simp only at h
      obtain ⟨n, a1, a2, a3, a4, a5, a6, a7⟩ := robLoop_some N p (k + 1) k 0 (by omega) e h h0
      refine ⟨n, a2, a3, a4, a5, fun i hi => ?_, a7⟩
      by_cases hi' : i = 0
      · subst hi'; exact h0
      · exact a6 i (by omega) hi

/-- The problem `robustfit` iterates on. -/
def robProblem (a : RobArgs) (wf : WFun) (ncol : ℕ) (X : List (List ℂ)) (y : List ℂ) : RobProblem :=
  ⟨X, y, ncol, wf, a.rcond, a.tol,
    (leverage N ncol X).map fun l => 1 / (((a.tune.getD wf.tune : ℚ) : ℝ) * Real.sqrt (1 - l))⟩

theorem robustfit_spec (a : RobArgs) (ncol : ℕ) (X : List (List ℂ)) (y : List ℂ) (out : RobOut)
    (h : robustfit N a ncol X y = .ok out) :
    ∃ wf e n, WFun.ofName a.wfName = .ok wf ∧
      (wf ≠ .ols → a.tune.getD wf.tune ≠ 0 ∧ ∀ l ∈ leverage N ncol X, l < 1) ∧
      out = { b := e.fit.b, w := e.w, iterations := e.iterations,
              rmsResid := Real.sqrt ((e.resid.map fun r => ‖r‖ ^ 2).sum / e.resid.length),
              leverage := leverage N ncol X, olsB := (passFit N (robProblem N a wf ncol X y) 0).b,
              olsRmsResid := Real.sqrt ((passFit N (robProblem N a wf ncol X y) 0).resid.getD 0 / X.length) } ∧
      n < a.maxit ∧ e.fit = passFit N (robProblem N a wf ncol X y) n ∧ e.iterations = n + 1 ∧
      (passFit N (robProblem N a wf ncol X y) n).resid.isSome ∧
      (∀ i, i < n → Passed N (robProblem N a wf ncol X y) i) ∧
      Ending N (robProblem N a wf ncol X y) a.maxit n e := by
  unfold robustfit at h
  simp only [bind_eq_ok, pure_eq_ok, Except.ok.injEq] at h
  obtain ⟨wf, hwf, _, hg, e, he, rfl⟩ := h
  obtain ⟨n, a2, a3, a4, a5, a6, a7⟩ := robLoop_spec N (robProblem N a wf ncol X y) a.maxit e he
  refine ⟨wf, e, n, hwf, fun ho => ?_, rfl, a2, a3, a4, a5, a6, a7⟩
  unfold raiseIf at hg
  split at hg
  · simp at hg
  · rename_i hc
    simp only [Bool.and_eq_true, decide_eq_true_eq, Bool.or_eq_true, List.any_eq_true, not_and, not_or,
      not_exists, not_le] at hc
    exact ⟨(hc ho).1, fun l hl => (hc ho).2 l hl⟩

theorem robustfit_returns (a : RobArgs) (ncol : ℕ) (X : List (List ℂ)) (y : List ℂ) (wf : WFun) (e : RobEnd)
    (hwf : WFun.ofName a.wfName = .ok wf)
    (hg : wf = .ols ∨ (a.tune.getD wf.tune ≠ 0 ∧ ∀ l ∈ leverage N ncol X, l < 1))
    (he : robLoop N (robProblem N a wf ncol X y) a.maxit a.maxit 0 (y.map fun _ => (1 : ℝ)) none = .ok e) :
    robustfit N a ncol X y = .ok
      { b := e.fit.b, w := e.w, iterations := e.iterations,
        rmsResid := Real.sqrt ((e.resid.map fun r => ‖r‖ ^ 2).sum / e.resid.length),
        leverage := leverage N ncol X, olsB := (passFit N (robProblem N a wf ncol X y) 0).b,
        olsRmsResid := Real.sqrt ((passFit N (robProblem N a wf ncol X y) 0).resid.getD 0 / X.length) } := by
  unfold robustfit
  simp only [bind_eq_ok, pure_eq_ok]
  refine ⟨wf, hwf, (), ?_, e, he, rfl⟩
  unfold raiseIf
  rw [if_neg]
  simp only [Bool.and_eq_true, decide_eq_true_eq, Bool.or_eq_true, List.any_eq_true, not_and, not_or,
    not_exists, not_le]
  intro ho
  rcases hg with h | h
  · exact absurd h ho
  · exact h

end

end UTide
