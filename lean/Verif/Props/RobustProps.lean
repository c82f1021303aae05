import Verif.Lemmas.Robust
import Verif.Lemmas.Ideal
import Verif.Props.RelProps

/-!
# Robust fitting: C45-C49
-/

namespace UTide.Props

noncomputable section

open Classical

/-! ## C45 -/

/-- C45: every weight function that accepts an array of residuals returns one weight per residual, all in [0, 1],
depending only on the moduli of the residuals (in particular even), not increasing with them; with two residuals or
more a vanishing residual has weight 1. -/
theorem C45_weights (name : String) (f : WFun) (_ : WFun.ofName name = .ok f) (r : List ℂ) (w : List ℝ)
    (h : f.apply r = .ok w) :
    w.length = r.length ∧ (∀ x ∈ w, 0 ≤ x ∧ x ≤ 1) ∧
    (∀ r' : List ℂ, r'.map norm = r.map norm → f.apply r' = .ok w) ∧
    f.apply (r.map fun z => -z) = .ok w ∧
    (∀ (i j : ℕ) ri rj wi wj, r[i]? = some ri → r[j]? = some rj → w[i]? = some wi → w[j]? = some wj →
      ‖ri‖ ≤ ‖rj‖ → wj ≤ wi) ∧
    (2 ≤ r.length → ∀ i : ℕ, r[i]? = some 0 → w[i]? = some 1) := by
  obtain ⟨h1, rfl⟩ := (f.apply_ok r w).1 h
  have key : ∀ r' : List ℂ, r'.map norm = r.map norm → f.apply r' = .ok (r.map f.weight) := by
    intro r' hr
    have hl : r'.length = r.length := by simpa using congrArg List.length hr
    refine (f.apply_ok r' _).2 ⟨fun hm => by rw [hl]; exact h1 hm, ?_⟩
    refine List.ext_getElem (by simp [hl]) fun i hi hi' => ?_
    simp only [List.getElem_map]
    refine f.weight_norm _ _ ?_
    have := congrArg (fun l => l[i]?) hr
    simp only [List.length_map] at hi hi'
    simpa [hi, hi'] using this.symm
  refine ⟨by simp, ?_, key, key _ (by simp [Function.comp_def]), ?_, ?_⟩
  · intro x hx
    obtain ⟨z, -, rfl⟩ := List.mem_map.1 hx
    exact f.weight_range z
  · intro i j ri rj wi wj hi hj hwi hwj hle
    rw [List.getElem?_map, hi] at hwi
    rw [List.getElem?_map, hj] at hwj
    cases hwi; cases hwj
    exact f.weight_antitone _ _ hle
  · intro h2 i hi
    rw [List.getElem?_map, hi]
    have hu : f.usesMax = false := by
      cases hf : f.usesMax with
      | false => rfl
      | true => have := h1 hf; omega
    simp [f.weight_zero hu]

/-- Non-vacuity: the default weight function on three residuals. -/
example : ∃ f w, WFun.ofName "cauchy" = .ok f ∧ f.apply [0, 1, -2] = .ok w ∧ w = [1, 1 / 2, 1 / 5] :=
  ⟨.cauchy, _, by simp [WFun.ofName], (WFun.apply_ok _ _ _).2 ⟨by simp [WFun.usesMax], rfl⟩, by
    norm_num [WFun.weight]⟩

/-! ## C46 -/

/-- The documented names. -/
def weightNames : List String :=
  ["andrews", "bisquare", "cauchy", "fair", "huber", "logistic", "ols", "talwar", "welsch"]

/-- C46 as documented: every named weight function accepts every array of residuals. -/
def C46_full : Prop :=
  ∀ name ∈ weightNames, ∃ f, WFun.ofName name = .ok f ∧ ∀ r, ∃ w, f.apply r = .ok w

theorem C46_false : ¬ C46_full := by
  intro h
  obtain ⟨f, hf, hw⟩ := h "huber" (by simp [weightNames])
  have : f = .huber := by simpa [WFun.ofName] using hf.symm
  subst this
  obtain ⟨w, hw⟩ := hw [0, 0]
  have := ((WFun.apply_ok _ _ _).1 hw).1 rfl
  simp at this

/-- C46, what holds: all nine names are known; six functions accept every array; `andrews`, `huber` and `logistic`
raise ValueError for every array of two residuals or more. -/
theorem C46_partial :
    (∀ name ∈ weightNames, ∃ f, WFun.ofName name = .ok f) ∧
    (∀ name ∈ ["bisquare", "cauchy", "fair", "ols", "talwar", "welsch"], ∀ f, WFun.ofName name = .ok f →
      ∀ r, ∃ w, f.apply r = .ok w) ∧
    (∀ name ∈ ["andrews", "huber", "logistic"], ∀ f, WFun.ofName name = .ok f →
      ∀ r : List ℂ, 2 ≤ r.length → f.apply r = .error .valueError) ∧
    (∀ name, name ∉ weightNames → WFun.ofName name = .error .keyError) := by
  refine ⟨?_, ?_, ?_, ?_⟩
  · intro name hn
    simp only [weightNames, List.mem_cons, List.not_mem_nil, or_false] at hn
    rcases hn with rfl | rfl | rfl | rfl | rfl | rfl | rfl | rfl | rfl <;> exact ⟨_, by simp [WFun.ofName]; rfl⟩
  · intro name hn f hf r
    refine ⟨_, (WFun.apply_ok _ _ _).2 ⟨?_, rfl⟩⟩
    simp only [List.mem_cons, List.not_mem_nil, or_false] at hn
    rcases hn with rfl | rfl | rfl | rfl | rfl | rfl <;> simp [WFun.ofName] at hf <;> subst hf <;>
      simp [WFun.usesMax]
  · intro name hn f hf r hr
    have hu : f.usesMax = true := by
      simp only [List.mem_cons, List.not_mem_nil, or_false] at hn
      rcases hn with rfl | rfl | rfl <;> simp [WFun.ofName] at hf <;> subst hf <;> rfl
    unfold WFun.apply
    have h1 : r.length ≠ 1 := by omega
    have h0 : r.length ≠ 0 := by omega
    simp [hu, h1, h0]
  · intro name hn
    simp only [weightNames, List.mem_cons, List.not_mem_nil, or_false, not_or] at hn
    simp [WFun.ofName, hn]

/-- `robustfit` with one of these three functions never returns, for any problem with at least one unknown. -/
theorem C46_unusable (N : Num) (hl : LstsqOk N.lstsq) (a : RobArgs) (ha : exactRcond (some a.rcond)) (ncol : ℕ)
    (hn : 1 ≤ ncol) (X : List (List ℂ)) (y : List ℂ) (hX : ∀ r ∈ X, r.length = ncol) (hy : X.length = y.length)
    (hf : a.wfName ∈ ["andrews", "huber", "logistic"]) (out : RobOut) :
    robustfit N a ncol X y ≠ .ok out := by
  intro h
  obtain ⟨wf, e, n, hwf, -, -, hn', -, -, hsome, hpass, hend⟩ := robustfit_spec N a ncol X y out h
  have hu : wf.usesMax = true := by
    simp only [List.mem_cons, List.not_mem_nil, or_false] at hf
    rcases hf with hf | hf | hf <;> rw [hf] at hwf <;> simp [WFun.ofName] at hwf <;> subst hwf <;> rfl
  have hp0 : Passed N (robProblem N a wf ncol X y) 0 := by
    by_cases h0 : n = 0
    · subst h0
      cases hend with
      | worse h hp => exact hp
      | small h => omega
      | exhausted h hw hr hp => exact hp
    · exact hpass 0 (by omega)
  have hlen := hp0.2.1.2 hu
  have hX1 : X.length = 1 := by
    simpa [rNormed, residual, robProblem, leverage, ← hy] using hlen
  have hfit : passFit N (robProblem N a wf ncol X y) 0 = N.lstsq (some a.rcond) ncol
      (List.zipWith (fun (wi : ℝ) r => r.map fun x => (wi : ℂ) * x) (y.map fun _ => (1 : ℝ)) X)
      (List.zipWith (fun (wi : ℝ) yi => (wi : ℂ) * yi) (y.map fun _ => (1 : ℝ)) y) := rfl
  have h2 := hp0.1
  rw [hfit] at h2
  have h3 := ((hl (some a.rcond) ncol _ _ (by
    intro r hr
    obtain ⟨i, hi, rfl⟩ := List.mem_iff_getElem.1 hr
    simp only [List.getElem_zipWith, List.length_map]
    exact hX _ (List.getElem_mem _)) (by simp [hy])).2 ha).2.2.1 h2
  have := h3.2
  simp [hX1, ← hy] at this
  omega

/-! ## C47 -/

/-- The sequence of weighted least-squares problems: unit weights first, then weights from the normalised residuals
of the previous fit. -/
structure Irls (N : Num) (a : RobArgs) (f : WFun) (ncol : ℕ) (X : List (List ℂ)) (y : List ℂ) (w : ℕ → List ℝ)
    (fit : ℕ → Lstsq) : Prop where
  start : w 0 = y.map fun _ => 1
  fits : ∀ k, fit k = N.lstsq (some a.rcond) ncol
    (List.zipWith (fun (wi : ℝ) r => r.map fun x => (wi : ℂ) * x) (w k) X)
    (List.zipWith (fun (wi : ℝ) yi => (wi : ℂ) * yi) (w k) y)
  next : ∀ k, ∃ r : List ℂ, r = List.zipWith (fun row yi => yi - dot row (fit k).b) X y ∧
    w (k + 1) = List.zipWith (fun (l : ℝ) (ri : ℂ) =>
      f.weight (((1 / (((a.tune.getD f.tune : ℚ) : ℝ) * Real.sqrt (1 - l)) : ℝ) : ℂ) * ri / (sigmaHat r : ℂ)))
      (leverage N ncol X) r

/-- Weighted mean square misfit of a fit. -/
def meanSquare (fit : Lstsq) (w : List ℝ) : ℝ := fit.resid.getD 0 / w.sum

theorem irls_passes (N : Num) (a : RobArgs) (f : WFun) (ncol : ℕ) (X : List (List ℂ)) (y : List ℂ) :
    Irls N a f ncol X y (passW N (robProblem N a f ncol X y)) (passFit N (robProblem N a f ncol X y)) where
  start := rfl
  fits := fun _ => rfl
  next := fun k => ⟨_, rfl, by
    show List.map _ (rNormed _ _) = _
    unfold rNormed robProblem
    simp only [List.zipWith_map_left, List.map_zipWith]
    rfl⟩

theorem passW_nonneg (N : Num) (p : RobProblem) (k : ℕ) : 0 ≤ (passW N p k).sum := by
  apply List.sum_nonneg
  intro x hx
  cases k with
  | zero => obtain ⟨_, _, rfl⟩ := List.mem_map.1 hx; exact zero_le_one
  | succ k => obtain ⟨_, _, rfl⟩ := List.mem_map.1 hx; exact (p.wf.weight_range _).1

theorem passMs_nonneg (N : Num) (hs : ∀ rc n A b s, (N.lstsq rc n A b).resid = some s → 0 ≤ s) (p : RobProblem)
    (k : ℕ) : 0 ≤ passMs N p k := by
  refine div_nonneg ?_ (passW_nonneg N p k)
  cases h : (passFit N p k).resid with
  | none => simp
  | some s => simpa using hs _ _ _ _ _ h

/-- C47: `robustfit` returns the last accepted of a sequence of reweighted fits. It solves at most `maxit` problems
and reports `1 <= iterations <= maxit`; the fit returned has the smallest weighted mean-square misfit of all fits
accepted; it is followed by a worse one, or improves on its predecessor by less than the fraction `tol`, or is number
`maxit`; all earlier improvements were at least `tol`. -/
theorem C47_iteration (N : Num) (hs : ∀ rc n A b s, (N.lstsq rc n A b).resid = some s → 0 ≤ s) (a : RobArgs)
    (ncol : ℕ) (X : List (List ℂ)) (y : List ℂ) (out : RobOut) (h : robustfit N a ncol X y = .ok out) :
    ∃ f w fit, WFun.ofName a.wfName = .ok f ∧ Irls N a f ncol X y w fit ∧
      1 ≤ out.iterations ∧ out.iterations ≤ a.maxit ∧
      out.b = (fit (out.iterations - 1)).b ∧ out.olsB = (fit 0).b ∧
      (∀ k, k < out.iterations → (fit k).resid.isSome ∧
        meanSquare (fit (out.iterations - 1)) (w (out.iterations - 1)) ≤ meanSquare (fit k) (w k)) ∧
      (∀ k, k + 2 < out.iterations → a.tol * meanSquare (fit k) (w k) ≤
        meanSquare (fit k) (w k) - meanSquare (fit (k + 1)) (w (k + 1))) ∧
      ((out.iterations < a.maxit ∧ out.w = w (out.iterations - 1) ∧
          meanSquare (fit (out.iterations - 1)) (w (out.iterations - 1)) <
            meanSquare (fit out.iterations) (w out.iterations)) ∨
       (2 ≤ out.iterations ∧ out.w = w (out.iterations - 1) ∧
          meanSquare (fit (out.iterations - 2)) (w (out.iterations - 2)) -
            meanSquare (fit (out.iterations - 1)) (w (out.iterations - 1)) <
              a.tol * meanSquare (fit (out.iterations - 2)) (w (out.iterations - 2))) ∨
       (out.iterations = a.maxit ∧ out.w = w out.iterations)) := by
  obtain ⟨f, e, n, hf, -, rfl, hn, hfit, hit, hsome, hpass, hend⟩ := robustfit_spec N a ncol X y out h
  set p := robProblem N a f ncol X y with hp
  have hnn := passMs_nonneg N hs p
  have step : ∀ k, Passed N p (k + 1) → passMs N p (k + 1) ≤ passMs N p k ∧
      a.tol * passMs N p k ≤ passMs N p k - passMs N p (k + 1) := by
    intro k hk
    obtain ⟨h0, h1⟩ := hk.2.2 (by omega)
    rw [Nat.add_sub_cancel] at h0 h1
    have h2 := mt (improvement_neg (hnn k) (hnn (k + 1))).2 h0
    have h3 := mt (improvement_small (hnn k) (hnn (k + 1)) p.tol h0).2 h1
    exact ⟨not_lt.1 h2, not_lt.1 h3⟩
  have last : ∀ k, k + 1 = n → passMs N p n ≤ passMs N p k := by
    intro k hk
    have : ¬ improvement (passMs N p (n - 1)) (passMs N p n) < Fl.fin 0 := by
      cases hend with
      | worse h hq => exact (hq.2.2 (by omega)).1
      | small h hw hr hi0 hi => exact hi0
      | exhausted h hw hr hq => exact (hq.2.2 (by omega)).1
    have hk' : n - 1 = k := by omega
    rw [hk'] at this
    exact not_lt.1 (mt (improvement_neg (hnn k) (hnn n)).2 this)
  have mono : ∀ d k, k + d = n → passMs N p n ≤ passMs N p k := by
    intro d
    induction d with
    | zero => intro k hk; have : k = n := by omega
              rw [this]
    | succ d ih =>
      intro k hk
      by_cases hd : d = 0
      · subst hd; exact last k hk
      · exact le_trans (ih (k + 1) (by omega)) (step k (hpass (k + 1) (by omega))).1
  refine ⟨f, passW N p, passFit N p, hf, irls_passes N a f ncol X y, ?_⟩
  dsimp only
  rw [hit]
  refine ⟨by omega, by omega, by rw [hfit, Nat.add_sub_cancel], rfl, ?_, ?_, ?_⟩
  · intro k hk
    rw [Nat.add_sub_cancel]
    refine ⟨?_, mono (n - k) k (by omega)⟩
    by_cases hkn : k = n
    · subst hkn; exact hsome
    · exact (hpass k (by omega)).1
  · intro k hk
    exact (step k (hpass (k + 1) (by omega))).2
  · have e1 : n + 1 - 1 = n := by omega
    have e2 : n + 1 - 2 = n - 1 := by omega
    rw [e1, e2]
    cases hend with
    | worse h hq hw hr hs' hi => exact .inl ⟨h, hw, (improvement_neg (hnn n) (hnn (n + 1))).1 hi⟩
    | small h hw hr hi0 hi =>
      refine .inr (.inl ⟨by omega, hw, (improvement_small (hnn (n - 1)) (hnn n) p.tol hi0).1 hi⟩)
    | exhausted h hw hr hq => exact .inr (.inr ⟨h, hw⟩)

/-! ## C48 -/

/-- Weighted sum of squared residuals of coefficients `b`. -/
def wcost (w : List ℝ) (X : List (List ℂ)) (y b : List ℂ) : ℝ :=
  ((w.zip (X.zip y)).map fun q => (q.1 * ‖q.2.2 - dot q.2.1 b‖) ^ 2).sum

/-- Root mean square of the residuals of coefficients `b`. -/
def rmsOf (X : List (List ℂ)) (y b : List ℂ) : ℝ :=
  Real.sqrt (((X.zip y).map fun q => ‖q.2 - dot q.1 b‖ ^ 2).sum / y.length)

/-- C48 as documented ("weights used for the solution", "rms residuals (unweighted) from the fit"). -/
def C48_full : Prop :=
  ∀ (N : Num) (a : RobArgs) (ncol : ℕ) (X : List (List ℂ)) (y : List ℂ) (out : RobOut), NumOk N →
    exactRcond (some a.rcond) → (∀ r ∈ X, r.length = ncol) → X.length = y.length →
    robustfit N a ncol X y = .ok out →
    (∀ b', b'.length = ncol → wcost out.w X y out.b ≤ wcost out.w X y b') ∧ out.rmsResid = rmsOf X y out.b

theorem dot_map_mul (c : ℂ) (r m : List ℂ) : dot (r.map fun x => c * x) m = c * dot r m := by
  induction r generalizing m with
  | nil => simp
  | cons x r ih => cases m with
    | nil => simp
    | cons y m => simp only [List.map_cons, dot_cons, ih]; ring

theorem cost_weighted (w : List ℝ) (X : List (List ℂ)) (y b : List ℂ) :
    cost (List.zipWith (fun (wi : ℝ) r => r.map fun x => (wi : ℂ) * x) w X)
      (List.zipWith (fun (wi : ℝ) yi => (wi : ℂ) * yi) w y) b = wcost w X y b := by
  induction w generalizing X y with
  | nil => simp [wcost, cost]
  | cons wi w ih =>
    cases X with
    | nil => simp [wcost, cost]
    | cons r X =>
      cases y with
      | nil => simp [wcost, cost]
      | cons yi y =>
        simp only [List.zipWith_cons_cons, cost_cons, ih]
        simp only [wcost, List.zip_cons_cons, List.map_cons, List.sum_cons]
        rw [dot_map_mul, ← mul_sub, norm_mul, Complex.norm_real, mul_pow, mul_pow, Real.norm_eq_abs, sq_abs]

theorem passW_length (N : Num) (a : RobArgs) (f : WFun) (ncol : ℕ) (X : List (List ℂ)) (y : List ℂ)
    (hy : X.length = y.length) (k : ℕ) : (passW N (robProblem N a f ncol X y) k).length = y.length := by
  cases k with
  | zero => simp [passW, robProblem]
  | succ k => simp [passW, rNormed, residual, robProblem, leverage, hy]

theorem passFit_min (N : Num) (hl : LstsqOk N.lstsq) (a : RobArgs) (ha : exactRcond (some a.rcond)) (f : WFun)
    (ncol : ℕ) (X : List (List ℂ)) (y : List ℂ) (hX : ∀ r ∈ X, r.length = ncol) (hy : X.length = y.length) (k : ℕ)
    (b' : List ℂ) (hb : b'.length = ncol) :
    wcost (passW N (robProblem N a f ncol X y) k) X y (passFit N (robProblem N a f ncol X y) k).b ≤
      wcost (passW N (robProblem N a f ncol X y) k) X y b' := by
  have hlen := passW_length N a f ncol X y hy k
  have h := ((hl (some a.rcond) ncol
    (List.zipWith (fun (wi : ℝ) r => r.map fun x => (wi : ℂ) * x) (passW N (robProblem N a f ncol X y) k) X)
    (List.zipWith (fun (wi : ℝ) yi => (wi : ℂ) * yi) (passW N (robProblem N a f ncol X y) k) y) (by
      intro r hr
      obtain ⟨i, hi, rfl⟩ := List.mem_iff_getElem.1 hr
      simp only [List.getElem_zipWith, List.length_map]
      exact hX _ (List.getElem_mem _)) (by simp [hlen, hy])).2 ha).1.optimal b' hb
  simp only [cost_weighted] at h
  exact h

theorem _root_.List.zipWith_map_eq {α β γ : Type} (l : List α) (m : List β) (f : α × β → γ) :
    List.zipWith (fun a b => f (a, b)) l m = (l.zip m).map f := by
  induction l generalizing m with
  | nil => simp
  | cons x l ih => cases m <;> simp [ih]

theorem rmsOf_residual (p : RobProblem) (hy : p.X.length = p.y.length) (b : List ℂ) :
    Real.sqrt (((residual p b).map fun r => ‖r‖ ^ 2).sum / (residual p b).length) = rmsOf p.X p.y b := by
  unfold rmsOf residual
  rw [List.map_zipWith, List.length_zipWith, hy, min_self, ← List.zipWith_map_eq p.X p.y fun q => ‖q.2 - dot q.1 b‖ ^ 2]

/-- C48, what holds: the coefficients returned are always the best ones for *some* weights of the sequence, namely
the weights returned unless the iteration ran to `maxit`; the rms residual is that of some fit of the sequence, the
one returned unless the iteration stopped because the improvement was small. -/
theorem C48_partial (N : Num) (hN : NumOk N) (a : RobArgs) (ncol : ℕ) (X : List (List ℂ)) (y : List ℂ)
    (out : RobOut) (ha : exactRcond (some a.rcond)) (hX : ∀ r ∈ X, r.length = ncol) (hy : X.length = y.length)
    (h : robustfit N a ncol X y = .ok out) :
    (∃ w : List ℝ, w.length = y.length ∧ (∀ b', b'.length = ncol → wcost w X y out.b ≤ wcost w X y b') ∧
      (w = out.w ∨ out.iterations = a.maxit)) ∧
    (∃ b, out.rmsResid = rmsOf X y b ∧ (b = out.b ∨ (2 ≤ out.iterations ∧
      ∀ b', b'.length = ncol → wcost out.w X y out.b ≤ wcost out.w X y b'))) := by
  obtain ⟨f, e, n, hf, -, rfl, hn, hfit, hit, hsome, hpass, hend⟩ := robustfit_spec N a ncol X y out h
  have hmin := passFit_min N hN.lstsq a ha f ncol X y hX hy
  set p := robProblem N a f ncol X y with hp
  dsimp only
  rw [hit, hfit]
  refine ⟨⟨passW N p n, passW_length N a f ncol X y hy n, fun b' hb => hmin n b' hb, ?_⟩, ?_⟩
  · cases hend with
    | worse h hq hw hr hs' hi => exact .inl hw.symm
    | small h hw hr hi0 hi => exact .inl hw.symm
    | exhausted h hw hr hq => exact .inr h
  · cases hend with
    | worse h hq hw hr hs' hi => exact ⟨_, by rw [hr]; exact rmsOf_residual p hy _, .inl rfl⟩
    | small h hw hr hi0 hi =>
      exact ⟨_, by rw [hr]; exact rmsOf_residual p hy _, .inr ⟨by omega, fun b' hb => by rw [hw]; exact hmin n b' hb⟩⟩
    | exhausted h hw hr hq => exact ⟨_, by rw [hr]; exact rmsOf_residual p hy _, .inl rfl⟩

end

end UTide.Props
