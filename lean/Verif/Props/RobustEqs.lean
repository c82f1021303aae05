import Verif.Props.RobustOls

/-!
# C69: the estimating equations of the robust fit
-/

namespace UTide.Props

noncomputable section

open Classical

local notation "conj" => starRingEnd ℂ

/-- `Σ_i w_i conj(X_ij) (y_i - (X b)_i)`. -/
def scoreSum (w : List ℝ) (X : List (List ℂ)) (y b : List ℂ) (j : ℕ) : ℂ :=
  ((w.zip (X.zip y)).map fun q => (q.1 : ℂ) * (conj (q.2.1.getD j 0) * (q.2.2 - dot q.2.1 b))).sum

/-- C69 as documented ("iteratively reweighted least squares"): an iteration that stops before `maxit` gives a
solution of the estimating equations of the weight function. -/
def C69_full : Prop :=
  ∀ (N : Num) (a : RobArgs) (ncol : ℕ) (X : List (List ℂ)) (y : List ℂ) (out : RobOut), NumOk N →
    exactRcond (some a.rcond) → (∀ r ∈ X, r.length = ncol) → X.length = y.length →
    robustfit N a ncol X y = .ok out → out.iterations < a.maxit →
    ∀ j, j < ncol → scoreSum out.w X y out.b j = 0

/-- First-order condition of the weighted least-squares problem. -/
theorem wcost_shift (w : List ℝ) (X : List (List ℂ)) (y b d : List ℂ) (hd : b.length = d.length) (s : ℂ) :
    wcost w X y (vadd b (vscale s d)) = wcost w X y b -
      2 * ((s * ((w.zip (X.zip y)).map fun q => ((q.1 ^ 2 : ℝ) : ℂ) * (dot q.2.1 d * conj (q.2.2 - dot q.2.1 b))).sum).re) +
      ‖s‖ ^ 2 * ((w.zip (X.zip y)).map fun q => (q.1 * ‖dot q.2.1 d‖) ^ 2).sum := by
  have hlen : b.length = (vscale s d).length := by simpa using hd
  unfold wcost
  generalize w.zip (X.zip y) = l
  induction l with
  | nil => simp
  | cons q l ih =>
    simp only [List.map_cons, List.sum_cons]
    rw [ih, dot_vadd _ _ _ hlen, dot_vscale]
    generalize dot q.2.1 d = e
    generalize dot q.2.1 b = f
    have h1 : (q.1 * ‖q.2.2 - (f + s * e)‖) ^ 2 = (q.1 * ‖q.2.2 - f‖) ^ 2 -
        2 * (s * (((q.1 ^ 2 : ℝ) : ℂ) * (e * conj (q.2.2 - f)))).re + ‖s‖ ^ 2 * (q.1 * ‖e‖) ^ 2 := by
      simp only [mul_pow, norm_sq_re]
      simp only [Complex.sub_re, Complex.sub_im, Complex.add_re, Complex.add_im, Complex.mul_re, Complex.mul_im,
        Complex.conj_re, Complex.conj_im, Complex.ofReal_re, Complex.ofReal_im]
      ring
    rw [h1, mul_add, Complex.add_re]
    ring

theorem first_order (A Q : ℝ) (S : ℂ) (hQ : 0 ≤ Q) (h : ∀ s : ℂ, A ≤ A - 2 * (s * S).re + ‖s‖ ^ 2 * Q) : S = 0 := by
  by_contra hS
  have hpos : 0 < ‖S‖ ^ 2 := by positivity
  have key := h ((1 / (1 + Q) : ℝ) * conj S)
  rw [mul_assoc, Complex.re_ofReal_mul, mul_comm (conj S), Complex.mul_conj, Complex.ofReal_re, norm_mul,
    Complex.norm_real, Complex.norm_conj, mul_pow, Complex.normSq_eq_norm_sq, Real.norm_eq_abs, sq_abs] at key
  have h1 : 0 < 1 + Q := by linarith
  have h2 : (1 / (1 + Q)) ^ 2 * ‖S‖ ^ 2 * Q < 2 * (1 / (1 + Q) * ‖S‖ ^ 2) := by
    rw [show (1 / (1 + Q)) ^ 2 * ‖S‖ ^ 2 * Q = (1 / (1 + Q) * ‖S‖ ^ 2) * (Q / (1 + Q)) by field_simp]
    have h3 : Q / (1 + Q) < 2 := by rw [div_lt_iff₀ h1]; linarith
    have h4 : 0 < 1 / (1 + Q) * ‖S‖ ^ 2 := by positivity
    nlinarith
  linarith

theorem dot_unit_zero (r : List ℂ) (k n : ℕ) (f : ℕ → ℕ) (hf : ∀ i, f i ≠ k) :
    dot r ((List.range n).map fun i => if f i = k then (1 : ℂ) else 0) = 0 := by
  induction r generalizing n f with
  | nil => simp [dot_nil_left]
  | cons x r ih =>
    cases n with
    | zero => simp [dot]
    | succ n =>
      rw [List.range_succ_eq_map, List.map_cons, List.map_map, dot_cons, if_neg (hf 0), mul_zero, zero_add]
      exact ih n (fun i => f (i + 1)) fun i => hf (i + 1)

theorem dot_unit (r : List ℂ) (n j : ℕ) (hj : j < n) : dot r (unitVec n j) = r.getD j 0 := by
  unfold unitVec
  induction r generalizing n j with
  | nil => simp [dot_nil_left]
  | cons x r ih =>
    obtain ⟨n, rfl⟩ : ∃ m, n = m + 1 := ⟨n - 1, by omega⟩
    rw [List.range_succ_eq_map, List.map_cons, List.map_map, dot_cons]
    cases j with
    | zero =>
      have := dot_unit_zero r 0 n (fun i => i + 1) (by simp)
      simp only [Function.comp_def, Nat.succ_eq_add_one] at this ⊢
      rw [this]
      simp
    | succ j =>
      have := ih n j (by omega)
      simp only [Function.comp_def, Nat.succ_eq_add_one, Nat.add_right_cancel_iff] at this ⊢
      rw [this]
      simp

/-- A minimiser of the weighted cost solves the equations with squared weights. -/
theorem wcost_score (ncol : ℕ) (w : List ℝ) (X : List (List ℂ)) (y b : List ℂ) (hb : b.length = ncol)
    (h : ∀ b', b'.length = ncol → wcost w X y b ≤ wcost w X y b') (j : ℕ) (hj : j < ncol) :
    scoreSum (w.map fun x => x ^ 2) X y b j = 0 := by
  have h0 := first_order (wcost w X y b)
    ((w.zip (X.zip y)).map fun q => (q.1 * ‖dot q.2.1 (unitVec ncol j)‖) ^ 2).sum
    ((w.zip (X.zip y)).map fun q => ((q.1 ^ 2 : ℝ) : ℂ) * (dot q.2.1 (unitVec ncol j) * conj (q.2.2 - dot q.2.1 b))).sum
    (List.sum_nonneg (by
      intro x hx
      obtain ⟨q, -, rfl⟩ := List.mem_map.1 hx
      positivity))
    (fun s => by
      rw [← wcost_shift w X y b (unitVec ncol j) (by simp [hb, unitVec]) s]
      exact h _ (by simp [vadd, vscale, hb, unitVec]))
  have h1 := congrArg conj h0
  rw [map_zero] at h1
  rw [← h1]
  unfold scoreSum
  rw [map_list_sum, List.map_map, List.zip_map_left, List.map_map]
  congr 1
  refine List.map_congr_left fun q _ => ?_
  simp only [Function.comp_apply, Prod.map_fst, Prod.map_snd, id, map_mul, Complex.conj_conj, Complex.conj_ofReal]
  rw [dot_unit _ _ _ hj]

theorem passFit_length (N : Num) (hl : LstsqOk N.lstsq) (a : RobArgs) (f : WFun)
    (ncol : ℕ) (X : List (List ℂ)) (y : List ℂ) (hX : ∀ r ∈ X, r.length = ncol) (hy : X.length = y.length) (k : ℕ) :
    (passFit N (robProblem N a f ncol X y) k).b.length = ncol := by
  have hlen := passW_length N a f ncol X y hy k
  refine (hl (some a.rcond) ncol _ _ ?_ ?_).1
  · intro r hr
    obtain ⟨i, hi, rfl⟩ := List.mem_iff_getElem.1 hr
    simp only [List.getElem_zipWith, List.length_map]
    exact hX _ (List.getElem_mem _)
  · show (List.zipWith _ _ X).length = (List.zipWith _ _ y).length
    simp [hlen, hy]

/-- C69, what holds of the code: an iteration that stops before `maxit` gives a solution of the equations with the
squares of the returned weights. -/
theorem C69_partial (N : Num) (hN : NumOk N) (a : RobArgs) (ncol : ℕ) (X : List (List ℂ)) (y : List ℂ) (out : RobOut)
    (ha : exactRcond (some a.rcond)) (hX : ∀ r ∈ X, r.length = ncol) (hy : X.length = y.length)
    (h : robustfit N a ncol X y = .ok out) (hi : out.iterations < a.maxit) (j : ℕ) (hj : j < ncol) :
    scoreSum (out.w.map fun x => x ^ 2) X y out.b j = 0 := by
  obtain ⟨⟨w, -, hw, hc⟩, -⟩ := C48_partial N hN a ncol X y out ha hX hy h
  have : w = out.w := hc.resolve_right (by omega)
  subst this
  refine wcost_score ncol _ X y out.b ?_ hw j hj
  obtain ⟨f, e, n, -, -, rfl, -, hfit, -⟩ := robustfit_spec N a ncol X y out h
  show e.fit.b.length = _
  rw [hfit]
  exact passFit_length N hN.lstsq a f ncol X y hX hy n

/-- `fair` weights with their default tuning; any improvement is less than `tol`. -/
def fairArgs : RobArgs := ⟨"fair", none, 1, 2, 50⟩

/-- The factor between a residual of the example and its normalised value. -/
def fairK : ℝ := 0.6745 / (1.4 * Real.sqrt (2 / 3))

theorem fairK_pos : 0 < fairK := by
  have : 0 < Real.sqrt (2 / 3) := Real.sqrt_pos.2 (by norm_num)
  unfold fairK
  positivity

/-- Weights of the second pass. -/
def fairW : List ℝ := [1 / (1 + fairK * (4 / 3)), 1 / (1 + fairK * (1 / 3)), 1 / (1 + fairK * (5 / 3))]

theorem fair_w1 (N : Num) (hN : NumOk N) : passW N (triP N .fair fairArgs) 1 = fairW := by
  have h : passW N (triP N .fair fairArgs) 1 = (rNormed (residual (triP N .fair fairArgs)
    (passFit N (triP N .fair fairArgs) 0).b) (triP N .fair fairArgs).rfac).map WFun.fair.weight := rfl
  rw [h, tri_resid N hN _ _ (.inr le_rfl)]
  have hr : (triP N .fair fairArgs).rfac = [1 / (1.4 * Real.sqrt (2 / 3)), 1 / (1.4 * Real.sqrt (2 / 3)),
      1 / (1.4 * Real.sqrt (2 / 3))] := by
    unfold triP robProblem
    rw [tri_leverage N hN]
    simp only [List.map_cons, List.map_nil, fairArgs, Option.getD_none, WFun.tune]
    norm_num
  rw [hr]
  unfold rNormed
  rw [tri_sigma]
  have hpos : 0 < Real.sqrt (2 / 3) := Real.sqrt_pos.2 (by norm_num)
  have hn : ∀ x : ℂ, ‖((1 / (1.4 * Real.sqrt (2 / 3)) : ℝ) : ℂ) * x / ((1 / 0.6745 : ℝ) : ℂ)‖ = fairK * ‖x‖ := by
    intro x
    rw [norm_div, norm_mul, Complex.norm_real, Complex.norm_real, Real.norm_eq_abs, Real.norm_eq_abs,
      abs_of_pos (by positivity), abs_of_pos (by norm_num)]
    unfold fairK
    field_simp
  simp only [List.zipWith_cons_cons, List.zipWith_nil_left, List.map_cons, List.map_nil, WFun.weight, hn]
  have n1 : ‖(-4 / 3 : ℂ)‖ = 4 / 3 := by norm_num
  have n2 : ‖(-1 / 3 : ℂ)‖ = 1 / 3 := by norm_num
  have n3 : ‖(5 / 3 : ℂ)‖ = 5 / 3 := by norm_num
  rw [n1, n2, n3]
  rfl

theorem fair_order : ∃ a b c : ℝ, fairW = [a, b, c] ∧ 0 < a ∧ 0 < b ∧ 0 < c ∧ a ≤ b ∧ c ≤ b ∧ a ≤ 1 ∧ b ≤ 1 ∧ c ≤ 1 ∧
    (b * 1 + c * 3) * (a ^ 2 + b ^ 2 + c ^ 2) ≠ (b ^ 2 * 1 + c ^ 2 * 3) * (a + b + c) := by
  have hk := fairK_pos
  unfold fairW
  generalize fairK = k at *
  refine ⟨_, _, _, rfl, by positivity, by positivity, by positivity, ?_, ?_, ?_, ?_, ?_, ?_⟩
  · gcongr; norm_num
  · gcongr; norm_num
  · rw [div_le_one (by positivity)]; linarith
  · rw [div_le_one (by positivity)]; linarith
  · rw [div_le_one (by positivity)]; linarith
  · intro h
    have hA : 0 < 1 + k * (4 / 3) := by positivity
    have hB : 0 < 1 + k * (1 / 3) := by positivity
    have hC : 0 < 1 + k * (5 / 3) := by positivity
    have hd : (1 + k * (4 / 3) - (1 + k * (1 / 3))) * (1 + k * (5 / 3)) ^ 2 +
        3 * (1 + k * (4 / 3) - (1 + k * (5 / 3))) * (1 + k * (1 / 3)) ^ 2 +
        2 * (1 + k * (1 / 3) - (1 + k * (5 / 3))) * (1 + k * (4 / 3)) ^ 2 = 0 := by
      generalize 1 + k * (4 / 3) = A at *
      generalize 1 + k * (1 / 3) = B at *
      generalize 1 + k * (5 / 3) = C at *
      field_simp at h
      have hABC : B * C ≠ 0 := by positivity
      have : (B * C) * ((A - B) * C ^ 2 + 3 * (A - C) * B ^ 2 + 2 * (B - C) * A ^ 2) = 0 := by
        linear_combination -h
      exact (mul_eq_zero.1 this).resolve_left hABC
    have hk2 : 0 < k * k := by positivity
    have hk3 : 0 < k * k * k := by positivity
    nlinarith

theorem fair_resid (N : Num) (hN : NumOk N) : ∃ s, (passFit N (triP N .fair fairArgs) 1).resid = some s ∧
    s = wcost fairW triX triY (passFit N (triP N .fair fairArgs) 1).b := by
  have hf : passFit N (triP N .fair fairArgs) 1 = N.lstsq (some 1) 1
    (List.zipWith (fun (wi : ℝ) r => r.map fun x => (wi : ℂ) * x) fairW triX)
    (List.zipWith (fun (wi : ℝ) yi => (wi : ℂ) * yi) fairW triY) := by
    unfold passFit
    rw [fair_w1 N hN]
    rfl
  obtain ⟨a, b, c, hw, ha, -⟩ := fair_order
  rw [hw] at hf ⊢
  have h := ((hN.lstsq (some 1) 1 (List.zipWith (fun (wi : ℝ) r => r.map fun x => (wi : ℂ) * x) [a, b, c] triX)
    (List.zipWith (fun (wi : ℝ) yi => (wi : ℂ) * yi) [a, b, c] triY) (by simp [triX]) rfl).2 (.inr le_rfl))
  rw [← hf] at h
  obtain ⟨-, h2, h3⟩ := h
  have hs := h3.2 ⟨by
    intro m hm hz x hx
    obtain ⟨y, rfl⟩ := List.length_eq_one_iff.1 hm
    have := hz [(a : ℂ)] (by simp [triX])
    simp [dot_cons, ha.ne'] at this
    simp at hx
    rw [hx, this], by simp [triX]⟩
  obtain ⟨s, hs⟩ := Option.isSome_iff_exists.1 hs
  refine ⟨s, hs, ?_⟩
  rw [h2 s hs, cost_weighted]

/-- The run returns the second fit with the weights used for it. -/
theorem fair_run (N : Num) (hN : NumOk N) : ∃ out, robustfit N fairArgs 1 triX triY = .ok out ∧ out.w = fairW ∧
    out.iterations = 2 := by
  have hp0 := tri_passed0 N hN .fair fairArgs (.inr le_rfl) rfl
  have hs0 := (robStep_none N (triP N .fair fairArgs) _).2 ⟨hp0, rfl⟩
  obtain ⟨s, hs, hcost⟩ := fair_resid N hN
  have hms0 : passMs N (triP N .fair fairArgs) 0 = 14 / 9 := by
    unfold passMs
    rw [tri_resid0 N hN _ _ (.inr le_rfl), tri_w0]
    norm_num
  obtain ⟨a, b, c, hw, ha, hb, hc, hab, hcb, ha1, hb1, hc1, -⟩ := fair_order
  have hms1 : passMs N (triP N .fair fairArgs) 1 = s / (a + b + c) := by
    unfold passMs
    rw [hs, fair_w1 N hN, hw]
    simp [add_assoc]
  have hle := passFit_min N hN.lstsq fairArgs (.inr le_rfl) .fair 1 triX triY tri_rows rfl 1 [4 / 3] rfl
  change wcost (passW N (triP N .fair fairArgs) 1) triX triY (passFit N (triP N .fair fairArgs) 1).b ≤
    wcost (passW N (triP N .fair fairArgs) 1) triX triY [4 / 3] at hle
  rw [fair_w1 N hN, ← hcost, hw] at hle
  have hval : wcost [a, b, c] triX triY [4 / 3] = a ^ 2 * (16 / 9) + b ^ 2 * (1 / 9) + c ^ 2 * (25 / 9) := by
    simp only [wcost, triX, triY, List.zip_cons_cons, List.zip_nil_left, List.map_cons, List.map_nil, List.sum_cons,
      List.sum_nil, dot_cons, dot_nil_left, one_mul, add_zero, mul_pow, norm_sq_re]
    norm_num
    ring
  rw [hval] at hle
  have hs_nonneg : 0 ≤ s := by
    rw [hcost]
    unfold wcost
    refine List.sum_nonneg ?_
    intro x hx
    obtain ⟨q, -, rfl⟩ := List.mem_map.1 hx
    positivity
  have hms1_nonneg : 0 ≤ passMs N (triP N .fair fairArgs) 1 := by rw [hms1]; positivity
  have hms1_le : passMs N (triP N .fair fairArgs) 1 ≤ 14 / 9 := by
    rw [hms1, div_le_iff₀ (by positivity)]
    nlinarith
  have hi0 : ¬ improvement (passMs N (triP N .fair fairArgs) 0) (passMs N (triP N .fair fairArgs) 1) < Fl.fin 0 := by
    rw [improvement_neg (by rw [hms0]; norm_num) hms1_nonneg, hms0, not_lt]
    exact hms1_le
  have hi1 : improvement (passMs N (triP N .fair fairArgs) 0) (passMs N (triP N .fair fairArgs) 1) <
      Fl.fin (triP N .fair fairArgs).tol := by
    refine (improvement_small (by rw [hms0]; norm_num) hms1_nonneg _ hi0).2 ?_
    rw [hms0]
    show _ < (((2 : ℚ)) : ℝ) * _
    norm_num
    linarith
  have hs1 := (robStep_some N (triP N .fair fairArgs) 0 _).2 ⟨by rw [hs]; rfl, .inr (.inl ⟨hi0, hi1, rfl⟩)⟩
  have hloop : robLoop N (triP N .fair fairArgs) 50 50 0 (passW N (triP N .fair fairArgs) 0) none = .ok
      ⟨passFit N (triP N .fair fairArgs) 1, passW N (triP N .fair fairArgs) 1,
        residual (triP N .fair fairArgs) (passFit N (triP N .fair fairArgs) 0).b, 2⟩ := by
    rw [robLoop, hs0]
    dsimp only
    rw [robLoop, hs1]
  refine ⟨_, robustfit_returns N fairArgs 1 triX triY .fair _ (by simp [fairArgs, WFun.ofName]) (.inr ⟨?_, ?_⟩) hloop,
    fair_w1 N hN, rfl⟩
  · norm_num [fairArgs, WFun.tune]
  · rw [tri_leverage N hN]; norm_num

theorem C69_false : ¬ C69_full := by
  intro hfull
  obtain ⟨out, h, hw, hit⟩ := fair_run idealNum idealNum_ok
  have h1 := hfull idealNum fairArgs 1 triX triY out idealNum_ok (.inr le_rfl) tri_rows rfl h
    (by rw [hit]; decide) 0 one_pos
  have h2 := C69_partial idealNum idealNum_ok fairArgs 1 triX triY out (.inr le_rfl) tri_rows rfl h
    (by rw [hit]; decide) 0 one_pos
  obtain ⟨a, b, c, hw', ha, hb, hc, -, -, -, -, -, hne⟩ := fair_order
  rw [hw, hw'] at h1 h2
  simp only [scoreSum, triX, triY, List.map_cons, List.map_nil, List.zip_cons_cons, List.zip_nil_left, List.sum_cons,
    List.sum_nil, List.getD_cons_zero, map_one, one_mul, add_zero] at h1 h2
  generalize dot [1] out.b = x at h1 h2
  apply hne
  have h3 : ((b * 1 + c * 3 : ℝ) : ℂ) = ((a + b + c : ℝ) : ℂ) * x := by push_cast; linear_combination h1
  have h4 : ((b ^ 2 * 1 + c ^ 2 * 3 : ℝ) : ℂ) = ((a ^ 2 + b ^ 2 + c ^ 2 : ℝ) : ℂ) * x := by
    push_cast; push_cast at h2; linear_combination h2
  have : (((b * 1 + c * 3) * (a ^ 2 + b ^ 2 + c ^ 2) : ℝ) : ℂ) = (((b ^ 2 * 1 + c ^ 2 * 3) * (a + b + c) : ℝ) : ℂ) := by
    rw [Complex.ofReal_mul, Complex.ofReal_mul, h3, h4]; ring
  exact_mod_cast this

/-- Non-vacuity of `C69_partial`. -/
example : ∃ out, robustfit idealNum fairArgs 1 triX triY = .ok out ∧ out.iterations < fairArgs.maxit := by
  obtain ⟨out, h, -, hit⟩ := fair_run idealNum idealNum_ok
  exact ⟨out, h, by rw [hit]; decide⟩

end

end UTide.Props
