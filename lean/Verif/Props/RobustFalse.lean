import Verif.Props.RobustProps
import Verif.Lemmas.Median

/-!
# C48: runs of `robustfit` whose weights or rms residual do not belong to the coefficients
-/

namespace UTide.Props

noncomputable section

open Classical

/-- One unknown (the mean), three observations. -/
def triX : List (List ℂ) := [[1], [1], [1]]
def triY : List ℂ := [0, 1, 3]

theorem norm_sq_re (z : ℂ) : ‖z‖ ^ 2 = z.re ^ 2 + z.im ^ 2 := by
  rw [Complex.sq_norm, Complex.normSq_apply]; ring

theorem tri_cost (x : ℂ) : wcost [1, 1, 1] triX triY [x] = 3 * ‖x - 4 / 3‖ ^ 2 + 14 / 3 := by
  simp only [wcost, triX, triY, List.zip_cons_cons, List.zip_nil_left, List.map_cons, List.map_nil, List.sum_cons,
    List.sum_nil, dot_cons, dot_nil_left, one_mul, add_zero, norm_sq_re]
  simp only [Complex.sub_re, Complex.sub_im, Complex.zero_re, Complex.zero_im, Complex.one_re, Complex.one_im,
    Complex.div_ofNat_re, Complex.div_ofNat_im, Complex.re_ofNat, Complex.im_ofNat]
  ring

theorem tri_cost2 (x : ℂ) : wcost [1, 1, 0] triX triY [x] = 2 * ‖x - 1 / 2‖ ^ 2 + 1 / 2 := by
  simp only [wcost, triX, triY, List.zip_cons_cons, List.zip_nil_left, List.map_cons, List.map_nil, List.sum_cons,
    List.sum_nil, dot_cons, dot_nil_left, one_mul, add_zero, norm_sq_re, zero_mul]
  simp only [Complex.sub_re, Complex.sub_im, Complex.zero_re, Complex.zero_im, Complex.one_re, Complex.one_im,
    Complex.div_ofNat_re, Complex.div_ofNat_im]
  ring

/-- `tune = 1.2`, weight function `talwar`. -/
def triArgs (tol : ℚ) (maxit : ℕ) : RobArgs := ⟨"talwar", some (12 / 10), 1, tol, maxit⟩

theorem tri_rows : ∀ r ∈ triX, r.length = 1 := by simp [triX]

theorem tri_leverage (N : Num) (hN : NumOk N) : leverage N 1 triX = [1 / 3, 1 / 3, 1 / 3] := by
  obtain ⟨h1, h2⟩ := hN.pinv 1 triX tri_rows
  obtain ⟨row, hrow⟩ : ∃ row, N.pinv 1 triX = [row] := List.length_eq_one_iff.1 h1
  have key : ∀ j, j < 3 → row.getD j 0 = 1 / 3 := by
    intro j hj
    have h := (h2 j hj).optimal [1 / 3] rfl
    rw [hrow] at h
    simp only [List.map_cons, List.map_nil] at h
    generalize row.getD j 0 = x at h
    have hc : ∀ x : ℂ, cost triX (unitVec triX.length j) [x] = 3 * ‖x - 1 / 3‖ ^ 2 + 2 / 3 := by
      intro x
      have : j = 0 ∨ j = 1 ∨ j = 2 := by omega
      rcases this with rfl | rfl | rfl <;>
      · simp only [cost, triX, unitVec, List.length_cons, List.length_nil, List.range_succ_eq_map, List.range_zero,
          List.map_cons, List.map_nil, List.zipWith_cons_cons, List.zipWith_nil_left, List.sum_cons, List.sum_nil,
          dot_cons, dot_nil_left, one_mul, add_zero, norm_sq_re]
        norm_num
        ring
    rw [hc, hc] at h
    have : ‖x - 1 / 3‖ ^ 2 ≤ 0 := by
      have : ‖(1 / 3 : ℂ) - 1 / 3‖ ^ 2 = 0 := by simp
      rw [this] at h
      linarith
    have h0 : ‖x - 1 / 3‖ = 0 := by nlinarith [norm_nonneg (x - 1 / 3)]
    exact sub_eq_zero.1 (norm_eq_zero.1 h0)
  have k0 := key 0 (by norm_num)
  have k1 := key 1 (by norm_num)
  have k2 := key 2 (by norm_num)
  unfold leverage
  rw [hrow]
  simp only [triX, List.zipIdx_cons, List.zipIdx_nil, List.map_cons, List.map_nil, List.zipWith_cons_cons,
    List.zipWith_nil_left, List.sum_cons, List.sum_nil, one_mul, add_zero]
  rw [k0, show (0 + 1 : ℕ) = 1 from rfl, k1, show (1 + 1 : ℕ) = 2 from rfl, k2]
  norm_num

variable (N : Num) (hN : NumOk N) (wf : WFun) (a : RobArgs) (ha : exactRcond (some a.rcond))

def triP : RobProblem := robProblem N a wf 1 triX triY

theorem tri_w0 : passW N (triP N wf a) 0 = [1, 1, 1] := rfl

include hN ha

theorem tri_b0 : (passFit N (triP N wf a) 0).b = [4 / 3] := by
  have h := passFit_min N hN.lstsq a ha wf 1 triX triY tri_rows rfl 0
    [4 / 3] rfl
  have hl : (passFit N (triP N wf a) 0).b.length = 1 := by
    refine (hN.lstsq _ 1 _ _ ?_ rfl).1
    simp [triP, robProblem, triX, passW, triY]
  obtain ⟨x, hx⟩ := List.length_eq_one_iff.1 hl
  change wcost [1, 1, 1] triX triY (passFit N (triP N wf a) 0).b ≤ _ at h
  rw [hx] at h ⊢
  rw [tri_cost] at h
  change _ ≤ wcost [1, 1, 1] triX triY [4 / 3] at h
  rw [tri_cost] at h
  have h0 : ‖(4 / 3 : ℂ) - 4 / 3‖ ^ 2 = 0 := by simp
  rw [h0] at h
  have h1 : ‖x - 4 / 3‖ = 0 := by nlinarith [norm_nonneg (x - 4 / 3)]
  rw [sub_eq_zero.1 (norm_eq_zero.1 h1)]

theorem tri_resid : residual (triP N wf a) (passFit N (triP N wf a) 0).b = [-4 / 3, -1 / 3, 5 / 3] := by
  rw [tri_b0 N hN wf a ha]
  simp only [residual, triP, robProblem, triX, triY, List.zipWith_cons_cons, List.zipWith_nil_left, dot_cons,
    dot_nil_left, one_mul, add_zero]
  norm_num

theorem tri_resid0 : (passFit N (triP N wf a) 0).resid = some (14 / 3) := by
  have hX : List.zipWith (fun (wi : ℝ) r => r.map fun x => (wi : ℂ) * x) [1, 1, 1] triX = triX := by
    simp [triX]
  have h := ((hN.lstsq (some a.rcond) 1 triX (List.zipWith (fun (wi : ℝ) yi => (wi : ℂ) * yi) [1, 1, 1] triY)
    tri_rows rfl).2 ha)
  have hf : passFit N (triP N wf a) 0 = N.lstsq (some a.rcond) 1
    (List.zipWith (fun (wi : ℝ) r => r.map fun x => (wi : ℂ) * x) [1, 1, 1] triX)
    (List.zipWith (fun (wi : ℝ) yi => (wi : ℂ) * yi) [1, 1, 1] triY) := rfl
  have hb := tri_b0 N hN wf a ha
  rw [hX] at hf
  rw [← hf, hb] at h
  obtain ⟨-, h2, h3⟩ := h
  have hs := h3.2 ⟨by
    intro m hm hz x hx
    obtain ⟨y, rfl⟩ := List.length_eq_one_iff.1 hm
    have := hz [1] (by simp [triX])
    simp [dot_cons] at this
    simp at hx
    rw [hx, this], by simp [triX]⟩
  obtain ⟨s, hs⟩ := Option.isSome_iff_exists.1 hs
  rw [hs, h2 s hs]
  have := cost_weighted [1, 1, 1] triX triY [4 / 3]
  rw [hX] at this
  rw [this, tri_cost]
  norm_num

omit hN ha in
theorem tri_sigma : sigmaHat [-4 / 3, -1 / 3, 5 / 3] = 1 / 0.6745 := by
  have hc : cmedian [-4 / 3, -1 / 3, 5 / 3] = -1 / 3 := by
    unfold cmedian
    have hs : ([-4 / 3, -1 / 3, 5 / 3] : List ℂ).mergeSort (fun a b => decide (lexLE a b)) = [-4 / 3, -1 / 3, 5 / 3] := by
      apply List.mergeSort_of_pairwise
      simp only [List.pairwise_cons, List.mem_cons, List.not_mem_nil, or_false, forall_eq_or_imp, forall_eq, decide_eq_true_eq,
        lexLE]
      norm_num
    simp [hs]
  unfold sigmaHat
  rw [hc]
  have : ([-4 / 3, -1 / 3, 5 / 3] : List ℂ).map (fun z => ‖z - -1 / 3‖) = [1, 0, 2] := by
    norm_num
  rw [this, median_eq [1, 0, 2] [0, 1, 2] (List.Perm.swap _ _ _) (by norm_num)]
  norm_num [middle]

omit ha in
theorem tri_w1 (tol : ℚ) (maxit : ℕ) : passW N (triP N .talwar (triArgs tol maxit)) 1 = [1, 1, 0] := by
  have h : passW N (triP N .talwar (triArgs tol maxit)) 1 = (rNormed (residual (triP N .talwar (triArgs tol maxit)) (passFit N (triP N .talwar (triArgs tol maxit)) 0).b)
    (triP N .talwar (triArgs tol maxit)).rfac).map WFun.talwar.weight := rfl
  rw [h, tri_resid N hN _ _ (.inr le_rfl)]
  have hr : (triP N .talwar (triArgs tol maxit)).rfac = [1 / (1.2 * Real.sqrt (2 / 3)), 1 / (1.2 * Real.sqrt (2 / 3)),
      1 / (1.2 * Real.sqrt (2 / 3))] := by
    unfold triP robProblem
    rw [tri_leverage N hN]
    simp only [List.map_cons, List.map_nil, triArgs, Option.getD_some]
    norm_num
  have hb : 0.6745 / (1.2 * Real.sqrt (2 / 3)) * (4 / 3) < 1 ∧ 1 < 0.6745 / (1.2 * Real.sqrt (2 / 3)) * (5 / 3) := by
    have h1 : (0.8164 : ℝ) < Real.sqrt (2 / 3) := Real.lt_sqrt_of_sq_lt (by norm_num)
    have h2 : Real.sqrt (2 / 3) < 0.8166 := (Real.sqrt_lt' (by norm_num)).2 (by norm_num)
    constructor
    · rw [div_mul_eq_mul_div, div_lt_one (by positivity)]; linarith
    · rw [div_mul_eq_mul_div, one_lt_div (by positivity)]; linarith
  rw [hr]
  unfold rNormed
  rw [tri_sigma]
  have hpos : 0 < Real.sqrt (2 / 3) := Real.sqrt_pos.2 (by norm_num)
  have hn : ∀ x : ℂ, ‖((1 / (1.2 * Real.sqrt (2 / 3)) : ℝ) : ℂ) * x / ((1 / 0.6745 : ℝ) : ℂ)‖ =
      0.6745 / (1.2 * Real.sqrt (2 / 3)) * ‖x‖ := by
    intro x
    rw [norm_div, norm_mul, Complex.norm_real, Complex.norm_real, Real.norm_eq_abs, Real.norm_eq_abs,
      abs_of_pos (by positivity), abs_of_pos (by norm_num)]
    field_simp
  simp only [List.zipWith_cons_cons, List.zipWith_nil_left, List.map_cons, List.map_nil, WFun.weight, hn]
  have n1 : ‖(-4 / 3 : ℂ)‖ = 4 / 3 := by norm_num
  have n2 : ‖(-1 / 3 : ℂ)‖ = 1 / 3 := by norm_num
  have n3 : ‖(5 / 3 : ℂ)‖ = 5 / 3 := by norm_num
  rw [n1, n2, n3, if_pos hb.1, if_pos, if_neg (not_lt.2 hb.2.le)]
  have : 0 < 0.6745 / (1.2 * Real.sqrt (2 / 3)) := by positivity
  linarith [hb.1]

theorem tri_passed0 (hu : wf.usesMax = false) : Passed N (triP N wf a) 0 := by
  refine ⟨by rw [tri_resid0 N hN wf a ha]; rfl, ⟨?_, fun h => by rw [show (triP N wf a).wf = wf from rfl, hu] at h; cases h⟩, by omega⟩
  rw [tri_resid N hN wf a ha, tri_sigma]
  norm_num

omit ha in
/-- One pass only: the weights returned are those computed from the fit returned. -/
theorem tri_one : ∃ out, robustfit N (triArgs (1 / 1000) 1) 1 triX triY = .ok out ∧ out.b = [4 / 3] ∧
    out.w = [1, 1, 0] := by
  have hs := (robStep_none N (triP N .talwar (triArgs (1 / 1000) 1)) _).2 ⟨tri_passed0 N hN _ _ (.inr le_rfl) rfl, rfl⟩
  have hloop : robLoop N (triP N .talwar (triArgs (1 / 1000) 1)) 1 1 0 [1, 1, 1] none =
      .ok ⟨passFit N (triP N .talwar (triArgs (1 / 1000) 1)) 0, [1, 1, 0], residual (triP N .talwar (triArgs (1 / 1000) 1)) (passFit N (triP N .talwar (triArgs (1 / 1000) 1)) 0).b, 1⟩ := by
    simp only [robLoop]
    rw [tri_w0] at hs
    rw [hs, tri_w1 N hN (1 / 1000) 1]
    rfl
  refine ⟨_, robustfit_returns N _ 1 triX triY .talwar _ (by simp [triArgs, WFun.ofName]) (.inr ⟨?_, ?_⟩) hloop,
    tri_b0 N hN _ _ (.inr le_rfl), rfl⟩
  · norm_num [triArgs]
  · rw [tri_leverage N hN]; norm_num

omit hN ha in
theorem C48_false : ¬ C48_full := by
  intro h
  obtain ⟨out, h1, h2, h3⟩ := tri_one idealNum idealNum_ok
  have := (h idealNum _ 1 triX triY out idealNum_ok (.inr le_rfl) tri_rows rfl h1).1 [1 / 2] rfl
  rw [h2, h3, tri_cost2, tri_cost2] at this
  norm_num at this

end

end UTide.Props
