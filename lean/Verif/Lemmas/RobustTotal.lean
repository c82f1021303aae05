import Verif.Lemmas.Robust
import Verif.Lemmas.Median
import Verif.Lemmas.LstsqAdd
import Verif.Model.Contracts
import Mathlib.LinearAlgebra.Dimension.Finrank

/-!
# When the robust iteration returns
-/

namespace UTide

noncomputable section

open Classical

/-! ## The loop -/

theorem robLoop_some_total (N : Num) (p : RobProblem) (hs : ∀ j, (passFit N p j).resid.isSome) (hg : ∀ j, Goes N p j)
    (maxit k j : ℕ) :
    ∃ e, robLoop N p maxit k (j + 1) (passW N p (j + 1)) (some (passOld N p j)) = .ok e := by
  induction k generalizing j with
  | zero => exact ⟨_, rfl⟩
  | succ k ih =>
    unfold robLoop
    by_cases h1 : improvement (passMs N p j) (passMs N p (j + 1)) < Fl.fin 0
    · rw [(robStep_some N p j _).2 ⟨hs (j + 1), .inl ⟨h1, rfl⟩⟩]
      exact ⟨_, rfl⟩
    · by_cases h2 : improvement (passMs N p j) (passMs N p (j + 1)) < Fl.fin p.tol
      · rw [(robStep_some N p j _).2 ⟨hs (j + 1), .inr (.inl ⟨h1, h2, rfl⟩)⟩]
        exact ⟨_, rfl⟩
      · rw [(robStep_some N p j _).2 ⟨hs (j + 1), .inr (.inr ⟨⟨hs _, hg _, fun _ => ⟨h1, h2⟩⟩, rfl⟩)⟩]
        exact ih (j + 1)

/-- If every pass finds its residuals and can compute new weights, the loop returns. -/
theorem robLoop_total (N : Num) (p : RobProblem) (hs : ∀ j, (passFit N p j).resid.isSome) (hg : ∀ j, Goes N p j)
    (maxit : ℕ) (h : 1 ≤ maxit) : ∃ e, robLoop N p maxit maxit 0 (p.y.map fun _ => 1) none = .ok e := by
  obtain ⟨k, rfl⟩ : ∃ k, maxit = k + 1 := ⟨maxit - 1, by omega⟩
  unfold robLoop
  rw [show robStep N p 0 (p.y.map fun _ => 1) none = _ from
    (robStep_none N p _).2 ⟨⟨hs 0, hg 0, by omega⟩, rfl⟩]
  exact robLoop_some_total N p hs hg (k + 1) k 0

/-! ## Weights that never vanish -/

theorem WFun.weight_pos (f : WFun) (hf : f = .cauchy ∨ f = .fair ∨ f = .welsch) (r : ℂ) : 0 < f.weight r := by
  have := norm_nonneg r
  rcases hf with rfl | rfl | rfl
  · show 0 < 1 / (1 + ‖r‖ ^ 2)
    positivity
  · show 0 < 1 / (1 + ‖r‖)
    positivity
  · exact Real.exp_pos _

theorem passW_pos (N : Num) (p : RobProblem) (hf : p.wf = .cauchy ∨ p.wf = .fair ∨ p.wf = .welsch) (j : ℕ) :
    ∀ x ∈ passW N p j, 0 < x := by
  intro x hx
  cases j with
  | zero =>
    simp only [passW, List.mem_map] at hx
    obtain ⟨_, _, rfl⟩ := hx
    norm_num
  | succ j =>
    simp only [passW, List.mem_map] at hx
    obtain ⟨r, _, rfl⟩ := hx
    exact p.wf.weight_pos hf r

theorem passW_len (N : Num) (p : RobProblem) (hy : p.X.length = p.y.length) (hr : p.rfac.length = p.y.length) (j : ℕ) :
    (passW N p j).length = p.y.length := by
  cases j with
  | zero => simp [passW]
  | succ j => simp [passW, rNormed, residual, hy, hr]

theorem indep_weighted (ncol : ℕ) (w : List ℝ) (X : List (List ℂ)) (hl : w.length = X.length) (hw : ∀ x ∈ w, x ≠ 0)
    (h : IndepColumns ncol X) :
    IndepColumns ncol (List.zipWith (fun (wi : ℝ) r => r.map fun x => (wi : ℂ) * x) w X) := by
  intro m hm hz
  refine h m hm fun r hr => ?_
  obtain ⟨i, hi, rfl⟩ := List.mem_iff_getElem.1 hr
  have := hz (X[i].map fun x => ((w[i]'(by omega) : ℝ) : ℂ) * x) (by
    rw [List.mem_iff_getElem]
    exact ⟨i, by simp; omega, by simp⟩)
  have e : dot (X[i].map fun x => ((w[i]'(by omega) : ℝ) : ℂ) * x) m = ((w[i]'(by omega) : ℝ) : ℂ) * dot X[i] m := by
    generalize X[i] = r
    generalize ((w[i]'(by omega) : ℝ) : ℂ) = c
    clear this hz hr hi hm
    induction r generalizing m with
    | nil => simp
    | cons a r ih =>
      cases m with
      | nil => simp
      | cons b m => rw [List.map_cons, dot_cons, dot_cons, ih]; ring
  rw [e] at this
  rcases mul_eq_zero.1 this with h0 | h0
  · exact absurd (Complex.ofReal_eq_zero.1 h0) (hw _ (List.getElem_mem _))
  · exact h0

theorem passFit_some (N : Num) (hl : LstsqOk N.lstsq) (p : RobProblem) (hrc : exactRcond (some p.rcond))
    (hX : ∀ r ∈ p.X, r.length = p.ncol) (hy : p.X.length = p.y.length) (hr : p.rfac.length = p.y.length)
    (hf : p.wf = .cauchy ∨ p.wf = .fair ∨ p.wf = .welsch) (hi : IndepColumns p.ncol p.X) (hn : p.ncol < p.X.length)
    (j : ℕ) : (passFit N p j).resid.isSome := by
  have hlen := passW_len N p hy hr j
  have h := (hl (some p.rcond) p.ncol
    (List.zipWith (fun (wi : ℝ) r => r.map fun x => (wi : ℂ) * x) (passW N p j) p.X)
    (List.zipWith (fun (wi : ℝ) yi => (wi : ℂ) * yi) (passW N p j) p.y) (by
      intro r hr
      obtain ⟨i, hi, rfl⟩ := List.mem_iff_getElem.1 hr
      simp only [List.getElem_zipWith, List.length_map]
      exact hX _ (List.getElem_mem _)) (by simp [hlen, hy])).2 hrc
  exact h.2.2.2 ⟨indep_weighted _ _ _ (by rw [hlen, hy]) (fun x hx => (passW_pos N p hf j x hx).ne') hi,
    by simp [hlen, ← hy]; exact hn⟩

theorem passFit_len (N : Num) (hl : LstsqOk N.lstsq) (p : RobProblem) (hX : ∀ r ∈ p.X, r.length = p.ncol)
    (hy : p.X.length = p.y.length) (hr : p.rfac.length = p.y.length) (j : ℕ) : (passFit N p j).b.length = p.ncol := by
  have hlen := passW_len N p hy hr j
  exact (hl (some p.rcond) p.ncol _ _ (by
      intro r hr
      obtain ⟨i, hi, rfl⟩ := List.mem_iff_getElem.1 hr
      simp only [List.getElem_zipWith, List.length_map]
      exact hX _ (List.getElem_mem _)) (by simp [hlen, hy])).1

/-! ## The spread of the residuals -/

theorem zeros_of_median (l : List ℝ) (hne : l ≠ []) (h0 : ∀ x ∈ l, 0 ≤ x) (hm : median l = 0) :
    l.length < 2 * l.countP fun x => decide (x = 0) := by
  set s := l.mergeSort fun a b => decide (a ≤ b) with hs
  have hlen : s.length = l.length := sort_length l
  have hperm : s.Perm l := List.mergeSort_perm _ _
  have hsort : s.Pairwise (· ≤ ·) := sort_pairwise l
  have hpos : ∀ x ∈ s, 0 ≤ x := fun x hx => h0 x (hperm.mem_iff.1 hx)
  have hn : 0 < s.length := by rw [hlen]; exact List.length_pos_iff.2 hne
  have hmid : s.getD (s.length / 2) 0 = 0 := by
    have h1 : median l = middle s := rfl
    rw [h1] at hm
    unfold middle at hm
    split_ifs at hm with ho
    · exact hm
    · have e1 := getD_of_forall (fun x => 0 ≤ x) s le_rfl hpos (s.length / 2)
      have e2 := getD_of_forall (fun x => 0 ≤ x) s le_rfl hpos (s.length / 2 - 1)
      linarith
  have hlt : s.length / 2 < s.length := by omega
  rw [List.getD_eq_getElem _ _ hlt] at hmid
  have hz : ∀ x ∈ s.take (s.length / 2 + 1), x = 0 := by
    intro x hx
    obtain ⟨i, hi, rfl⟩ := List.mem_iff_getElem.1 hx
    rw [List.getElem_take]
    rw [List.length_take] at hi
    have hi' : i ≤ s.length / 2 := by omega
    refine le_antisymm ?_ (hpos _ (List.getElem_mem _))
    rcases hi'.lt_or_eq with h | h
    · rw [← hmid]
      exact List.pairwise_iff_getElem.1 hsort i (s.length / 2) (by omega) hlt h
    · subst h; exact hmid.le
  have h1 : (s.take (s.length / 2 + 1)).countP (fun x => decide (x = 0)) = s.length / 2 + 1 := by
    rw [List.countP_eq_length.2 (by simpa using hz), List.length_take]
    omega
  have h2 := (List.take_sublist (s.length / 2 + 1) s).countP_le (p := fun x => decide (x = 0))
  rw [h1, hperm.countP_eq] at h2
  omega

/-- A vanishing `sigma_hat` means that more than half of the values coincide. -/
theorem same_of_sigmaHat (x : List ℂ) (hne : x ≠ []) (h : sigmaHat x = 0) :
    x.length < 2 * x.countP fun z => decide (z = cmedian x) := by
  have hm : median (x.map fun z => ‖z - cmedian x‖) = 0 := by
    unfold sigmaHat at h
    rcases div_eq_zero_iff.1 h with h | h
    · exact h
    · norm_num at h
  have := zeros_of_median _ (by simpa using hne) (by simp) hm
  rw [List.length_map, List.countP_map] at this
  refine lt_of_lt_of_eq this ?_
  congr 1
  apply List.countP_congr
  intro z _
  simp [sub_eq_zero]

/-- No curve of the model passes through more than half of the data. -/
def NoMajority (ncol : ℕ) (X : List (List ℂ)) (y : List ℂ) : Prop :=
  ∀ b : List ℂ, b.length = ncol → 2 * ((X.zip y).countP fun q => decide (q.2 = dot q.1 b)) ≤ y.length

theorem sigmaHat_residual_ne (p : RobProblem) (hy : p.X.length = p.y.length) (hne : p.y ≠ []) (e : List ℂ)
    (he : e.length = p.ncol) (h1 : ∀ r ∈ p.X, dot r e = 1) (hm : NoMajority p.ncol p.X p.y) (b : List ℂ)
    (hb : b.length = p.ncol) : sigmaHat (residual p b) ≠ 0 := by
  intro h0
  have hl : (residual p b).length = p.y.length := by simp [residual, hy]
  have h := same_of_sigmaHat _ (by rw [← List.length_pos_iff, hl]; exact List.length_pos_iff.2 hne) h0
  generalize cmedian (residual p b) = med at h
  have h2 := hm (vadd b (vscale med e)) (by simp [hb, he])
  have e2 : (residual p b).countP (fun z => decide (z = med)) =
      (p.X.zip p.y).countP fun q => decide (q.2 = dot q.1 (vadd b (vscale med e))) := by
    have : residual p b = (p.X.zip p.y).map fun q => q.2 - dot q.1 b := by
      unfold residual
      rw [List.zip, List.map_zipWith]
    rw [this, List.countP_map]
    apply List.countP_congr
    intro q hq
    have hq1 : q.1 ∈ p.X := (List.of_mem_zip hq).1
    simp only [Function.comp, decide_eq_true_eq]
    rw [dot_vadd _ _ _ (by simp [hb, he]), dot_vscale, h1 _ hq1, mul_one, sub_eq_iff_eq_add, add_comm]
  rw [hl, e2] at h
  omega

/-! ## Leverage -/

theorem cost_unit_zero (X : List (List ℂ)) (y m : List ℂ) (hy : X.length = y.length) (h : cost X y m ≤ 0) (i : ℕ)
    (hi : i < X.length) : y[i]'(by omega) = dot X[i] m := by
  have h1 : ((X.zip y).map fun q => ‖q.2 - dot q.1 m‖ ^ 2).sum ≤ 0 := by
    have : (X.zip y).map (fun q => ‖q.2 - dot q.1 m‖ ^ 2) = List.zipWith (fun r x => ‖x - dot r m‖ ^ 2) X y := by
      rw [List.zip, List.map_zipWith]
    rw [this]; exact h
  have h2 := sum_sq_nonpos (X.zip y) (fun q => q.2 - dot q.1 m) h1 (X[i], y[i]'(by omega)) (by
    rw [List.mem_iff_getElem]
    exact ⟨i, by simp; omega, by simp⟩)
  exact sub_eq_zero.1 h2

/-- The squared norm of the fitted values of a unit vector, and its cost. -/
theorem unit_cost (ncol : ℕ) (X : List (List ℂ)) (m : List ℂ) (j : ℕ) (hj : j < X.length)
    (h : IsMinNormSol ncol X (unitVec X.length j) m) : cost X (unitVec X.length j) m = (1 - dot X[j] m).re := by
  have hl : (unitVec X.length j).length = X.length := by simp [unitVec]
  have ho := h.orthogonal hl.symm m h.length
  have key : ∀ (X : List (List ℂ)) (y : List ℂ), X.length = y.length →
      ((cost X y m : ℝ) : ℂ) = (List.zipWith (fun r y => (starRingEnd ℂ) y * (y - dot r m)) X y).sum -
        (List.zipWith (fun r y => (starRingEnd ℂ) (dot r m) * (y - dot r m)) X y).sum := by
    intro X
    induction X with
    | nil => intro y _; simp [cost]
    | cons r X ih =>
      intro y hy
      cases y with
      | nil => simp at hy
      | cons x y =>
        rw [cost_cons]
        push_cast
        rw [ih y (by simpa using hy)]
        simp only [List.zipWith_cons_cons, List.sum_cons]
        have : ((‖x - dot r m‖ : ℝ) : ℂ) ^ 2 = (starRingEnd ℂ) (x - dot r m) * (x - dot r m) := by
          rw [mul_comm, Complex.mul_conj, Complex.normSq_eq_norm_sq]; push_cast; rfl
        rw [this, map_sub]
        ring
  have h1 := key X (unitVec X.length j) hl.symm
  rw [ho, sub_zero] at h1
  have h2 : (List.zipWith (fun r y => (starRingEnd ℂ) y * (y - dot r m)) X (unitVec X.length j)).sum = 1 - dot X[j] m := by
    have e : List.zipWith (fun r y => (starRingEnd ℂ) y * (y - dot r m)) X (unitVec X.length j) =
        List.ofFn fun i : Fin X.length => if i = ⟨j, hj⟩ then 1 - dot X[j] m else 0 := by
      apply List.ext_getElem
      · simp [unitVec]
      · intro i h1 h2
        simp only [List.getElem_zipWith, unitVec, List.getElem_map, List.getElem_range, List.getElem_ofFn]
        by_cases hij : i = j
        · subst hij; simp
        · simp [hij]
    rw [e, List.sum_ofFn]
    simp
  rw [h2] at h1
  rw [← h1, Complex.ofReal_re]

/-- The value fitted at the place of a unit vector is one minus the squared misfit. -/
theorem unit_fit (ncol : ℕ) (X : List (List ℂ)) (m : List ℂ) (j : ℕ) (hj : j < X.length)
    (hs : IsMinNormSol ncol X (unitVec X.length j) m) : ‖dot X[j] m‖ = 1 - cost X (unitVec X.length j) m := by
  have hul : (unitVec X.length j).length = X.length := by simp [unitVec]
  have hc := unit_cost ncol X m j hj hs
  -- the fitted value is real: the orthogonality relation with itself
  have him : (dot X[j] m).im = 0 := by
    have ho := hs.orthogonal hul.symm m hs.length
    have e : List.zipWith (fun r y => (starRingEnd ℂ) (dot r m) * (y - dot r m)) X (unitVec X.length j) =
        List.ofFn fun i : Fin X.length => (if i = ⟨j, hj⟩ then (starRingEnd ℂ) (dot X[j] m) else 0) -
          ((‖dot X[i.1] m‖ ^ 2 : ℝ) : ℂ) := by
      apply List.ext_getElem
      · simp [unitVec]
      · intro i h1 h2
        simp only [List.getElem_zipWith, unitVec, List.getElem_map, List.getElem_range, List.getElem_ofFn]
        have hn : ∀ z : ℂ, ((‖z‖ ^ 2 : ℝ) : ℂ) = (starRingEnd ℂ) z * z := fun z => by
          rw [mul_comm, Complex.mul_conj, Complex.normSq_eq_norm_sq]
        rw [hn]
        by_cases hij : i = j
        · subst hij; simp; ring
        · simp [hij]
    rw [e, List.sum_ofFn, Finset.sum_sub_distrib, Finset.sum_ite_eq' Finset.univ, if_pos (Finset.mem_univ _),
      sub_eq_zero, ← Complex.ofReal_sum] at ho
    have := congrArg Complex.im ho
    rw [Complex.conj_im, Complex.ofReal_im] at this
    linarith
  have hre : 0 ≤ (dot X[j] m).re := by
    -- cost at the solution is at most the cost of zero
    have hz := hs.optimal (List.replicate ncol 0) (by simp)
    have : cost X (unitVec X.length j) (List.replicate ncol 0) = 1 := by
      have hrep : ∀ r : List ℂ, dot r (List.replicate ncol 0) = 0 := by
        intro r
        unfold dot
        refine List.sum_eq_zero fun x hx => ?_
        obtain ⟨i, hi, rfl⟩ := List.mem_iff_getElem.1 hx
        simp
      unfold cost
      have e : List.zipWith (fun r x => ‖x - dot r (List.replicate ncol 0)‖ ^ 2) X (unitVec X.length j) =
          List.ofFn fun i : Fin X.length => if i = ⟨j, hj⟩ then (1 : ℝ) else 0 := by
        apply List.ext_getElem
        · simp [unitVec]
        · intro i h1 h2
          simp only [List.getElem_zipWith, unitVec, List.getElem_map, List.getElem_range, List.getElem_ofFn, hrep]
          by_cases hij : i = j
          · subst hij; simp
          · simp [hij]
      rw [e, List.sum_ofFn]
      simp
    rw [this, hc] at hz
    simp only [Complex.sub_re, Complex.one_re] at hz
    linarith
  have hreal : dot X[j] m = (((dot X[j] m).re : ℝ) : ℂ) := Complex.ext rfl (by simpa using him)
  rw [hc, hreal, Complex.norm_real, Real.norm_of_nonneg hre]
  simp

/-- An entry of `leverage`. -/
theorem leverage_getElem? (N : Num) (hp : PinvOk N.pinv) (ncol : ℕ) (X : List (List ℂ)) (hX : ∀ r ∈ X, r.length = ncol)
    (j : ℕ) (hj : j < X.length) : ∃ m, IsMinNormSol ncol X (unitVec X.length j) m ∧
      (leverage N ncol X)[j]? = some (1 - cost X (unitVec X.length j) m) := by
  obtain ⟨-, hmin⟩ := hp ncol X hX
  refine ⟨_, hmin j hj, ?_⟩
  rw [← unit_fit ncol X _ j hj (hmin j hj)]
  unfold leverage
  rw [List.getElem?_map, List.getElem?_zipIdx, List.getElem?_eq_getElem hj]
  simp only [Option.map_some, zero_add]
  unfold dot
  rw [List.zipWith_map_right]

/-- If the data without any one of them still determine the coefficients, every leverage is less than 1. -/
theorem leverage_lt_one (N : Num) (hp : PinvOk N.pinv) (ncol : ℕ) (X : List (List ℂ)) (hX : ∀ r ∈ X, r.length = ncol)
    (h : ∀ j, j < X.length → IndepColumns ncol (X.eraseIdx j)) : ∀ l ∈ leverage N ncol X, l < 1 := by
  intro l hl
  unfold leverage at hl
  rw [List.mem_map] at hl
  obtain ⟨⟨r, j⟩, hrj, rfl⟩ := hl
  rw [List.mem_zipIdx_iff_getElem?] at hrj
  dsimp only at hrj ⊢
  obtain ⟨hj, rfl⟩ := List.getElem?_eq_some_iff.1 hrj
  obtain ⟨-, hmin⟩ := hp ncol X hX
  have hs := hmin j hj
  set m := (N.pinv ncol X).map fun row => row.getD j 0 with hmdef
  have hd : (List.zipWith (fun xji (prow : List ℂ) => xji * prow.getD j 0) X[j] (N.pinv ncol X)).sum = dot X[j] m := by
    unfold dot; rw [hmdef, List.zipWith_map_right]
  rw [hd]
  have hul : (unitVec X.length j).length = X.length := by simp [unitVec]
  rw [unit_fit ncol X m j hj hs]
  by_contra hge
  push Not at hge
  have hle : cost X (unitVec X.length j) m ≤ 0 := by linarith
  have hval := cost_unit_zero X _ m hul.symm hle
  have hzero := h j hj m hs.length (by
    intro r hr
    obtain ⟨i, hi, rfl⟩ := List.mem_iff_getElem.1 hr
    rw [List.getElem_eraseIdx]
    rw [List.length_eraseIdx_of_lt hj] at hi
    split_ifs with hij
    · have := hval i (by omega)
      rw [← this]
      simp [unitVec, (show i ≠ j by omega)]
    · have := hval (i + 1) (by omega)
      rw [← this]
      simp [unitVec, (show i + 1 ≠ j by omega)])
  have h3 := hval j hj
  have h4 : dot X[j] m = 0 := by
    unfold dot
    refine List.sum_eq_zero fun x hx => ?_
    obtain ⟨i, hi, rfl⟩ := List.mem_iff_getElem.1 hx
    rw [List.getElem_zipWith, hzero _ (List.getElem_mem _), mul_zero]
  rw [h4] at h3
  simp [unitVec] at h3

/-- Independent columns are not more than the rows. -/
theorem indep_cols_le (ncol : ℕ) (X : List (List ℂ)) (h : IndepColumns ncol X) : ncol ≤ X.length := by
  have hinj : Function.Injective (rowsMap ncol X) := by
    rw [← LinearMap.ker_eq_bot, LinearMap.ker_eq_bot']
    intro f hf
    have hz := h (List.ofFn fun j => f j) (by simp) (by
      intro r hr
      obtain ⟨i, hi, rfl⟩ := List.mem_iff_getElem.1 hr
      have := congrArg (fun g : EuclideanSpace ℂ (Fin X.length) => g ⟨i, hi⟩) hf
      simpa [rowsMap] using this)
    ext j
    exact hz _ (by rw [List.mem_ofFn]; exact ⟨j, rfl⟩)
  have := LinearMap.finrank_le_finrank_of_injective hinj
  simpa using this

/-- `robustfit` returns: weight function `cauchy`, `fair` or `welsch`, coefficients determined by the data without any
one of them, no curve through more than half of the data. -/
theorem robustfit_total (N : Num) (hl : LstsqOk N.lstsq) (hp : PinvOk N.pinv) (a : RobArgs) (wf : WFun)
    (hwf : WFun.ofName a.wfName = .ok wf) (hf : wf = .cauchy ∨ wf = .fair ∨ wf = .welsch)
    (hrc : exactRcond (some a.rcond)) (ht : a.tune.getD wf.tune ≠ 0) (hmax : 1 ≤ a.maxit) (ncol : ℕ)
    (X : List (List ℂ)) (y : List ℂ) (hX : ∀ r ∈ X, r.length = ncol) (hy : X.length = y.length)
    (e : List ℂ) (he : e.length = ncol) (h1 : ∀ r ∈ X, dot r e = 1) (hne : y ≠ [])
    (hi : ∀ j, j < X.length → IndepColumns ncol (X.eraseIdx j)) (hm : NoMajority ncol X y) :
    ∃ out, robustfit N a ncol X y = .ok out := by
  have hpos : 0 < X.length := by rw [hy]; exact List.length_pos_iff.2 hne
  have hn : ncol < X.length := by
    have := indep_cols_le ncol _ (hi 0 hpos)
    rw [List.length_eraseIdx_of_lt hpos] at this
    omega
  have hind : IndepColumns ncol X := by
    intro m hm hz
    exact hi 0 hpos m hm fun r hr => hz r (List.mem_of_mem_eraseIdx hr)
  set p := robProblem N a wf ncol X y with hpdef
  have hrf : p.rfac.length = p.y.length := by simp [hpdef, robProblem, leverage, hy]
  have hg : ∀ j, Goes N p j := by
    intro j
    constructor
    · rintro ⟨-, h0⟩
      exact sigmaHat_residual_ne p hy hne e he h1 hm _ (passFit_len N hl p hX hy hrf j) h0
    · intro hu
      exfalso
      have : wf.usesMax = true := hu
      rcases hf with rfl | rfl | rfl <;> simp [WFun.usesMax] at this
  obtain ⟨en, hen⟩ := robLoop_total N p (passFit_some N hl p hrc hX hy hrf hf hind hn) hg a.maxit hmax
  exact ⟨_, robustfit_returns N a ncol X y wf en hwf (.inr ⟨ht, leverage_lt_one N hp ncol X hX hi⟩) hen⟩

end

end UTide
