import Verif.Props.RobustTurn
import Verif.Props.SixExample

/-!
# C111: a robust analysis of a current that depends on the axes

Three observations at each of the times 0, 0.5 and 1, M2 only, raw phases, no nodal corrections, no trend, weight
function `talwar`, everything else in `robust_kw` by default.
-/

namespace UTide.Props

noncomputable section

open Classical

local notation "conj" => starRingEnd ℂ

def nineTn : List Fl := [.fin 0, .fin 0, .fin 0, .fin 0.5, .fin 0.5, .fin 0.5, .fin 1, .fin 1, .fin 1]
def nineT : TimeArg := ⟨[9], .float nineTn, []⟩

/-- Three lists in a row. -/
def thrice {α : Type} (a b c : α) : List α := [a, b, c, a, b, c, a, b, c]

def nineSeries (a b c : ℝ) : Series := ⟨[9], (thrice a b c).map fun x => ⟨.fin x, false⟩⟩

def nineX (z : ℂ) : List (List ℂ) :=
  [[z, conj z, 1], [z, conj z, 1], [z, conj z, 1], [1, 1, 1], [1, 1, 1], [1, 1, 1], [conj z, z, 1], [conj z, z, 1],
    [conj z, z, 1]]

section
variable (a b c : ℂ)

local notation "uu" => nineSeries (Complex.re a) (Complex.re b) (Complex.re c)
local notation "vv" => nineSeries (Complex.im a) (Complex.im b) (Complex.im c)

theorem nine_ready : Ready idealEnv nineT uu (some vv) :=
  idealReady _ _ _ (by simp [TimeArg.WF, TimeArr.length, nineT, nineTn]) (by simp [Series.WF, nineSeries, thrice]) (by
    rintro w ⟨⟩
    simp [Series.WF, nineSeries, thrice])

theorem nine_times : normalizeTime idealEnv.dt64 nineT.arr (.str "python") = .ok nineTn := by
  show (Except.ok (nineTn.map _) : Except PyErr (List Fl)) = _
  congr 1

theorem nine_samples : samples nineTn (sampleValues (nineSeries a.re b.re c.re).data
    (some (nineSeries a.im b.im c.im).data)) =
    [(0, a), (0, b), (0, c), (0.5, a), (0.5, b), (0.5, c), (1, a), (1, b), (1, c)] := by
  simp [samples, sampleValues, nineSeries, nineTn, Fl.toReal?, Cell.value?, thrice]

theorem nine_length : SameLength nineTn (nineSeries a.re b.re c.re).data (some (nineSeries a.im b.im c.im).data) := by
  refine ⟨by simp [nineTn, nineSeries, thrice], fun w hw => ?_⟩
  simp only [Option.some.injEq] at hw; subst hw; simp [nineTn, nineSeries, thrice]

/-- The prepared problem of the example. -/
structure NinePrep (q : Opt) (z : ℂ) (p : Prep) : Prop where
  prep : PrepOk idealEnv q nineT uu (some vv) (some 45) nineTn (.names ["M2"]) p
  B : p.B = nineX z
  nm : p.nm = 3
  x : xraw p.ed = thrice a b c

theorem nine_prep (q : Opt) (hq : LikeEx q) : ∃ z p, z ≠ conj z ∧ z + conj z ≠ 2 ∧ NinePrep a b c q z p := by
  have R := nine_ready a b c
  have hlen := nine_length a b c
  have hus := usable_samples _ _ _ hlen
  rw [nine_samples] at hus
  have hne : usable nineTn (nineSeries a.re b.re c.re).data (some (nineSeries a.im b.im c.im).data) ≠ [] := by
    intro h0; rw [h0] at hus; simp at hus
  obtain ⟨ed, hed⟩ := editData_total nineTn _ _ hlen hne
  obtain ⟨-, h2, h3, -, h5⟩ := editData_usable _ _ _ hlen _ hed
  rw [hus] at h2 h3 h5
  have hft : finiteTimes nineTn = [0, 0, 0, 0.5, 0.5, 0.5, 1, 1, 1] := by
    simp [finiteTimes, nineTn, Fl.toReal?]
  have href : ed.tref = 0.5 := by
    rw [hft] at h5
    unfold timeStats at h5
    by_cases he : isEqui [0, 0, 0, 0.5, 0.5, 0.5, 1, 1, 1]
    · simp only [he, if_true] at h5
      have h6 := congrArg Prod.fst (Except.ok.inj h5)
      exact h6.symm.trans (by show (0.5 : ℝ) * (0 + 1) = 0.5; norm_num)
    · simp only [he] at h5
      have h6 := congrArg Prod.fst (Except.ok.inj h5)
      exact h6.symm.trans (by show (0.5 : ℝ) * (0 + 1) = 0.5; norm_num)
  obtain ⟨z, m0, m5, m1, hne1, hne2⟩ := m2_values
  have hrow : ∀ τ, modelRow q.flags ed.tref 45 ed.lor (!q.notrend) (approxOf none)
      (m2Sel ed.tref) τ = [m2 τ, conj (m2 τ), 1] := by
    intro τ
    have hm : utE q.flags ed.tref 45 τ (linFreqs ed.tref 47) 47 = m2 τ := by
      unfold m2 nameBasis
      have h47 : constitNames.idxOf "M2" = 47 := by decide +kernel
      rw [h47, hq.flags, href]
    unfold modelRow rowNR m2Sel
    simp only [List.zipWith_cons_cons, List.zipWith_nil_left, hm, hq.notrend]
    simp
  have hB : ed.t.map (modelRow q.flags ed.tref 45 ed.lor (!q.notrend) (approxOf none)
      (m2Sel ed.tref)) = nineX z := by
    rw [h2]
    simp only [List.map_cons, List.map_nil, hrow, m0, m5, m1, map_one, Complex.conj_conj, nineX]
  have hnm : numCols (!q.notrend) (m2Sel ed.tref) = 3 := by
    rw [hq.notrend]; rfl
  refine ⟨z, ⟨q, none, ed, 45, m2Sel ed.tref, _, _⟩, hne1, hne2, ?_, hB, hnm, ?_⟩
  · refine ⟨⟨rfl, ⟨rfl, rfl, fun w hw => by cases hw; rfl⟩, by rw [hq.epoch]; exact nine_times, hed⟩, by rw [hq.cnstit]; rfl,
      by rw [hq.infer]; rfl, m2_sel _ _, ?_, rfl, rfl, rfl⟩
    unfold checkMatrix
    rw [hq.flags, hq.notrend]
    rfl
  · rw [h3]; rfl

/-- A run with the example options returns as soon as the fit does. -/
theorem nine_returns (opts : Dict PyVal) (q : Opt) (hopt : getOpt opts true = .ok q) (hq : LikeEx q)
    (hci : q.confInt = false) (hnd : q.nodiagn = true) (ho : q.ordercnstit = .str "frequency")
    (hfit : ∀ z p, z ≠ conj z → z + conj z ≠ 2 → NinePrep a b c q z p → ∃ m W rf, stageFit idealEnv p = .ok (m, W, rf)) :
    ∃ co, solve idealEnv nineT uu (some vv) (some 45) opts = .ok co := by
  obtain ⟨z, p, hz, hz', hp⟩ := nine_prep a b c q hq
  obtain ⟨m, W, rf, hf⟩ := hfit z p hz hz' hp
  have hpo := hp.prep.hopt
  obtain ⟨c', ind, h1⟩ : ∃ c' ind, orderIndex idealEnv (rawCoef p m W rf) .frequency = .ok (c', ind) := ⟨_, _, rfl⟩
  refine ⟨_, (solve_ok _ _ _ _ _ _ _).2 ⟨q, p, _, _, m, W, rf, rawCoef p m W rf, rawCoef p m W rf, .frequency, hopt,
    hp.prep, hf, ?_, ?_, ?_, (reorder_ok _ _ _ _).2 ⟨c', ind, h1, rfl⟩⟩⟩
  · unfold stageConf; rw [hpo, hci]; rfl
  · unfold stageDiagn; rw [hpo, hnd]; rfl
  · rw [hpo, ho]; rfl

end

/-! ## The fit -/

theorem nine_rows (z : ℂ) : ∀ r ∈ nineX z, r.length = 3 := by simp [nineX]

theorem triple_cost (p q r : ℝ) (a b c f μ : ℂ) (hμ : ((p ^ 2 + q ^ 2 + r ^ 2 : ℝ) : ℂ) * μ = p ^ 2 * a + q ^ 2 * b + r ^ 2 * c) :
    (p * ‖a - f‖) ^ 2 + (q * ‖b - f‖) ^ 2 + (r * ‖c - f‖) ^ 2 =
      (p ^ 2 + q ^ 2 + r ^ 2) * ‖f - μ‖ ^ 2 + ((p * ‖a - μ‖) ^ 2 + (q * ‖b - μ‖) ^ 2 + (r * ‖c - μ‖) ^ 2) := by
  have h1 := congrArg Complex.re hμ
  have h2 := congrArg Complex.im hμ
  rw [Complex.re_ofReal_mul] at h1
  rw [Complex.im_ofReal_mul] at h2
  have e : ∀ (s : ℝ) (x : ℂ), ((s : ℂ) ^ 2 * x).re = s ^ 2 * x.re ∧ ((s : ℂ) ^ 2 * x).im = s ^ 2 * x.im := by
    intro s x
    rw [← Complex.ofReal_pow, Complex.re_ofReal_mul, Complex.im_ofReal_mul]; exact ⟨rfl, rfl⟩
  simp only [Complex.add_re, Complex.add_im, (e _ _).1, (e _ _).2] at h1 h2
  simp only [mul_pow, norm_sq_re, Complex.sub_re, Complex.sub_im]
  linear_combination (-2 * (μ.re - f.re)) * h1 + (-2 * (μ.im - f.im)) * h2

theorem nine_wcost (z : ℂ) (p q r : ℝ) (a b c μ : ℂ)
    (hμ : ((p ^ 2 + q ^ 2 + r ^ 2 : ℝ) : ℂ) * μ = p ^ 2 * a + q ^ 2 * b + r ^ 2 * c) (m : List ℂ) :
    wcost (thrice p q r) (nineX z) (thrice a b c) m = (p ^ 2 + q ^ 2 + r ^ 2) * ‖dot [z, conj z, 1] m - μ‖ ^ 2 +
      (p ^ 2 + q ^ 2 + r ^ 2) * ‖dot [1, 1, 1] m - μ‖ ^ 2 + (p ^ 2 + q ^ 2 + r ^ 2) * ‖dot [conj z, z, 1] m - μ‖ ^ 2 +
      3 * ((p * ‖a - μ‖) ^ 2 + (q * ‖b - μ‖) ^ 2 + (r * ‖c - μ‖) ^ 2) := by
  have h := fun f => triple_cost p q r a b c f μ hμ
  unfold wcost thrice nineX
  simp only [List.zip_cons_cons, List.zip_nil_left, List.map_cons, List.map_nil, List.sum_cons, List.sum_nil]
  linear_combination h (dot [z, conj z, 1] m) + h (dot [1, 1, 1] m) + h (dot [conj z, z, 1] m)

/-- A fit with the same three weights at each time goes through the weighted mean. -/
theorem nine_fit (N : Num) (hN : NumOk N) (z : ℂ) (h1 : z ≠ conj z) (h2 : z + conj z ≠ 2) (p q r : ℝ) (hp : p ≠ 0)
    (a b c μ : ℂ) (hμ : ((p ^ 2 + q ^ 2 + r ^ 2 : ℝ) : ℂ) * μ = p ^ 2 * a + q ^ 2 * b + r ^ 2 * c)
    (P : RobProblem) (hX : P.X = nineX z) (hy : P.y = thrice a b c) (hn : P.ncol = 3) (hr : exactRcond (some P.rcond)) :
    residual P (weightedFit N P (thrice p q r)).b = thrice (a - μ) (b - μ) (c - μ) ∧
    (weightedFit N P (thrice p q r)).b = [0, 0, μ] ∧
    (weightedFit N P (thrice p q r)).resid = some (3 * ((p * ‖a - μ‖) ^ 2 + (q * ‖b - μ‖) ^ 2 + (r * ‖c - μ‖) ^ 2)) := by
  set A := List.zipWith (fun (wi : ℝ) r => r.map fun x => (wi : ℂ) * x) (thrice p q r) (nineX z) with hA
  set B := List.zipWith (fun (wi : ℝ) yi => (wi : ℂ) * yi) (thrice p q r) (thrice a b c) with hB
  have hfit : weightedFit N P (thrice p q r) = N.lstsq (some P.rcond) 3 A B := by
    unfold weightedFit; rw [hX, hy, hn]
  have hrows : ∀ r ∈ A, r.length = 3 := by
    intro r hr
    obtain ⟨i, hi, rfl⟩ := List.mem_iff_getElem.1 hr
    simp only [hA, List.getElem_zipWith, List.length_map]
    exact nine_rows z _ (List.getElem_mem _)
  have hlen : A.length = B.length := by simp [hA, hB, thrice, nineX]
  obtain ⟨hbl, hrest⟩ := hN.lstsq (some P.rcond) 3 A B hrows hlen
  obtain ⟨hmin, hres, hind⟩ := hrest hr
  rw [← hfit] at hbl hmin hind hres
  have hcost : ∀ m, cost A B m = wcost (thrice p q r) (nineX z) (thrice a b c) m := fun m => cost_weighted _ _ _ _
  have hS : 0 < p ^ 2 + q ^ 2 + r ^ 2 := by positivity
  have hmu : ∀ x y : ℂ, dot [x, y, 1] [0, 0, μ] = μ := by intro x y; simp [dot_cons]
  have hI : IndepColumns 3 A := by
    intro m hm hz
    refine quad_indep z h1 h2 m hm fun r' hr' => ?_
    have key : ∀ x ∈ [[z, conj z, 1], [1, 1, 1], [conj z, z, 1]], (x.map fun y => (p : ℂ) * y) ∈ A := by
      intro x hx
      simp only [hA, thrice, nineX, List.zipWith_cons_cons, List.zipWith_nil_left]
      simp only [List.mem_cons, List.not_mem_nil, or_false] at hx
      rcases hx with rfl | rfl | rfl <;> simp
    have hx : r' ∈ [[z, conj z, 1], [1, 1, 1], [conj z, z, 1]] := by
      simp only [List.mem_cons, List.not_mem_nil, or_false] at hr' ⊢
      tauto
    have := hz _ (key r' hx)
    rw [dot_scaled_row] at this
    exact (mul_eq_zero.1 this).resolve_left (by exact_mod_cast hp)
  have hopt : ∀ x, x.length = 3 → cost A B [0, 0, μ] ≤ cost A B x := by
    intro x _
    rw [hcost, hcost, nine_wcost z p q r a b c μ hμ, nine_wcost z p q r a b c μ hμ, hmu, hmu, hmu]
    simp only [sub_self, norm_zero]
    have n1 := mul_nonneg hS.le (sq_nonneg ‖dot [z, conj z, 1] x - μ‖)
    have n2 := mul_nonneg hS.le (sq_nonneg ‖dot [1, 1, 1] x - μ‖)
    have n3 := mul_nonneg hS.le (sq_nonneg ‖dot [conj z, z, 1] x - μ‖)
    linarith
  have hb : (weightedFit N P (thrice p q r)).b = [0, 0, μ] :=
    optimal_unique 3 A B _ _ hlen hI hbl rfl hmin.optimal hopt
  obtain ⟨s, hs⟩ := Option.isSome_iff_exists.1 (hind.2 ⟨hI, by simp [hA, thrice, nineX]⟩)
  refine ⟨?_, hb, ?_⟩
  · rw [hb]
    unfold residual
    rw [hX, hy]
    simp only [nineX, thrice, List.zipWith_cons_cons, List.zipWith_nil_left, hmu]
  · rw [hs, hres s hs, hb, hcost, nine_wcost z p q r a b c μ hμ, hmu, hmu, hmu]
    simp

theorem three_cost (a b c f : ℂ) : ‖a - f‖ ^ 2 + ‖b - f‖ ^ 2 + ‖c - f‖ ^ 2 = 3 * ‖f - (a + b + c) / 3‖ ^ 2 +
    (‖a - (a + b + c) / 3‖ ^ 2 + ‖b - (a + b + c) / 3‖ ^ 2 + ‖c - (a + b + c) / 3‖ ^ 2) := by
  have := triple_cost 1 1 1 a b c f ((a + b + c) / 3) (by push_cast; ring)
  simp only [one_mul, one_pow] at this
  linear_combination this

/-- The best curve goes through the means of the triples. -/
theorem nine_opt (z : ℂ) (h1 : z ≠ conj z) (h2 : z + conj z ≠ 2) (a b c d e f g h i : ℂ) (m : List ℂ)
    (hm : ∀ m', m'.length = 3 → cost (nineX z) [a, b, c, d, e, f, g, h, i] m ≤ cost (nineX z) [a, b, c, d, e, f, g, h, i] m') :
    dot [z, conj z, 1] m = (a + b + c) / 3 ∧ dot [1, 1, 1] m = (d + e + f) / 3 ∧
      dot [conj z, z, 1] m = (g + h + i) / 3 := by
  obtain ⟨m', hl, k1, k2, k3⟩ := six_interp z h1 h2 ((a + b + c) / 3) ((d + e + f) / 3) ((g + h + i) / 3)
  have key : ∃ K, ∀ x, cost (nineX z) [a, b, c, d, e, f, g, h, i] x = 3 * ‖dot [z, conj z, 1] x - (a + b + c) / 3‖ ^ 2 +
      3 * ‖dot [1, 1, 1] x - (d + e + f) / 3‖ ^ 2 + 3 * ‖dot [conj z, z, 1] x - (g + h + i) / 3‖ ^ 2 + K := by
    refine ⟨(‖a - (a + b + c) / 3‖ ^ 2 + ‖b - (a + b + c) / 3‖ ^ 2 + ‖c - (a + b + c) / 3‖ ^ 2) +
      (‖d - (d + e + f) / 3‖ ^ 2 + ‖e - (d + e + f) / 3‖ ^ 2 + ‖f - (d + e + f) / 3‖ ^ 2) +
      (‖g - (g + h + i) / 3‖ ^ 2 + ‖h - (g + h + i) / 3‖ ^ 2 + ‖i - (g + h + i) / 3‖ ^ 2), fun x => ?_⟩
    unfold nineX
    rw [cost_cons, cost_cons, cost_cons, cost_cons, cost_cons, cost_cons, cost_cons, cost_cons, cost_cons, cost_nil_left]
    have t1 := three_cost a b c (dot [z, conj z, 1] x)
    have t2 := three_cost d e f (dot [1, 1, 1] x)
    have t3 := three_cost g h i (dot [conj z, z, 1] x)
    linear_combination t1 + t2 + t3
  obtain ⟨K, key⟩ := key
  have hle := hm m' hl
  rw [key, key, k1, k2, k3] at hle
  simp only [sub_self, norm_zero] at hle
  have n1 := sq_nonneg ‖dot [z, conj z, 1] m - (a + b + c) / 3‖
  have n2 := sq_nonneg ‖dot [1, 1, 1] m - (d + e + f) / 3‖
  have n3 := sq_nonneg ‖dot [conj z, z, 1] m - (g + h + i) / 3‖
  have z1 : ‖dot [z, conj z, 1] m - (a + b + c) / 3‖ ^ 2 = 0 := by linarith
  have z2 : ‖dot [1, 1, 1] m - (d + e + f) / 3‖ ^ 2 = 0 := by linarith
  have z3 : ‖dot [conj z, z, 1] m - (g + h + i) / 3‖ ^ 2 = 0 := by linarith
  have fin : ∀ w : ℂ, ‖w‖ ^ 2 = 0 → w = 0 := fun w hw => by simpa using hw
  exact ⟨sub_eq_zero.1 (fin _ z1), sub_eq_zero.1 (fin _ z2), sub_eq_zero.1 (fin _ z3)⟩

theorem nine_leverage (N : Num) (hN : NumOk N) (z : ℂ) (h1 : z ≠ conj z) (h2 : z + conj z ≠ 2) :
    leverage N 3 (nineX z) = thrice (1 / 3) (1 / 3) (1 / 3) := by
  obtain ⟨-, hp⟩ := hN.pinv 3 (nineX z) (nine_rows z)
  have hd : ∀ (r : List ℂ) (j : ℕ), (List.zipWith (fun xji (prow : List ℂ) => xji * prow.getD j 0) r
      (N.pinv 3 (nineX z))).sum = dot r ((N.pinv 3 (nineX z)).map fun row => row.getD j 0) := by
    intro r j; unfold dot; rw [List.zipWith_map_right]
  have key := fun j hj => nine_opt z h1 h2 _ _ _ _ _ _ _ _ _ _ ((hp j hj).optimal)
  have k0 := (key 0 (by simp [nineX])).1
  have k1 := (key 1 (by simp [nineX])).1
  have k2 := (key 2 (by simp [nineX])).1
  have k3 := (key 3 (by simp [nineX])).2.1
  have k4 := (key 4 (by simp [nineX])).2.1
  have k5 := (key 5 (by simp [nineX])).2.1
  have k6 := (key 6 (by simp [nineX])).2.2
  have k7 := (key 7 (by simp [nineX])).2.2
  have k8 := (key 8 (by simp [nineX])).2.2
  unfold leverage
  simp only [hd]
  simp only [nineX, List.zipIdx_cons, List.zipIdx_nil, List.map_cons, List.map_nil, zero_add, Nat.reduceAdd]
  rw [show ([[z, conj z, 1], [z, conj z, 1], [z, conj z, 1], [1, 1, 1], [1, 1, 1], [1, 1, 1], [conj z, z, 1],
    [conj z, z, 1], [conj z, z, 1]] : List (List ℂ)) =
    nineX z from rfl, k0, k1, k2, k3, k4, k5, k6, k7, k8]
  norm_num [thrice]

/-! ## The two runs of `robustfit` -/

def nineArgs : RobArgs := { robDefaults with wfName := "talwar" }

/-- The record `-i, i, 12` at each time, turned by `ζ`. -/
def nineP (N : Num) (z ζ : ℂ) : RobProblem :=
  robProblem N nineArgs .talwar 3 (nineX z) (thrice (ζ * -Complex.I) (ζ * Complex.I) (ζ * 12))

/-- The factor of a residual of size 1 when the median deviation is 1. -/
def nineK : ℝ := 0.6745 / (2.795 * Real.sqrt (2 / 3))

theorem nineK_bounds : 0.29 < nineK ∧ nineK < 0.3 := by
  have h1 : (0.8164 : ℝ) < Real.sqrt (2 / 3) := Real.lt_sqrt_of_sq_lt (by norm_num)
  have h2 : Real.sqrt (2 / 3) < 0.8166 := (Real.sqrt_lt' (by norm_num)).2 (by norm_num)
  unfold nineK
  constructor
  · rw [lt_div_iff₀ (by positivity)]; linarith
  · rw [div_lt_iff₀ (by positivity)]; linarith

/-- The weights computed from three residuals at each time. -/
theorem nine_weights (N : Num) (hN : NumOk N) (z : ℂ) (h1 : z ≠ conj z) (h2 : z + conj z ≠ 2) (ζ : ℂ) (x y w : ℂ) (s : ℝ)
    (hs : 0 < s) (hsig : sigmaHat (thrice x y w) = s / 0.6745) :
    (rNormed (thrice x y w) (nineP N z ζ).rfac).map (nineP N z ζ).wf.weight =
      thrice (if nineK * ‖x‖ < s then 1 else 0) (if nineK * ‖y‖ < s then 1 else 0) (if nineK * ‖w‖ < s then 1 else 0) := by
  have hr : (nineP N z ζ).rfac = thrice (1 / (2.795 * Real.sqrt (2 / 3))) (1 / (2.795 * Real.sqrt (2 / 3)))
      (1 / (2.795 * Real.sqrt (2 / 3))) := by
    unfold nineP robProblem
    dsimp only
    rw [nine_leverage N hN z h1 h2]
    simp only [thrice, List.map_cons, List.map_nil, nineArgs, robDefaults, Option.getD_none, WFun.tune]
    norm_num
  have hpos : 0 < Real.sqrt (2 / 3) := Real.sqrt_pos.2 (by norm_num)
  have hn : ∀ x : ℂ, WFun.talwar.weight (((1 / (2.795 * Real.sqrt (2 / 3)) : ℝ) : ℂ) * x / ((s / 0.6745 : ℝ) : ℂ)) =
      if nineK * ‖x‖ < s then 1 else 0 := by
    intro x
    have e : ‖((1 / (2.795 * Real.sqrt (2 / 3)) : ℝ) : ℂ) * x / ((s / 0.6745 : ℝ) : ℂ)‖ = nineK * ‖x‖ / s := by
      rw [norm_div, norm_mul, Complex.norm_real, Complex.norm_real, Real.norm_eq_abs, Real.norm_eq_abs,
        abs_of_pos (by positivity), abs_of_pos (by positivity)]
      unfold nineK
      field_simp
    show (if ‖_‖ < 1 then (1 : ℝ) else 0) = _
    simp only [e, div_lt_one hs]
  rw [hr]
  unfold rNormed
  rw [hsig]
  show List.map WFun.talwar.weight _ = _
  simp only [thrice, List.zipWith_cons_cons, List.zipWith_nil_left, List.map_cons, List.map_nil, hn]

theorem thrice_perm1 {α : Type} (x y w : α) : (thrice x y w).Perm [x, x, x, y, y, y, w, w, w] := by
  classical
  exact List.perm_iff_count.2 fun a => by simp only [thrice, List.count_cons, List.count_nil]; omega

theorem thrice_perm2 {α : Type} (x y w : α) : (thrice x y w).Perm [y, y, y, w, w, w, x, x, x] := by
  classical
  exact List.perm_iff_count.2 fun a => by simp only [thrice, List.count_cons, List.count_nil]; omega

theorem thrice_perm3 {α : Type} (x y w : α) : (thrice x y w).Perm [y, y, y, x, x, x, w, w, w] := by
  classical
  exact List.perm_iff_count.2 fun a => by simp only [thrice, List.count_cons, List.count_nil]; omega

theorem thrice_perm4 {α : Type} (x y w : α) : (thrice x y w).Perm [w, w, w, x, x, x, y, y, y] := by
  classical
  exact List.perm_iff_count.2 fun a => by simp only [thrice, List.count_cons, List.count_nil]; omega

theorem blocks_sorted {α : Type} (r : α → α → Prop) (hr : ∀ a, r a a) (x y w : α) (h1 : r x y) (h2 : r y w) (h3 : r x w) :
    [x, x, x, y, y, y, w, w, w].Pairwise r := by
  simp [hr, h1, h2, h3]

theorem lexLE_refl (a : ℂ) : lexLE a a := .inr ⟨rfl, le_rfl⟩

/-- First orientation: the median is the second residual. -/
theorem nine_sigma1 (s : ℝ) : sigmaHat (thrice (s - Complex.I) (s + Complex.I) (s + 12)) = 2 / 0.6745 := by
  have l1 : lexLE (s - Complex.I) (s + Complex.I) := .inr ⟨by simp, by simp⟩
  have l2 : lexLE (s + Complex.I) (s + 12) := .inl (by simp)
  have hc : cmedian (thrice ((s : ℂ) - Complex.I) (s + Complex.I) (s + 12)) = s + Complex.I := by
    rw [cmedian_eq _ _ (thrice_perm1 _ _ _) (blocks_sorted lexLE lexLE_refl _ _ _ l1 l2 (lexLE_trans _ _ _ l1 l2))]
    simp [midOf]
  have n1 : ‖(s : ℂ) - Complex.I - (s + Complex.I)‖ = 2 := by
    rw [show (s : ℂ) - Complex.I - (s + Complex.I) = -2 * Complex.I by ring]; simp
  have n2 : ‖(s : ℂ) + Complex.I - (s + Complex.I)‖ = 0 := by simp
  have n3 : 2 ≤ ‖(s : ℂ) + 12 - (s + Complex.I)‖ := by
    rw [show (s : ℂ) + 12 - (s + Complex.I) = 12 - Complex.I by ring]
    have := Complex.abs_re_le_norm (12 - Complex.I)
    simp at this
    linarith
  unfold sigmaHat
  rw [hc]
  simp only [thrice, List.map_cons, List.map_nil, n1, n2]
  generalize ‖(s : ℂ) + 12 - (s + Complex.I)‖ = q at n3
  rw [show [2, 0, q, 2, 0, q, 2, 0, q] = thrice 2 0 q from rfl, median_eq _ _ (thrice_perm3 _ _ _)
    (blocks_sorted (· ≤ ·) le_refl _ _ _ (by norm_num) n3 (by linarith))]
  simp [middle]

/-- Second orientation: the median is the third residual. -/
theorem nine_sigma2 : sigmaHat (thrice (1 - 4 * Complex.I) (-1 - 4 * Complex.I) (8 * Complex.I)) = Real.sqrt 145 / 0.6745 := by
  have l1 : lexLE (-1 - 4 * Complex.I) (8 * Complex.I) := .inl (by simp)
  have l2 : lexLE (8 * Complex.I) (1 - 4 * Complex.I) := .inl (by simp)
  have hc : cmedian (thrice (1 - 4 * Complex.I) (-1 - 4 * Complex.I) (8 * Complex.I)) = 8 * Complex.I := by
    rw [cmedian_eq _ _ (thrice_perm2 _ _ _) (blocks_sorted lexLE lexLE_refl _ _ _ l1 l2 (lexLE_trans _ _ _ l1 l2))]
    simp [midOf]
  have hn : ∀ z : ℂ, ‖z‖ = Real.sqrt (z.re ^ 2 + z.im ^ 2) := fun z => by
    rw [← norm_sq_re, Real.sqrt_sq (norm_nonneg z)]
  have n1 : ‖1 - 4 * Complex.I - 8 * Complex.I‖ = Real.sqrt 145 := by
    rw [hn]; congr 1; simp; norm_num
  have n2 : ‖-1 - 4 * Complex.I - 8 * Complex.I‖ = Real.sqrt 145 := by
    rw [hn]; congr 1; simp; norm_num
  unfold sigmaHat
  rw [hc]
  simp only [thrice, List.map_cons, List.map_nil, n1, n2, sub_self, norm_zero]
  have h0 : 0 ≤ Real.sqrt 145 := Real.sqrt_nonneg _
  generalize Real.sqrt 145 = q at h0
  rw [show [q, q, 0, q, q, 0, q, q, 0] = thrice q q 0 from rfl, median_eq _ _ (thrice_perm4 _ _ _)
    (blocks_sorted (· ≤ ·) le_refl _ _ _ h0 le_rfl h0)]
  simp [middle]

section
variable (N : Num) (hN : NumOk N) (z : ℂ) (h1 : z ≠ conj z) (h2 : z + conj z ≠ 2)

theorem nine_w0 (ζ : ℂ) : passW N (nineP N z ζ) 0 = thrice 1 1 1 := rfl

include hN h1 h2

theorem nine_pass (ζ : ℂ) (k : ℕ) (r : ℝ) (μ : ℂ) (hw : passW N (nineP N z ζ) k = thrice 1 1 r)
    (hμ : (2 + r ^ 2 : ℂ) * μ = r ^ 2 * (ζ * 12)) :
    residual (nineP N z ζ) (passFit N (nineP N z ζ) k).b = thrice (ζ * -Complex.I - μ) (ζ * Complex.I - μ) (ζ * 12 - μ) ∧
    (passFit N (nineP N z ζ) k).b = [0, 0, μ] ∧
    (passFit N (nineP N z ζ) k).resid = some (3 * (‖ζ * -Complex.I - μ‖ ^ 2 + ‖ζ * Complex.I - μ‖ ^ 2 +
      (r * ‖ζ * 12 - μ‖) ^ 2)) := by
  have := nine_fit N hN z h1 h2 1 1 r one_ne_zero (ζ * -Complex.I) (ζ * Complex.I) (ζ * 12) μ
    (by push_cast; linear_combination hμ) (nineP N z ζ) rfl rfl rfl (.inr le_rfl)
  unfold passFit
  rw [hw]
  simpa using this

/-- The data of the problem, turned. -/
def nineY (ζ : ℂ) : List ℂ := thrice (ζ * -Complex.I) (ζ * Complex.I) (ζ * 12)

theorem nine_end (ζ : ℂ) (e : RobEnd) (he : robLoop N (nineP N z ζ) 50 50 0 (passW N (nineP N z ζ) 0) none = .ok e) :
    ∃ out, robustfit N nineArgs 3 (nineX z) (nineY ζ) = .ok out ∧ out.b = e.fit.b ∧ out.w = e.w := by
  refine ⟨_, robustfit_returns N nineArgs 3 (nineX z) (nineY ζ) .talwar e (by simp [nineArgs, WFun.ofName])
    (.inr ⟨?_, ?_⟩) he, rfl, rfl⟩
  · norm_num [nineArgs, robDefaults, WFun.tune]
  · rw [nine_leverage N hN z h1 h2]
    intro l hl
    simp [thrice] at hl
    rw [hl]; norm_num

/-- First orientation: the third observation is dropped. -/
theorem nine_run1 : ∃ out, robustfit N nineArgs 3 (nineX z) (nineY 1) = .ok out ∧
    out.b = [0, 0, 0] ∧ out.w = thrice 1 1 0 := by
  set P := nineP N z 1 with hP
  obtain ⟨hk1, hk2⟩ := nineK_bounds
  have hI : ‖Complex.I‖ = 1 := Complex.norm_I
  have hn : ∀ x : ℂ, ‖x‖ ^ 2 = x.re ^ 2 + x.im ^ 2 := norm_sq_re
  -- first pass
  obtain ⟨r0, -, c0⟩ := nine_pass N hN z h1 h2 1 0 1 4 rfl (by norm_num)
  rw [← hP] at r0 c0
  have e0 : thrice (1 * -Complex.I - 4) (1 * Complex.I - 4) (1 * 12 - 4) =
      thrice (((-4 : ℝ) : ℂ) - Complex.I) (((-4 : ℝ) : ℂ) + Complex.I) (((-4 : ℝ) : ℂ) + 12) := by
    congr 1 <;> push_cast <;> ring
  have s0 : sigmaHat (residual P (passFit N P 0).b) = 2 / 0.6745 := by rw [r0, e0, nine_sigma1]
  have w1 : passW N P 1 = thrice 1 1 0 := by
    show (rNormed (residual P (passFit N P 0).b) P.rfac).map P.wf.weight = _
    rw [r0, hP, nine_weights N hN z h1 h2 1 _ _ _ 2 (by norm_num) (by rw [e0, nine_sigma1])]
    have a1 : ‖1 * -Complex.I - 4‖ < 5 := by
      refine lt_of_pow_lt_pow_left₀ 2 (by norm_num) ?_
      rw [hn]; simp; norm_num
    have a2 : ‖1 * Complex.I - 4‖ < 5 := by
      refine lt_of_pow_lt_pow_left₀ 2 (by norm_num) ?_
      rw [hn]; simp; norm_num
    have a3 : ‖(1 * 12 - 4 : ℂ)‖ = 8 := by norm_num
    rw [if_pos, if_pos, if_neg]
    · rw [a3]; linarith
    · nlinarith [norm_nonneg (1 * Complex.I - 4)]
    · nlinarith [norm_nonneg (1 * -Complex.I - 4)]
  have m0 : passMs N P 0 = 98 / 3 := by
    unfold passMs
    rw [c0, show passW N P 0 = thrice 1 1 1 from rfl]
    simp only [hn, Option.getD_some, thrice, mul_pow]
    norm_num
  -- second and third pass
  have later : ∀ k, passW N P k = thrice 1 1 0 → (passFit N P k).b = [0, 0, 0] ∧ passMs N P k = 1 ∧
      (passFit N P k).resid.isSome ∧ sigmaHat (residual P (passFit N P k).b) = 2 / 0.6745 ∧
      passW N P (k + 1) = thrice 1 1 0 := by
    intro k hk
    obtain ⟨r1, b1, c1⟩ := nine_pass N hN z h1 h2 1 k 0 0 hk (by simp)
    rw [← hP] at r1 b1 c1
    have e1 : thrice (1 * -Complex.I - 0) (1 * Complex.I - 0) (1 * 12 - 0) =
        thrice (((0 : ℝ) : ℂ) - Complex.I) (((0 : ℝ) : ℂ) + Complex.I) (((0 : ℝ) : ℂ) + 12) := by
      congr 1 <;> push_cast <;> ring
    have s1 : sigmaHat (residual P (passFit N P k).b) = 2 / 0.6745 := by rw [r1, e1, nine_sigma1]
    refine ⟨b1, ?_, by rw [c1]; rfl, s1, ?_⟩
    · unfold passMs
      rw [c1, hk]
      simp [thrice]
      norm_num
    · show (rNormed (residual P (passFit N P k).b) P.rfac).map P.wf.weight = _
      rw [r1, hP, nine_weights N hN z h1 h2 1 _ _ _ 2 (by norm_num) (by rw [e1, nine_sigma1])]
      have a1 : ‖1 * -Complex.I - 0‖ = 1 := by simp
      have a2 : ‖1 * Complex.I - 0‖ = 1 := by simp
      have a3 : ‖(1 * 12 - 0 : ℂ)‖ = 12 := by norm_num
      rw [a1, a2, a3, if_pos, if_neg] <;> linarith
  obtain ⟨b1, m1, i1, s1, w2⟩ := later 1 w1
  obtain ⟨b2, m2, i2, -, -⟩ := later 2 w2
  have p0 : Passed N P 0 := ⟨by rw [c0]; rfl, ⟨by rw [s0]; norm_num, fun h => by cases h⟩, by omega⟩
  have hi01 : ¬ improvement (passMs N P 0) (passMs N P 1) < Fl.fin 0 := by
    rw [m0, m1, improvement_neg (by norm_num) (by norm_num)]; norm_num
  have p1 : Passed N P 1 := by
    refine ⟨i1, ⟨by rw [s1]; norm_num, fun h => by cases h⟩, fun _ => ⟨hi01, ?_⟩⟩
    have h := improvement_small (a := 98 / 3) (b := 1) (by norm_num) (by norm_num) P.tol (by rw [← m0, ← m1]; exact hi01)
    rw [m0, m1, h]
    show ¬ _ < (((1 / 1000 : ℚ)) : ℝ) * _
    norm_num
  have hi12 : ¬ improvement (passMs N P 1) (passMs N P 2) < Fl.fin 0 := by
    rw [m1, m2, improvement_neg (by norm_num) (by norm_num)]; norm_num
  have hi12' : improvement (passMs N P 1) (passMs N P 2) < Fl.fin P.tol := by
    have h := improvement_small (a := 1) (b := 1) (by norm_num) (by norm_num) P.tol (by
      have := hi12; rw [m1, m2] at this; exact this)
    rw [m1, m2, h]
    show _ < (((1 / 1000 : ℚ)) : ℝ) * _
    norm_num
  have st0 := (robStep_none N P _).2 ⟨p0, rfl⟩
  have st1 := (robStep_some N P 0 _).2 ⟨i1, .inr (.inr ⟨p1, rfl⟩)⟩
  have st2 := (robStep_some N P 1 _).2 ⟨i2, .inr (.inl ⟨hi12, hi12', rfl⟩)⟩
  obtain ⟨out, ho, hb, hw⟩ := nine_end N hN z h1 h2 1 ⟨passFit N P 2, passW N P 2, residual P (passFit N P 1).b, 3⟩ (by
    rw [← hP, robLoop, st0]
    dsimp only
    rw [robLoop, st1]
    dsimp only
    rw [robLoop, st2])
  exact ⟨out, ho, hb.trans b2, hw.trans w2⟩

/-- Second orientation: nothing is dropped. -/
theorem nine_run2 : ∃ out, robustfit N nineArgs 3 (nineX z) (nineY Complex.I) = .ok out ∧
    out.b = [0, 0, 4 * Complex.I] ∧ out.w = thrice 1 1 1 := by
  set P := nineP N z Complex.I with hP
  obtain ⟨hk1, hk2⟩ := nineK_bounds
  have hn : ∀ x : ℂ, ‖x‖ ^ 2 = x.re ^ 2 + x.im ^ 2 := norm_sq_re
  have h145 : 12 < Real.sqrt 145 := Real.lt_sqrt_of_sq_lt (by norm_num)
  have all : ∀ k, passW N P k = thrice 1 1 1 → (passFit N P k).b = [0, 0, 4 * Complex.I] ∧ passMs N P k = 98 / 3 ∧
      (passFit N P k).resid.isSome ∧ sigmaHat (residual P (passFit N P k).b) = Real.sqrt 145 / 0.6745 ∧
      passW N P (k + 1) = thrice 1 1 1 := by
    intro k hk
    obtain ⟨r1, b1, c1⟩ := nine_pass N hN z h1 h2 Complex.I k 1 (4 * Complex.I) hk (by push_cast; ring)
    rw [← hP] at r1 b1 c1
    have e1 : thrice (Complex.I * -Complex.I - 4 * Complex.I) (Complex.I * Complex.I - 4 * Complex.I)
        (Complex.I * 12 - 4 * Complex.I) =
        thrice (1 - 4 * Complex.I) (-1 - 4 * Complex.I) (8 * Complex.I) := by
      have := Complex.I_mul_I
      congr 1
      · linear_combination -this
      · linear_combination this
      · ring
    have s1 : sigmaHat (residual P (passFit N P k).b) = Real.sqrt 145 / 0.6745 := by rw [r1, e1, nine_sigma2]
    refine ⟨b1, ?_, by rw [c1]; rfl, s1, ?_⟩
    · unfold passMs
      rw [c1, hk]
      simp only [hn, Option.getD_some, thrice, mul_pow]
      norm_num
    · show (rNormed (residual P (passFit N P k).b) P.rfac).map P.wf.weight = _
      rw [r1, e1, hP, nine_weights N hN z h1 h2 Complex.I _ _ _ (Real.sqrt 145) (by linarith) nine_sigma2]
      have a1 : ‖1 - 4 * Complex.I‖ < 5 := by
        refine lt_of_pow_lt_pow_left₀ 2 (by norm_num) ?_
        rw [hn]; simp; norm_num
      have a2 : ‖-1 - 4 * Complex.I‖ < 5 := by
        refine lt_of_pow_lt_pow_left₀ 2 (by norm_num) ?_
        rw [hn]; simp; norm_num
      have a3 : ‖8 * Complex.I‖ = 8 := by simp
      rw [if_pos, if_pos, if_pos]
      · rw [a3]; linarith
      · nlinarith [norm_nonneg (-1 - 4 * Complex.I)]
      · nlinarith [norm_nonneg (1 - 4 * Complex.I)]
  obtain ⟨b0, m0, i0, s0, w1⟩ := all 0 rfl
  obtain ⟨b1, m1, i1, -, -⟩ := all 1 w1
  have p0 : Passed N P 0 := by
    refine ⟨i0, ⟨?_, fun h => by cases h⟩, by omega⟩
    rw [s0]
    rintro ⟨-, h⟩
    have : 0 < Real.sqrt 145 / 0.6745 := by positivity
    linarith
  have hi0 : ¬ improvement (passMs N P 0) (passMs N P 1) < Fl.fin 0 := by
    rw [m0, m1, improvement_neg (by norm_num) (by norm_num)]; norm_num
  have hi1 : improvement (passMs N P 0) (passMs N P 1) < Fl.fin P.tol := by
    have h := improvement_small (a := 98 / 3) (b := 98 / 3) (by norm_num) (by norm_num) P.tol (by
      have := hi0; rw [m0, m1] at this; exact this)
    rw [m0, m1, h]
    show _ < (((1 / 1000 : ℚ)) : ℝ) * _
    norm_num
  have st0 := (robStep_none N P _).2 ⟨p0, rfl⟩
  have st1 := (robStep_some N P 0 _).2 ⟨i1, .inr (.inl ⟨hi0, hi1, rfl⟩)⟩
  obtain ⟨out, ho, hb, hw⟩ := nine_end N hN z h1 h2 Complex.I ⟨passFit N P 1, passW N P 1, residual P (passFit N P 0).b, 2⟩ (by
    rw [← hP, robLoop, st0]
    dsimp only
    rw [robLoop, st1])
  exact ⟨out, ho, hb.trans b1, hw.trans w1⟩

end

/-! ## The two runs of `solve` -/

structure NineRun (kw : List (String × PyVal)) (a b c μ : ℂ) (w : List ℝ) (co : Coef) : Prop where
  returned : solve idealEnv nineT (nineSeries a.re b.re c.re) (some (nineSeries a.im b.im c.im)) (some 45)
    (methodOpts "robust" kw) = .ok co
  opt : co.opt = { exOpt true with method := .robust kw }
  weights : co.weights = w
  mean : co.mean = .two μ.re μ.im none

theorem nine_solve (kw : List (String × PyVal)) (args : RobArgs) (hargs : readRobArgs kw robDefaults = .ok args)
    (a b c μ : ℂ) (P : List ℝ → Prop) (hrun : ∀ z : ℂ, z ≠ conj z → z + conj z ≠ 2 →
    ∃ out, robustfit idealNum args 3 (nineX z) (thrice a b c) = .ok out ∧ out.b = [0, 0, μ] ∧ P out.w) :
    ∃ co w, P w ∧ NineRun kw a b c μ w co := by
  have R := nine_ready a b c
  have hopt : getOpt (methodOpts "robust" kw) true = .ok { exOpt true with method := .robust kw } := by
    unfold methodOpts; rfl
  have hfit : ∀ z p, z ≠ conj z → z + conj z ≠ 2 →
      NinePrep a b c { exOpt true with method := .robust kw } z p →
      ∃ out, stageFit idealEnv p = .ok (out.b, out.w, some out) ∧ out.b = [0, 0, μ] ∧ P out.w := by
    intro z p hz hz' hp
    obtain ⟨out, ho, hb, hw⟩ := hrun z hz hz'
    refine ⟨out, ?_, hb, hw⟩
    unfold stageFit
    rw [hp.prep.hopt, hp.B, hp.nm, hp.x]
    show ((readRobArgs kw robDefaults) >>= fun a => _) = _
    rw [hargs, ok_bind]
    show (robustfit idealNum args 3 (nineX z) (thrice a b c) >>= _) = _
    rw [ho]
    rfl
  obtain ⟨co, hc⟩ := nine_returns a b c _ _ hopt ⟨rfl, rfl, rfl, rfl, rfl⟩ rfl rfl rfl
    (fun z p hz hz' hp => by
      obtain ⟨out, h, -⟩ := hfit z p hz hz' hp
      exact ⟨_, _, _, h⟩)
  obtain ⟨opt, p, tn, constit, m, W, rf, full, o, ind, F⟩ := solve_facts R hc
  have hopt' := Except.ok.inj (hopt.symm.trans F.hopt)
  subst hopt'
  obtain ⟨z, p', hz, hz', hp'⟩ := nine_prep a b c { exOpt true with method := .robust kw } ⟨rfl, rfl, rfl, rfl, rfl⟩
  have hpp : p = p' := Except.ok.inj (((stagePrep_ok _ _ _ _ _ _ _).2 ⟨_, _, F.prep⟩).symm.trans
    ((stagePrep_ok _ _ _ _ _ _ _).2 ⟨_, _, hp'.prep⟩))
  subst hpp
  obtain ⟨out, ho, hb, hw⟩ := hfit z p hz hz' hp'
  have hsame := Except.ok.inj (F.solved.fit.symm.trans ho)
  simp only [Prod.mk.injEq] at hsame
  obtain ⟨rfl, rfl, rfl⟩ := hsame
  refine ⟨co, out.w, hw, hc, F.copt, F.cweights, ?_⟩
  have e1 : co.mean = full.mean := by rw [F.solved.result]; rfl
  rw [e1, F.solved.head.mean]
  show meanOf p.opt.twodim p.opt.notrend p.ed.lor p.nm out.b = _
  rw [F.prep.hopt, hp'.nm, hb]
  rfl

/-- The record turned by `φ` degrees. -/
theorem nine_turned (φ : ℝ) (a b c : ℂ) : Transformed (fun _ x => cisd φ * x) nineTn (nineSeries a.re b.re c.re)
    (some (nineSeries a.im b.im c.im)) (nineSeries (cisd φ * a).re (cisd φ * b).re (cisd φ * c).re)
    (some (nineSeries (cisd φ * a).im (cisd φ * b).im (cisd φ * c).im)) := by
  intro i τ _
  have key : ∀ a b c : ℂ, sampleValues (nineSeries a.re b.re c.re).data (some (nineSeries a.im b.im c.im).data) =
      (thrice a b c).map some := by
    intro a b c
    simp [sampleValues, nineSeries, thrice, Cell.value?, Fl.toReal?]
  rw [Option.map_some, Option.map_some, key, key]
  rcases i with _ | _ | _ | _ | _ | _ | _ | _ | _ | i <;> simp [thrice]

def nineKw : List (String × PyVal) := [("weight_function", .str "talwar")]

theorem nineKw_args : readRobArgs nineKw robDefaults = .ok nineArgs := by unfold nineKw readRobArgs; rfl

/-- C111 is false: with talwar weights the record `-i, i, 12` has the mean 0; turned by 90 degrees it has the mean
`4i`. -/
theorem C111_false : ¬ C111_full := by
  intro hfull
  obtain ⟨c, w, -, H⟩ := nine_solve nineKw nineArgs nineKw_args _ _ _ 0 (· = thrice 1 1 0) fun z h1 h2 =>
    nine_run1 idealNum idealNum_ok z h1 h2
  obtain ⟨c', w', -, H'⟩ := nine_solve nineKw nineArgs nineKw_args _ _ _ (4 * Complex.I) (· = thrice 1 1 1) fun z h1 h2 =>
    nine_run2 idealNum idealNum_ok z h1 h2
  obtain ⟨-, -, -, -, h5, -⟩ := hfull idealEnv nineT _ _ _ _ (some 45)
    (methodOpts "robust" nineKw) nineKw c c' nineTn 90 (nine_ready _ _ _) (nine_ready _ _ _) (by decide)
    ⟨⟨"robust", by decide, rfl⟩, false, rfl⟩ ⟨by decide, by simp [nineKw]⟩ H.returned H'.returned
    (by rw [H.opt]; exact nine_times) (by
      have := nine_turned 90 (1 * -Complex.I) (1 * Complex.I) (1 * 12)
      rw [cisd_90] at this ⊢
      simpa only [one_mul] using this) (by rw [H.opt]; simp [IsStr, exOpt])
  rw [H.mean, H'.mean] at h5
  simp [rotateMean] at h5

/-! ## A current along a line -/

def lineKw : List (String × PyVal) := [("maxit", .num 1)]

theorem line_run (N : Num) (hN : NumOk N) (ζ : ℂ) (hζ : ζ ≠ 0) (z : ℂ) (h1 : z ≠ conj z) (h2 : z + conj z ≠ 2) :
    ∃ out, robustfit N { robDefaults with maxit := 1 } 3 (nineX z) (thrice 0 ζ (ζ * 3)) = .ok out ∧
      out.b = [0, 0, ζ * (4 / 3)] := by
  set P := robProblem N { robDefaults with maxit := 1 } .bisquare 3 (nineX z) (thrice 0 ζ (ζ * 3)) with hP
  obtain ⟨r0, b0, c0⟩ := nine_fit N hN z h1 h2 1 1 1 one_ne_zero 0 ζ (ζ * 3) (ζ * (4 / 3)) (by push_cast; ring) P rfl rfl rfl
    (.inr le_rfl)
  have hl : thrice (0 - ζ * (4 / 3)) (ζ - ζ * (4 / 3)) (ζ * 3 - ζ * (4 / 3)) =
      (thrice (-4 / 3) (-1 / 3) (5 / 3) : List ℝ).map fun a : ℝ => ζ * (a : ℂ) := by
    simp only [thrice, List.map_cons, List.map_nil]
    push_cast
    congr 1
    · ring
    · congr 1
      · ring
      · congr 1
        · ring
        · congr 1
          · ring
          · congr 1
            · ring
            · congr 1
              · ring
              · congr 1
                · ring
                · congr 1
                  · ring
                  · congr 1
                    ring
  have hσ : sigmaHat (residual P (passFit N P 0).b) ≠ 0 := by
    show sigmaHat (residual P (weightedFit N P (thrice 1 1 1)).b) ≠ 0
    rw [r0, hl, sigma_line]
    refine mul_ne_zero (norm_ne_zero_iff.2 hζ) ?_
    have hc : cmedian ((thrice (-4 / 3) (-1 / 3) (5 / 3) : List ℝ).map Complex.ofReal) = ((-1 / 3 : ℝ) : ℂ) := by
      rw [show (thrice (-4 / 3) (-1 / 3) (5 / 3) : List ℝ).map Complex.ofReal =
        thrice (((-4 / 3 : ℝ)) : ℂ) ((-1 / 3 : ℝ) : ℂ) ((5 / 3 : ℝ) : ℂ) from rfl,
        cmedian_eq _ _ (thrice_perm1 _ _ _) (blocks_sorted lexLE lexLE_refl _ _ _ (.inl ?_) (.inl ?_) (.inl ?_))]
      · simp [midOf]
      all_goals simp only [Complex.ofReal_re]; norm_num
    unfold sigmaHat
    rw [hc, List.map_map]
    have : ((fun z => ‖z - ((-1 / 3 : ℝ) : ℂ)‖) ∘ Complex.ofReal) = fun a : ℝ => |a - -1 / 3| := by
      funext a
      simp only [Function.comp_apply]
      rw [← Complex.ofReal_sub, Complex.norm_real, Real.norm_eq_abs]
    rw [this, show (thrice (-4 / 3) (-1 / 3) (5 / 3) : List ℝ).map (fun a : ℝ => |a - -1 / 3|) = thrice 1 0 2 by
      simp only [thrice, List.map_cons, List.map_nil]; norm_num,
      median_eq _ _ (thrice_perm3 _ _ _) (blocks_sorted (· ≤ ·) le_refl _ _ _ (by norm_num) (by norm_num) (by norm_num))]
    simp [middle]
    norm_num
  have p0 : Passed N P 0 := by
    refine ⟨?_, ⟨fun h => hσ h.2, fun h => by cases h⟩, by omega⟩
    show (weightedFit N P (thrice 1 1 1)).resid.isSome
    rw [c0]; rfl
  have st0 := (robStep_none N P _).2 ⟨p0, rfl⟩
  refine ⟨_, robustfit_returns N _ 3 (nineX z) (thrice 0 ζ (ζ * 3)) .bisquare
    ⟨passFit N P 0, passW N P 1, residual P (passFit N P 0).b, 1⟩ rfl (.inr ⟨?_, ?_⟩) (by
      show robLoop N P 1 1 0 (passW N P 0) none = _
      rw [robLoop, st0]
      rfl), b0⟩
  · norm_num [robDefaults, WFun.tune]
  · rw [nine_leverage N hN z h1 h2]
    intro l hl
    simp [thrice] at hl
    rw [hl]; norm_num

/-- Non-vacuity of `C111_partial`: the record 0, 1, 3 (three times) and the same turned by any angle. -/
example (φ : ℝ) : ∃ c c' mean, solve idealEnv nineT (nineSeries 0 1 3) (some (nineSeries 0 0 0)) (some 45)
      (methodOpts "robust" lineKw) = .ok c ∧
    solve idealEnv nineT (nineSeries 0 (cisd φ).re (cisd φ * 3).re) (some (nineSeries 0 (cisd φ).im (cisd φ * 3).im))
      (some 45) (methodOpts "robust" lineKw) = .ok c' ∧ c.mean = .two mean 0 none ∧ mean ≠ 0 ∧ TurnedResult φ c c' := by
  have hargs : readRobArgs lineKw robDefaults = .ok { robDefaults with maxit := 1 } := by
    unfold lineKw readRobArgs; rfl
  have hw : ∀ ζ : ℂ, ζ ≠ 0 → ∃ co w, NineRun lineKw 0 ζ (ζ * 3) (ζ * (4 / 3)) w co := by
    intro ζ hζ
    obtain ⟨co, w, -, H⟩ := nine_solve lineKw _ hargs 0 ζ (ζ * 3) (ζ * (4 / 3)) (fun _ => True) fun z h1 h2 => by
      obtain ⟨out, ho, hb⟩ := line_run idealNum idealNum_ok ζ hζ z h1 h2
      exact ⟨out, ho, hb, trivial⟩
    exact ⟨co, w, H⟩
  obtain ⟨c, w, H⟩ := hw 1 one_ne_zero
  obtain ⟨c', w', H'⟩ := hw (cisd φ) (cisd_ne_zero φ)
  have h1 := H.returned
  have h2 := H'.returned
  have hm := H.mean
  simp only [Complex.zero_re, Complex.zero_im, Complex.one_re, Complex.one_im, one_mul, Complex.re_ofNat,
    Complex.im_ofNat] at h1 h2 hm
  have e1 : (4 / 3 : ℂ).re = 4 / 3 := by norm_num
  have e2 : (4 / 3 : ℂ).im = 0 := by norm_num
  rw [e1, e2] at hm
  refine ⟨c, c', 4 / 3, h1, h2, hm, by norm_num, ?_⟩
  refine C111_partial idealEnv nineT _ _ _ _ (some 45) (methodOpts "robust" lineKw) (nine_ready 0 1 (1 * 3))
    (nine_ready 0 (cisd φ) (cisd φ * 3)) (by decide) lineKw ⟨⟨"robust", by decide, rfl⟩, false, rfl⟩
    ⟨by decide, by simp [lineKw]⟩ c c' H.returned H'.returned nineTn (by rw [H.opt]; exact nine_times) φ ?_
    (by rw [H.opt]; simp [IsStr, exOpt]) (.inr (.inr ⟨by rw [H.opt]; rfl, 0, ?_⟩))
  · have := nine_turned φ 0 1 (1 * 3)
    simpa only [mul_zero, mul_one, one_mul] using this
  · intro s hs
    rw [nine_samples] at hs
    rw [cisd_zero]
    simp only [List.mem_cons, List.not_mem_nil, or_false] at hs
    rcases hs with rfl | rfl | rfl | rfl | rfl | rfl | rfl | rfl | rfl
    all_goals first
      | (refine ⟨0, ?_⟩; simp; done)
      | (refine ⟨1, ?_⟩; simp; done)
      | (refine ⟨3, ?_⟩; simp; done)

end
end UTide.Props
