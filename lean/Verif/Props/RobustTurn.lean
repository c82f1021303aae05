import Verif.Props.RobustScale
import Verif.Props.WhiteProps

/-!
# Robust fits and the choice of axes: C111
-/

namespace UTide.Props

noncomputable section

open Classical

local notation "conj" => starRingEnd ℂ

/-- All usable samples lie on the line through the origin in direction `ψ` (degrees). -/
def Along (ψ : ℝ) (tn : List Fl) (u w : Series) : Prop :=
  ∀ s ∈ samples tn (sampleValues u.data (some w.data)), ∃ x : ℝ, s.2 = cisd ψ * x

/-! ## Residuals on a line -/

theorem lexLE_line (z : ℂ) (hz : 0 < z.re ∨ (z.re = 0 ∧ 0 ≤ z.im)) (a b : ℝ) (h : a ≤ b) :
    lexLE (z * a) (z * b) := by
  unfold lexLE
  simp only [Complex.re_mul_ofReal, Complex.im_mul_ofReal]
  rcases hz with hz | ⟨hz, hi⟩
  · rcases h.eq_or_lt with rfl | h
    · exact .inr ⟨rfl, le_rfl⟩
    · exact .inl (mul_lt_mul_of_pos_left h hz)
  · right
    rw [hz]
    exact ⟨by simp, mul_le_mul_of_nonneg_left h hi⟩

theorem cmedian_line_pos (z : ℂ) (hz : 0 < z.re ∨ (z.re = 0 ∧ 0 ≤ z.im)) (l : List ℝ) :
    cmedian (l.map fun a : ℝ => z * (a : ℂ)) = z * (midOf ((l.mergeSort fun a b => decide (a ≤ b)).map Complex.ofReal)) := by
  have hs : (l.mergeSort fun a b => decide (a ≤ b)).Pairwise (· ≤ ·) := by
    have := List.pairwise_mergeSort (le := fun a b : ℝ => decide (a ≤ b))
      (by intro a b c h1 h2; simp only [decide_eq_true_eq] at *; exact h1.trans h2)
      (by intro a b; simpa using le_total a b) l
    simpa using this
  have hp := (List.mergeSort_perm l fun a b => decide (a ≤ b)).symm
  rw [cmedian_eq _ ((l.mergeSort fun a b => decide (a ≤ b)).map fun a : ℝ => z * (a : ℂ)) (hp.map _) (by
    rw [List.pairwise_map]; exact hs.imp fun h => lexLE_line z hz _ _ h)]
  rw [← midOf_map, List.map_map]
  rfl

theorem sigma_line_pos (z : ℂ) (hz : 0 < z.re ∨ (z.re = 0 ∧ 0 ≤ z.im)) (l : List ℝ) :
    sigmaHat (l.map fun a : ℝ => z * (a : ℂ)) = ‖z‖ * sigmaHat (l.map Complex.ofReal) := by
  have h1 := cmedian_line_pos 1 (.inl (by simp)) l
  have h0 : (fun a : ℝ => (1 : ℂ) * (a : ℂ)) = Complex.ofReal := by funext a; simp
  rw [h0, one_mul] at h1
  have h1' : cmedian (l.map Complex.ofReal) = midOf ((l.mergeSort fun a b => decide (a ≤ b)).map Complex.ofReal) := h1
  unfold sigmaHat
  rw [cmedian_line_pos z hz, h1', List.map_map, List.map_map]
  generalize midOf ((l.mergeSort fun a b => decide (a ≤ b)).map Complex.ofReal) = q
  have : (fun x : ℂ => ‖x - z * q‖) ∘ (fun a : ℝ => z * (a : ℂ)) =
      (‖z‖ * ·) ∘ ((fun x : ℂ => ‖x - q‖) ∘ Complex.ofReal) := by
    funext a
    simp only [Function.comp_apply]
    rw [← mul_sub, norm_mul]
  rw [this, ← List.map_map, median_map_mul, mul_div_assoc]

theorem sigma_line (z : ℂ) (l : List ℝ) :
    sigmaHat (l.map fun a : ℝ => z * (a : ℂ)) = ‖z‖ * sigmaHat (l.map Complex.ofReal) := by
  by_cases hz : 0 < z.re ∨ (z.re = 0 ∧ 0 ≤ z.im)
  · exact sigma_line_pos z hz l
  · have hz' : 0 < (-z).re ∨ ((-z).re = 0 ∧ 0 ≤ (-z).im) := by
      push Not at hz
      simp only [Complex.neg_re, Complex.neg_im]
      rcases hz.1.eq_or_lt with h | h
      · exact .inr ⟨by linarith, by linarith [hz.2 h]⟩
      · exact .inl (by linarith)
    have h := sigmaHat_map_mul (-1) (l.map fun a : ℝ => -z * (a : ℂ))
    rw [sigma_line_pos _ hz', List.map_map] at h
    have e : ((((-1 : ℝ) : ℂ) * ·) ∘ fun a : ℝ => -z * (a : ℂ)) = fun a : ℝ => z * (a : ℂ) := by
      funext a; simp
    rw [e, norm_neg] at h
    rw [h]; simp

/-- For every curve there is the curve of the conjugate values. -/
def ConjClosed (ncol : ℕ) (X : List (List ℂ)) : Prop :=
  ∀ m : List ℂ, m.length = ncol → ∃ m' : List ℂ, m'.length = ncol ∧ ∀ r ∈ X, dot r m' = conj (dot r m)

theorem line_residual (N : Num) (hl : LstsqOk N.lstsq) (p : RobProblem) (hrc : exactRcond (some p.rcond))
    (hX : ∀ r ∈ p.X, r.length = p.ncol) (hy : p.X.length = p.y.length) (hc : ConjClosed p.ncol p.X) (z : ℂ) (hz : z ≠ 0)
    (hline : ∀ x ∈ p.y, ∃ a : ℝ, x = z * a) (w : List ℝ) (hs : (weightedFit N p w).resid.isSome) :
    ∃ l : List ℝ, residual p (weightedFit N p w).b = l.map fun a : ℝ => z * (a : ℂ) := by
  set A := List.zipWith (fun (wi : ℝ) r => r.map fun x => (wi : ℂ) * x) w p.X with hA
  set B := List.zipWith (fun (wi : ℝ) yi => (wi : ℂ) * yi) w p.y with hB
  have hrows : ∀ r ∈ A, r.length = p.ncol := by
    intro r hr
    obtain ⟨i, hi, rfl⟩ := List.mem_iff_getElem.1 hr
    simp only [hA, List.getElem_zipWith, List.length_map]
    exact hX _ (List.getElem_mem _)
  have hlen : A.length = B.length := by simp [hA, hB, hy]
  have hfit : weightedFit N p w = N.lstsq (some p.rcond) p.ncol A B := rfl
  obtain ⟨hbl, hrest⟩ := hl (some p.rcond) p.ncol A B hrows hlen
  obtain ⟨hmin, -, hind⟩ := hrest hrc
  rw [← hfit] at hbl hmin hind
  have hi := (hind.1 hs).1
  set b := (weightedFit N p w).b with hb
  obtain ⟨b', hb', hbr⟩ := hc b hbl
  have hzc : conj z ≠ 0 := by simpa using hz
  set q := z / conj z with hq
  have hqn : ‖q‖ = 1 := by rw [hq, norm_div, RCLike.norm_conj, div_self (norm_ne_zero_iff.2 hz)]
  have hres : ∀ i (h1 : i < p.X.length) (h2 : i < p.y.length), p.y[i] - dot p.X[i] (vscale q b') =
      q * conj (p.y[i] - dot p.X[i] b) := by
    intro i h1 h2
    obtain ⟨a, ha⟩ := hline p.y[i] (List.getElem_mem _)
    rw [dot_vscale, hbr _ (List.getElem_mem _), map_sub, ha, map_mul, Complex.conj_ofReal, mul_sub, hq]
    field_simp
  have hcost : cost A B (vscale q b') = cost A B b := by
    unfold cost
    congr 1
    apply List.ext_getElem
    · simp
    · intro i h1 h2
      simp only [List.length_zipWith] at h1
      have i1 : i < p.X.length := by simp [hA] at h1; omega
      have i2 : i < p.y.length := by omega
      simp only [List.getElem_zipWith, hA, hB, dot_scaled_row]
      rw [← mul_sub, ← mul_sub, hres i i1 i2, norm_mul, norm_mul, norm_mul, hqn, RCLike.norm_conj, one_mul]
  have heq : vscale q b' = b := optimal_unique p.ncol A B _ _ hlen hi (by simp [hb']) hbl
    (fun x hx => by rw [hcost]; exact hmin.optimal x hx) hmin.optimal
  have hall : ∀ e ∈ residual p b, ∃ a : ℝ, e = z * a := by
    intro e he
    obtain ⟨i, hi, rfl⟩ := List.mem_iff_getElem.1 he
    simp only [residual, List.length_zipWith] at hi
    simp only [residual, List.getElem_zipWith]
    have h := hres i (by omega) (by omega)
    rw [heq] at h
    generalize p.y[i]'(by omega) - dot (p.X[i]'(by omega)) b = e at h ⊢
    refine ⟨(e / z).re, ?_⟩
    have hreal : conj (e / z) = e / z := by
      rw [map_div₀, div_eq_div_iff hzc hz]
      rw [hq] at h
      field_simp at h
      linear_combination -h
    rw [Complex.conj_eq_iff_re.1 hreal]
    field_simp
  clear_value b
  generalize residual p b = L at *
  clear heq hcost hres hmin hind
  induction L with
  | nil => exact ⟨[], rfl⟩
  | cons e L ih =>
    obtain ⟨a, ha⟩ := hall e (by simp)
    obtain ⟨l, hl⟩ := ih fun e he => hall e (by simp [he])
    exact ⟨a :: l, by rw [List.map_cons, ← hl, ha]⟩

theorem line_spreads (N : Num) (hl : LstsqOk N.lstsq) (p : RobProblem) (hrc : exactRcond (some p.rcond))
    (hX : ∀ r ∈ p.X, r.length = p.ncol) (hy : p.X.length = p.y.length) (hc : ConjClosed p.ncol p.X) (z : ℂ) (hz : z ≠ 0)
    (hline : ∀ x ∈ p.y, ∃ a : ℝ, x = z * a) (k : ℂ) : Spreads N p k := by
  intro w hs
  right
  obtain ⟨l, hl⟩ := line_residual N hl p hrc hX hy hc z hz hline w hs
  rw [hl, sigma_line, List.map_map]
  have : ((k * ·) ∘ fun a : ℝ => z * (a : ℂ)) = fun a : ℝ => k * z * (a : ℂ) := by
    funext a; simp only [Function.comp_apply]; ring
  rw [this, sigma_line, norm_mul, mul_assoc]

theorem paired_closed {ncol : ℕ} {X : List (List ℂ)} (hX : ∀ r ∈ X, r.length = ncol) {σ : Equiv.Perm (Fin ncol)}
    (hP : Paired (designM ncol X) σ) : ConjClosed ncol X := by
  intro m hm
  obtain ⟨f, rfl⟩ : ∃ f : Fin ncol → ℂ, m = List.ofFn f := by
    subst hm
    exact ⟨m.get, (List.ofFn_get m).symm⟩
  refine ⟨List.ofFn fun i => conj (f (σ i)), by simp, ?_⟩
  intro r hr
  obtain ⟨j, hj, rfl⟩ := List.mem_iff_getElem.1 hr
  have key : ∀ g : Fin ncol → ℂ, dot X[j] (List.ofFn g) = (designM ncol X).mulVec g ⟨j, hj⟩ := fun g =>
    (designM_mulVec ncol X hX g ⟨j, hj⟩).symm
  rw [key, key]
  unfold Matrix.mulVec dotProduct
  rw [map_sum, ← Equiv.sum_comp σ fun i => conj (designM ncol X ⟨j, hj⟩ i * f i)]
  refine Finset.sum_congr rfl fun i _ => ?_
  rw [map_mul, hP.pair, hP.inv]

/-! ## The claim -/

/-- What turning the axes by `φ` degrees should do to a result. -/
def TurnedResult (φ : ℝ) (c c' : Coef) : Prop :=
  c'.name = c.name ∧ c'.frq = c.frq ∧ c'.lind = c.lind ∧ c'.PE = c.PE ∧ c'.mean = rotateMean φ c.mean ∧
  (∀ i e, ellipseAt c.ell i = some e → ∃ e', ellipseAt c'.ell i = some e' ∧ Turned φ e e') ∧ c'.weights = c.weights

/-- C111 in full: a robust analysis of a current does not depend on the axes. (Not true: `C111_false`.) -/
def C111_full : Prop :=
  ∀ (E : Env) (t : TimeArg) (u w u' w' : Series) (lat : Option ℝ) (opts : Dict PyVal) (kw : List (String × PyVal))
    (c c' : Coef) (tn : List Fl) (φ : ℝ),
    Ready E t u (some w) → Ready E t u' (some w') → opts.keys.Nodup → AsksRobust opts kw → Harmless kw →
    solve E t u (some w) lat opts = .ok c → solve E t u' (some w') lat opts = .ok c' →
    normalizeTime E.dt64 t.arr c.opt.epoch = .ok tn →
    Transformed (fun _ x => cisd φ * x) tn u (some w) u' (some w') → ¬ IsStr c.opt.ordercnstit "SNR" →
    TurnedResult φ c c'

/-- C111 as far as it is true: for half turns, for the weight function `ols`, and (without inference) for currents along
a line. -/
theorem C111_partial (E : Env) (t : TimeArg) (u w u' w' : Series) (lat : Option ℝ) (opts : Dict PyVal)
    (R : Ready E t u (some w)) (R' : Ready E t u' (some w')) (hnd : opts.keys.Nodup)
    (kw : List (String × PyVal)) (hr : AsksRobust opts kw) (hh : Harmless kw)
    (c c' : Coef) (h : solve E t u (some w) lat opts = .ok c) (h' : solve E t u' (some w') lat opts = .ok c')
    (tn : List Fl) (htn : normalizeTime E.dt64 t.arr c.opt.epoch = .ok tn)
    (φ : ℝ) (hu : Transformed (fun _ x => cisd φ * x) tn u (some w) u' (some w'))
    (ho : ¬ IsStr c.opt.ordercnstit "SNR")
    (hcase : (∃ n : ℤ, φ = 180 * n) ∨ ("weight_function", PyVal.str "ols") ∈ kw ∨
      (readInfer c.opt.infer = .ok none ∧ ∃ ψ, Along ψ tn u w)) : TurnedResult φ c c' := by
  obtain ⟨opt, p, tn0, constit, m, W, rf, full, o, ind, F⟩ := solve_facts R h
  obtain ⟨opt', p', tn', constit', m', W', rf', full', o', ind', F'⟩ := solve_facts R' h'
  have hc := F.copt
  subst hc
  cases Except.ok.inj (F.prep.init.time.symm.trans htn)
  obtain ⟨rfl, rfl, rfl, hinf, T⟩ := twin' F F' R R' rfl _ hu
  have hrob := F.method_robust hnd hr
  have hdot0 : ∀ (r : List ℂ) (n : ℕ), dot r (List.replicate n 0) = 0 := by
    intro r n
    induction r generalizing n with
    | nil => simp
    | cons x r ih => cases n with
      | zero => simp
      | succ n => rw [List.replicate_succ, dot_cons, ih]; simp
  have hht := F.prep.height R.ht R.hu R.hv
  have hx : xraw p'.ed = shiftBy p.B (List.replicate p.nm 0) (vscale (cisd φ) (xraw p.ed)) := by
    obtain ⟨us, h1, h2, h3⟩ := T.x
    have hB : p.B = us.map fun s => rowAt p s.1 := by
      rw [F.prep.B, h1, List.map_map]
      unfold rowAt
      rw [F.prep.hopt]
      rfl
    rw [h3, h2, hB]
    unfold shiftBy vscale
    rw [List.map_map, zipWith_map_same]
    refine List.map_congr_left fun s hs' => ?_
    simp only [Function.comp, hdot0, add_zero]
  obtain ⟨hmm, hW, -⟩ := robust_coef F F' R hrob hh _ T (cisd φ) (cisd_ne_zero φ) _ (by simp) hx (by
    intro a wf ha hwf
    rcases hcase with ⟨n, rfl⟩ | hols | ⟨hno, ψ, hψ⟩
    · intro w _
      obtain ⟨r, hr⟩ : ∃ r : ℝ, cisd (180 * n) = r := by
        refine ⟨Real.cos (180 * n * Real.pi / 180), ?_⟩
        rw [cisd_eq]
        apply Complex.ext
        · rw [Complex.ofReal_re]
        · rw [Complex.ofReal_im]
          show Real.sin (180 * n * Real.pi / 180) = 0
          rw [show (180 * n * Real.pi / 180 : ℝ) = n * Real.pi by ring]
          exact Real.sin_int_mul_pi n
      rw [hr]
      exact spread_real _ _ _
    · intro w _
      left
      have := (readRobArgs_facts kw hh.nodup _ _ ha).1 _ hols
      rw [this] at hwf
      exact (Except.ok.inj hwf).symm
    · have hin : p.infer = none := Except.ok.inj (F.prep.hinfer.symm.trans hno)
      refine line_spreads E.num R.lstsq _ (hh.args ha) F.prep.rows hht
        (paired_closed F.prep.rows (F.paired hin)) (cisd ψ) (cisd_ne_zero ψ) ?_ _
      intro x hx
      obtain ⟨hl, -, s3⟩ := F.samples R
      change x ∈ xraw p.ed at hx
      rw [s3, usable_samples _ _ _ hl] at hx
      obtain ⟨s, hs, rfl⟩ := List.mem_map.1 hx
      exact hψ s hs)
  have hmm : m' = vscale (cisd φ) m := by
    rw [hmm]
    have hl : (vscale (cisd φ) m).length = p.nm := by simp [F.mlen]
    rw [← hl]
    unfold vadd
    apply List.ext_getElem
    · simp
    · intro i h1 h2; simp
  obtain ⟨r1, r2, r3, r4, r5, r6⟩ := turned_results F F' hnd T φ hmm ho
  exact ⟨r1, r2, r3, r4, r5, r6, by rw [F'.cweights, F.cweights, hW]⟩

end

end UTide.Props
