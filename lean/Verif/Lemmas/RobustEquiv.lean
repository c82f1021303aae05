import Verif.Lemmas.Robust
import Verif.Lemmas.Median

/-!
# `robustfit` on scaled and shifted data
-/

namespace UTide

noncomputable section

open Classical

/-! ## Medians -/

/-- The middle of a sorted list, for real and complex numbers. -/
def midOf {K : Type} [Field K] (l : List K) : K :=
  if l.length % 2 = 1 then l.getD (l.length / 2) 0
  else (l.getD (l.length / 2 - 1) 0 + l.getD (l.length / 2) 0) / 2

theorem midOf_map {K : Type} [Field K] (k : K) (l : List K) : midOf (l.map (k * ·)) = k * midOf l := by
  have key : ∀ i, (l.map (k * ·)).getD i 0 = k * l.getD i 0 := by
    intro i
    by_cases hi : i < l.length
    · rw [List.getD_eq_getElem _ _ (by simpa using hi), List.getD_eq_getElem _ _ hi, List.getElem_map]
    · rw [List.getD_eq_default _ _ (by simp; omega), List.getD_eq_default _ _ (by omega), mul_zero]
  unfold midOf
  rw [List.length_map]
  split
  · exact key _
  · rw [key, key]; ring

theorem midOf_reverse {K : Type} [Field K] (l : List K) : midOf l.reverse = midOf l := by
  have key : ∀ i, i < l.length → l.reverse.getD i 0 = l.getD (l.length - 1 - i) 0 := by
    intro i hi
    rw [List.getD_eq_getElem _ _ (by simpa using hi), List.getD_eq_getElem _ _ (by omega), List.getElem_reverse]
  unfold midOf
  rw [List.length_reverse]
  split
  · rw [key _ (by omega)]; congr 1; omega
  · by_cases h0 : l.length = 0
    · have : l = [] := List.length_eq_zero_iff.1 h0
      subst this; rfl
    · rw [key _ (by omega), key _ (by omega), add_comm]
      congr 3 <;> omega

theorem median_map_mul (k : ℝ) (l : List ℝ) : median (l.map (k * ·)) = k * median l := by
  have hs := sort_pairwise l
  have hp := (List.mergeSort_perm l fun a b => decide (a ≤ b)).symm
  rcases le_total 0 k with hk | hk
  · rw [median_eq (l.map (k * ·)) ((l.mergeSort fun a b => decide (a ≤ b)).map (k * ·)) (hp.map _) (by
      rw [List.pairwise_map]; exact hs.imp fun h => mul_le_mul_of_nonneg_left h hk)]
    exact midOf_map k _
  · rw [median_eq (l.map (k * ·)) ((l.mergeSort fun a b => decide (a ≤ b)).map (k * ·)).reverse
      ((hp.map _).trans (List.reverse_perm _).symm) (by
      rw [List.pairwise_reverse, List.pairwise_map]; exact hs.imp fun h => mul_le_mul_of_nonpos_left h hk)]
    exact (midOf_reverse _).trans (midOf_map k _)

theorem lexLE_trans (a b c : ℂ) (h : lexLE a b) (h' : lexLE b c) : lexLE a c := by
  unfold lexLE at *
  rcases h with h | ⟨h, h2⟩ <;> rcases h' with h' | ⟨h', h2'⟩
  · exact .inl (h.trans h')
  · exact .inl (h' ▸ h)
  · exact .inl (h ▸ h')
  · exact .inr ⟨h.trans h', h2.trans h2'⟩

theorem lexLE_total (a b : ℂ) : lexLE a b ∨ lexLE b a := by
  unfold lexLE
  rcases lt_trichotomy a.re b.re with h | h | h
  · exact .inl (.inl h)
  · rcases le_total a.im b.im with h' | h'
    · exact .inl (.inr ⟨h, h'⟩)
    · exact .inr (.inr ⟨h.symm, h'⟩)
  · exact .inr (.inl h)

theorem lexLE_antisymm (a b : ℂ) (h : lexLE a b) (h' : lexLE b a) : a = b := by
  unfold lexLE at *
  rcases h with h | ⟨h, h2⟩ <;> rcases h' with h' | ⟨h', h2'⟩
  · exact absurd h h'.not_gt
  · rw [h'] at h; exact absurd h (lt_irrefl _)
  · rw [h] at h'; exact absurd h' (lt_irrefl _)
  · exact Complex.ext h (le_antisymm h2 h2')

theorem csort_pairwise (l : List ℂ) : (l.mergeSort fun a b => decide (lexLE a b)).Pairwise lexLE := by
  have := List.pairwise_mergeSort (le := fun a b : ℂ => decide (lexLE a b))
    (by intro a b c h1 h2; simp only [decide_eq_true_eq] at *; exact lexLE_trans a b c h1 h2)
    (by intro a b; simpa using lexLE_total a b) l
  simpa using this

theorem cmedian_eq (l s : List ℂ) (hp : l.Perm s) (hs : s.Pairwise lexLE) : cmedian l = midOf s := by
  have : l.mergeSort (fun a b => decide (lexLE a b)) = s :=
    List.Perm.eq_of_pairwise (le := lexLE) (fun a b _ _ h1 h2 => lexLE_antisymm a b h1 h2) (csort_pairwise l) hs
      ((List.mergeSort_perm _ _).trans hp)
  unfold cmedian
  rw [this]; rfl

theorem lexLE_mul_nonneg (k : ℝ) (hk : 0 ≤ k) (a b : ℂ) (h : lexLE a b) : lexLE ((k : ℂ) * a) ((k : ℂ) * b) := by
  unfold lexLE at *
  simp only [Complex.re_ofReal_mul, Complex.im_ofReal_mul]
  rcases hk.eq_or_lt with rfl | hk
  · right; simp
  · rcases h with h | ⟨h, h2⟩
    · exact .inl (mul_lt_mul_of_pos_left h hk)
    · exact .inr ⟨by rw [h], mul_le_mul_of_nonneg_left h2 hk.le⟩

theorem lexLE_mul_nonpos (k : ℝ) (hk : k ≤ 0) (a b : ℂ) (h : lexLE a b) : lexLE ((k : ℂ) * b) ((k : ℂ) * a) := by
  unfold lexLE at *
  simp only [Complex.re_ofReal_mul, Complex.im_ofReal_mul]
  rcases hk.eq_or_lt with rfl | hk
  · right; simp
  · rcases h with h | ⟨h, h2⟩
    · exact .inl (mul_lt_mul_of_neg_left h hk)
    · exact .inr ⟨by rw [h], mul_le_mul_of_nonpos_left h2 hk.le⟩

theorem cmedian_map_mul (k : ℝ) (l : List ℂ) : cmedian (l.map ((k : ℂ) * ·)) = (k : ℂ) * cmedian l := by
  have hs := csort_pairwise l
  have hp := (List.mergeSort_perm l fun a b => decide (lexLE a b)).symm
  rcases le_total 0 k with hk | hk
  · rw [cmedian_eq (l.map ((k : ℂ) * ·)) ((l.mergeSort fun a b => decide (lexLE a b)).map ((k : ℂ) * ·)) (hp.map _) (by
      rw [List.pairwise_map]; exact hs.imp fun h => lexLE_mul_nonneg k hk _ _ h)]
    exact midOf_map _ _
  · rw [cmedian_eq (l.map ((k : ℂ) * ·)) ((l.mergeSort fun a b => decide (lexLE a b)).map ((k : ℂ) * ·)).reverse
      ((hp.map _).trans (List.reverse_perm _).symm) (by
      rw [List.pairwise_reverse, List.pairwise_map]; exact hs.imp fun h => lexLE_mul_nonpos k hk _ _ h)]
    exact (midOf_reverse _).trans (midOf_map _ _)

theorem sigmaHat_map_mul (k : ℝ) (l : List ℂ) : sigmaHat (l.map ((k : ℂ) * ·)) = |k| * sigmaHat l := by
  unfold sigmaHat
  rw [cmedian_map_mul, List.map_map]
  have : (fun z => ‖z - (k : ℂ) * cmedian l‖) ∘ ((k : ℂ) * ·) = (|k| * ·) ∘ fun z : ℂ => ‖z - cmedian l‖ := by
    funext z
    simp only [Function.comp_apply]
    rw [← mul_sub, norm_mul, Complex.norm_real, Real.norm_eq_abs]
  rw [this, ← List.map_map, median_map_mul, mul_div_assoc]

/-- Multiplying the residuals by `k` multiplies their spread by `‖k‖`, as far as the weights are concerned. -/
def Spread (f : WFun) (k : ℂ) (R : List ℂ) : Prop := f = .ols ∨ sigmaHat (R.map (k * ·)) = ‖k‖ * sigmaHat R

theorem spread_real (f : WFun) (k : ℝ) (R : List ℂ) : Spread f k R := by
  right
  rw [sigmaHat_map_mul, Complex.norm_real, Real.norm_eq_abs]

theorem rNormed_map (k : ℂ) (hk : k ≠ 0) (f : WFun) (R : List ℂ) (rfac : List ℝ) (hs : Spread f k R) :
    (rNormed (R.map (k * ·)) rfac).map f.weight = (rNormed R rfac).map f.weight := by
  rcases hs with rfl | hs
  · have : ∀ l : List ℂ, l.map WFun.ols.weight = List.replicate l.length 1 := by
      intro l; exact List.map_const' ..
    rw [this, this]
    simp [rNormed]
  · unfold rNormed
    rw [hs, List.map_zipWith, List.map_zipWith, List.zipWith_map_right]
    congr 1
    funext a r
    refine f.weight_norm _ _ ?_
    simp only [norm_div, norm_mul, Complex.norm_real, Real.norm_eq_abs, abs_norm]
    have : ‖k‖ ≠ 0 := norm_ne_zero_iff.2 hk
    rw [show |a| * (‖k‖ * ‖r‖) = ‖k‖ * (|a| * ‖r‖) by ring, mul_div_mul_left _ _ this]

theorem improvement_scale (q : ℝ) (hq : 0 < q) (a b : ℝ) : improvement (q * a) (q * b) = improvement a b := by
  unfold improvement Fl.div
  have h0 : q * a = 0 ↔ a = 0 := by simp [hq.ne']
  rw [← mul_sub]
  have h1 : q * (a - b) = 0 ↔ a - b = 0 := by simp [hq.ne']
  have h2 : 0 < q * (a - b) ↔ 0 < a - b := mul_pos_iff_of_pos_left hq
  simp only [h0, h1, h2]
  split
  · rfl
  · rw [mul_div_mul_left _ _ hq.ne']

/-! ## One weighted fit -/

/-- `y + X d` -/
def shiftBy (X : List (List ℂ)) (d y : List ℂ) : List ℂ := List.zipWith (fun r x => x + dot r d) X y

theorem shiftBy_eq (X : List (List ℂ)) (d y : List ℂ) : shiftBy X d y = vadd y (X.map fun r => dot r d) := by
  unfold shiftBy vadd
  rw [List.zipWith_map_right, List.zipWith_comm]

theorem dot_scaled_row (c : ℂ) (r m : List ℂ) : dot (r.map fun x => c * x) m = c * dot r m := by
  induction r generalizing m with
  | nil => simp
  | cons x r ih => cases m with
    | nil => simp
    | cons y m => simp only [List.map_cons, dot_cons, ih]; ring

theorem weighted_shift (w : List ℝ) (X : List (List ℂ)) (k : ℂ) (d y : List ℂ) :
    List.zipWith (fun (wi : ℝ) yi => (wi : ℂ) * yi) w (shiftBy X d (vscale k y)) =
      shiftBy (List.zipWith (fun (wi : ℝ) r => r.map fun x => (wi : ℂ) * x) w X) d
        (vscale k (List.zipWith (fun (wi : ℝ) yi => (wi : ℂ) * yi) w y)) := by
  unfold shiftBy vscale
  induction w generalizing X y with
  | nil => simp
  | cons wi w ih =>
    cases X with
    | nil => simp
    | cons r X =>
      cases y with
      | nil => simp
      | cons yi y =>
        simp only [List.map_cons, List.zipWith_cons_cons, dot_scaled_row]
        rw [ih X y]
        congr 1
        ring

theorem lstsq_equiv {lstsq : Option ℚ → ℕ → List (List ℂ) → List ℂ → Lstsq} (hl : LstsqOk lstsq) (rc : Option ℚ)
    (hrc : exactRcond rc) (ncol : ℕ) (A : List (List ℂ)) (b d : List ℂ) (k : ℂ) (hk : k ≠ 0)
    (hA : ∀ r ∈ A, r.length = ncol) (hb : A.length = b.length) (hd : d.length = ncol) :
    ((lstsq rc ncol A b).resid = none ∧ (lstsq rc ncol A (shiftBy A d (vscale k b))).resid = none) ∨
    ∃ s, (lstsq rc ncol A b).resid = some s ∧
      (lstsq rc ncol A (shiftBy A d (vscale k b))).resid = some (‖k‖ ^ 2 * s) ∧
      (lstsq rc ncol A (shiftBy A d (vscale k b))).b = vadd (vscale k (lstsq rc ncol A b).b) d := by
  have hb' : A.length = (shiftBy A d (vscale k b)).length := by simp [shiftBy, hb]
  obtain ⟨l1, h1⟩ := hl rc ncol A b hA hb
  obtain ⟨l2, h2⟩ := hl rc ncol A _ hA hb'
  obtain ⟨m1, r1, i1⟩ := h1 hrc
  obtain ⟨m2, r2, i2⟩ := h2 hrc
  cases hr : (lstsq rc ncol A b).resid with
  | none =>
    left
    refine ⟨rfl, ?_⟩
    have : ¬ (lstsq rc ncol A b).resid.isSome := by rw [hr]; simp
    rw [i1, ← i2] at this
    simpa using this
  | some s =>
    right
    have hi : IndepColumns ncol A ∧ ncol < A.length := i1.1 (by rw [hr]; rfl)
    have hs := r1 s hr
    obtain ⟨s', hs'⟩ := Option.isSome_iff_exists.1 (i2.2 hi)
    have hl' : (vscale k (lstsq rc ncol A b).b).length = d.length := by simp [l1, hd]
    have key : ∀ z : List ℂ, z.length = ncol →
        cost A (shiftBy A d (vscale k b)) (vadd (vscale k z) d) = ‖k‖ ^ 2 * cost A b z := by
      intro z hz
      rw [shiftBy_eq, cost_shift _ _ _ _ (by simp [hz, hd]) (by simp [hb]), cost_scale]
    have hbb : (lstsq rc ncol A (shiftBy A d (vscale k b))).b = vadd (vscale k (lstsq rc ncol A b).b) d := by
      refine optimal_unique ncol A _ _ _ hb' hi.1 l2 (by simp [l1, hd]) m2.optimal ?_
      intro x hx
      have hx' : x = vadd (vscale k (vscale k⁻¹ (vadd x (vscale (-1) d)))) d := by
        rw [vscale_vscale, mul_inv_cancel₀ hk, vscale_one]
        unfold vadd vscale
        apply List.ext_getElem
        · simp [hx, hd]
        · intro i h1 h2; simp
      rw [hx', key _ l1, key _ (by simp [hx, hd])]
      exact mul_le_mul_of_nonneg_left (m1.optimal _ (by simp [hx, hd])) (by positivity)
    refine ⟨s, rfl, ?_, hbb⟩
    rw [hs', r2 s' hs', hbb, key _ l1, hs]

/-! ## The loop -/

variable (N : Num) (p : RobProblem) (k : ℂ) (d : List ℂ)

/-- The problem with data `k y + X d`. -/
def RobProblem.moved : RobProblem := { p with y := shiftBy p.X d (vscale k p.y) }

theorem residual_moved (hy : p.X.length = p.y.length) (b : List ℂ) (hb : b.length = d.length) :
    residual (p.moved k d) (vadd (vscale k b) d) = (residual p b).map (k * ·) := by
  unfold residual RobProblem.moved shiftBy vscale
  dsimp only
  generalize p.X = X at *
  generalize p.y = y at *
  induction X generalizing y with
  | nil => simp
  | cons r X ih =>
    cases y with
    | nil => simp
    | cons yi y =>
      simp only [List.map_cons, List.zipWith_cons_cons]
      rw [ih y (by simpa using hy)]
      congr 1
      have := dot_vadd r (vscale k b) d (by simp [hb])
      rw [dot_vscale] at this
      unfold vscale at this
      rw [this]; ring

/-- Corresponding fits. -/
structure FitMoved (f f' : Lstsq) : Prop where
  len : f.b.length = d.length
  b : f'.b = vadd (vscale k f.b) d
  resid : f'.resid = f.resid.map (‖k‖ ^ 2 * ·)

structure OldMoved (o o' : Old) : Prop where
  fit : FitMoved k d o.fit o'.fit
  w : o'.w = o.w
  rmeansq : o'.rmeansq = ‖k‖ ^ 2 * o.rmeansq
  resid : o'.resid = o.resid.map (k * ·)

structure EndMoved (e e' : RobEnd) : Prop where
  fit : FitMoved k d e.fit e'.fit
  w : e'.w = e.w
  resid : e'.resid = e.resid.map (k * ·)
  iterations : e'.iterations = e.iterations

/-- The same error, or related results. -/
def SameOutcome {α β : Type} (r : α → β → Prop) : Except PyErr α → Except PyErr β → Prop
  | .error e, .error e' => e = e'
  | .ok a, .ok b => r a b
  | _, _ => False

def StepMoved : RobStep → RobStep → Prop
  | .stop e, .stop e' => EndMoved k d e e'
  | .next o w, .next o' w' => OldMoved k d o o' ∧ w' = w
  | _, _ => False

variable {N p k d}

theorem weightedFit_moved (hl : LstsqOk N.lstsq) (hrc : exactRcond (some p.rcond)) (hX : ∀ r ∈ p.X, r.length = p.ncol)
    (hy : p.X.length = p.y.length) (hk : k ≠ 0) (hd : d.length = p.ncol) (w : List ℝ) :
    ((weightedFit N p w).resid = none ∧ (weightedFit N (p.moved k d) w).resid = none) ∨
    ((weightedFit N p w).resid.isSome ∧ FitMoved k d (weightedFit N p w) (weightedFit N (p.moved k d) w)) := by
  unfold weightedFit
  have hw := weighted_shift w p.X k d p.y
  have hrows : ∀ r ∈ List.zipWith (fun (wi : ℝ) r => r.map fun x => (wi : ℂ) * x) w p.X, r.length = p.ncol := by
    intro r hr
    obtain ⟨i, hi, rfl⟩ := List.mem_iff_getElem.1 hr
    simp only [List.getElem_zipWith, List.length_map]
    exact hX _ (List.getElem_mem _)
  have hlen : (List.zipWith (fun (wi : ℝ) r => r.map fun x => (wi : ℂ) * x) w p.X).length =
      (List.zipWith (fun (wi : ℝ) yi => (wi : ℂ) * yi) w p.y).length := by simp [hy]
  have := lstsq_equiv hl (some p.rcond) hrc p.ncol _ (List.zipWith (fun (wi : ℝ) yi => (wi : ℂ) * yi) w p.y) d k
    hk hrows hlen hd
  have hb := (hl (some p.rcond) p.ncol _ (List.zipWith (fun (wi : ℝ) yi => (wi : ℂ) * yi) w p.y) hrows hlen).1
  rw [← hw] at this
  show ((N.lstsq (some p.rcond) p.ncol _ _).resid = none ∧ (N.lstsq (some p.rcond) p.ncol _
    (List.zipWith (fun (wi : ℝ) yi => (wi : ℂ) * yi) w (shiftBy p.X d (vscale k p.y)))).resid = none) ∨ (_ ∧ _)
  rcases this with h | ⟨s, h1, h2, h3⟩
  · exact .inl h
  · right
    refine ⟨by rw [h1]; rfl, ?_, h3, ?_⟩
    · rw [hb, hd]
    · rw [h1]
      exact h2

theorem reweight_moved (hy : p.X.length = p.y.length) (hk : k ≠ 0) {f f' : Lstsq} (hf : FitMoved k d f f') (w : List ℝ)
    (ms : ℝ) (hs : Spread p.wf k (residual p f.b)) : SameOutcome (StepMoved k d) (reweight p f w ms) (reweight (p.moved k d) f' w (‖k‖ ^ 2 * ms)) := by
  unfold reweight
  dsimp only
  rw [hf.b, residual_moved p k d hy _ hf.len]
  have h0 : (p.wf ≠ .ols ∧ sigmaHat ((residual p f.b).map (k * ·)) = 0) ↔
      (p.wf ≠ .ols ∧ sigmaHat (residual p f.b) = 0) := by
    rcases hs with h | h
    · simp [h]
    · rw [h]; simp [hk]
  have hwf : (p.moved k d).wf = p.wf := rfl
  have hrf : (p.moved k d).rfac = p.rfac := rfl
  rw [hwf, hrf]
  simp only [h0]
  split
  · rfl
  · unfold WFun.apply
    have hlen : (rNormed ((residual p f.b).map (k * ·)) p.rfac).length =
        (rNormed (residual p f.b) p.rfac).length := by simp [rNormed]
    rw [hlen, rNormed_map k hk _ _ _ hs]
    split
    · split <;> rfl
    · exact ⟨⟨hf, rfl, rfl, rfl⟩, rfl⟩

variable (N p k) in
/-- `Spread` for the residuals of every weighted fit. -/
def Spreads : Prop :=
  ∀ w, (weightedFit N p w).resid.isSome → Spread p.wf k (residual p (weightedFit N p w).b)

theorem robStep_moved (hl : LstsqOk N.lstsq) (hrc : exactRcond (some p.rcond)) (hX : ∀ r ∈ p.X, r.length = p.ncol)
    (hy : p.X.length = p.y.length) (hk : k ≠ 0) (hd : d.length = p.ncol) (i : ℕ) (w : List ℝ) (o o' : Option Old)
    (ho : Option.Rel (OldMoved k d) o o') (hsp : Spreads N p k) :
    SameOutcome (StepMoved k d) (robStep N p i w o) (robStep N (p.moved k d) i w o') := by
  unfold robStep
  dsimp only
  rcases weightedFit_moved hl hrc hX hy hk hd w with ⟨h1, h2⟩ | ⟨h1, hf⟩
  · rw [h1, h2]; rfl
  · obtain ⟨s, hs⟩ := Option.isSome_iff_exists.1 h1
    have hs' : (weightedFit N (p.moved k d) w).resid = some (‖k‖ ^ 2 * s) := by rw [hf.resid, hs]; rfl
    rw [hs, hs']
    dsimp only
    rw [mul_div_assoc]
    cases ho with
    | none => exact reweight_moved hy hk hf w _ (hsp w h1)
    | some ho =>
      rename_i a b
      dsimp only
      have hq : 0 < ‖k‖ ^ 2 := by have := norm_pos_iff.2 hk; positivity
      rw [ho.rmeansq, improvement_scale _ hq]
      have ht : (p.moved k d).tol = p.tol := rfl
      rw [ht]
      split
      · exact ⟨ho.fit, ho.w, ho.resid, rfl⟩
      · split
        · exact ⟨hf, rfl, ho.resid, rfl⟩
        · exact reweight_moved hy hk hf w _ (hsp w h1)

theorem robLoop_moved (hl : LstsqOk N.lstsq) (hrc : exactRcond (some p.rcond)) (hX : ∀ r ∈ p.X, r.length = p.ncol)
    (hy : p.X.length = p.y.length) (hk : k ≠ 0) (hd : d.length = p.ncol) (maxit n i : ℕ) (w : List ℝ)
    (o o' : Option Old) (ho : Option.Rel (OldMoved k d) o o') (hsp : Spreads N p k) :
    SameOutcome (EndMoved k d) (robLoop N p maxit n i w o) (robLoop N (p.moved k d) maxit n i w o') := by
  induction n generalizing i w o o' with
  | zero =>
    cases ho with
    | none => rfl
    | some ho => exact ⟨ho.fit, rfl, ho.resid, rfl⟩
  | succ n ih =>
    unfold robLoop
    have h := robStep_moved hl hrc hX hy hk hd i w o o' ho hsp
    cases h1 : robStep N p i w o with
    | error e =>
      cases h2 : robStep N (p.moved k d) i w o' with
      | error e' => rw [h1, h2] at h; exact h
      | ok s' => rw [h1, h2] at h; exact h.elim
    | ok s =>
      cases h2 : robStep N (p.moved k d) i w o' with
      | error e' => rw [h1, h2] at h; exact h.elim
      | ok s' =>
        rw [h1, h2] at h
        cases s with
        | stop e =>
          cases s' with
          | stop e' => exact h
          | next o' w' => exact h.elim
        | next q w =>
          cases s' with
          | stop e' => exact h.elim
          | next q' w' =>
            obtain ⟨hq, rfl⟩ := h
            exact ih _ _ _ _ (.some hq)

/-- Related results of `robustfit`. -/
structure OutMoved (k : ℂ) (d : List ℂ) (o o' : RobOut) : Prop where
  len : o.b.length = d.length
  b : o'.b = vadd (vscale k o.b) d
  w : o'.w = o.w
  iterations : o'.iterations = o.iterations
  rms : o'.rmsResid = ‖k‖ * o.rmsResid
  leverage : o'.leverage = o.leverage
  olsB : o'.olsB = vadd (vscale k o.olsB) d
  olsRms : o'.olsRmsResid = ‖k‖ * o.olsRmsResid

theorem sqrt_sq_mul (k : ℂ) (x : ℝ) : Real.sqrt (‖k‖ ^ 2 * x) = ‖k‖ * Real.sqrt x := by
  rw [Real.sqrt_mul (sq_nonneg _), Real.sqrt_sq (norm_nonneg k)]

theorem robustfit_moved (hl : LstsqOk N.lstsq) (a : RobArgs) (hrc : exactRcond (some a.rcond)) (ncol : ℕ)
    (X : List (List ℂ)) (y : List ℂ) (hX : ∀ r ∈ X, r.length = ncol) (hy : X.length = y.length) (hk : k ≠ 0)
    (hd : d.length = ncol)
    (hsp : ∀ wf, WFun.ofName a.wfName = .ok wf → Spreads N (robProblem N a wf ncol X y) k) :
    SameOutcome (OutMoved k d) (robustfit N a ncol X y) (robustfit N a ncol X (shiftBy X d (vscale k y))) := by
  unfold robustfit
  cases hw : WFun.ofName a.wfName with
  | error e => rfl
  | ok wf =>
    simp only [ok_bind]
    unfold raiseIf
    split
    · rfl
    · simp only [ok_bind]
      have hones : (shiftBy X d (vscale k y)).map (fun _ => (1 : ℝ)) = y.map fun _ => 1 := by
        rw [List.map_const', List.map_const']; simp [shiftBy, hy]
      rw [hones]
      have h := robLoop_moved (N := N) (p := robProblem N a wf ncol X y) (k := k) (d := d) hl hrc hX hy hk hd a.maxit
        a.maxit 0 (y.map fun _ => 1) none none .none (hsp wf hw)
      have hs := robLoop_spec N (robProblem N a wf ncol X y) a.maxit
      change SameOutcome _ (robLoop N (robProblem N a wf ncol X y) a.maxit a.maxit 0 (y.map fun _ => 1) none >>= _)
        (robLoop N ((robProblem N a wf ncol X y).moved k d) a.maxit a.maxit 0 (y.map fun _ => 1) none >>= _)
      cases h1 : robLoop N (robProblem N a wf ncol X y) a.maxit a.maxit 0 (y.map fun _ => 1) none with
      | error e =>
        cases h2 : robLoop N ((robProblem N a wf ncol X y).moved k d) a.maxit a.maxit 0 (y.map fun _ => 1) none with
        | error e' => rw [h1, h2] at h; exact h
        | ok s' => rw [h1, h2] at h; exact h.elim
      | ok e =>
        cases h2 : robLoop N ((robProblem N a wf ncol X y).moved k d) a.maxit a.maxit 0 (y.map fun _ => 1) none with
        | error e' => rw [h1, h2] at h; exact h.elim
        | ok e' =>
          rw [h1, h2] at h
          obtain ⟨n, -, -, -, h3, h4, h5⟩ := hs e h1
          have h0 : (passFit N (robProblem N a wf ncol X y) 0).resid.isSome := by
            cases n with
            | zero => exact h3
            | succ n => exact (h4 0 (by omega)).1
          have hfit : FitMoved k d (passFit N (robProblem N a wf ncol X y) 0)
              (weightedFit N ((robProblem N a wf ncol X y).moved k d) (y.map fun _ => 1)) := by
            rcases weightedFit_moved (N := N) (p := robProblem N a wf ncol X y) (k := k) (d := d) hl hrc hX hy hk hd
              (y.map fun _ => 1) with ⟨g, -⟩ | ⟨-, g⟩
            · rw [show passFit N (robProblem N a wf ncol X y) 0 = weightedFit N (robProblem N a wf ncol X y)
                (y.map fun _ => 1) from rfl, g] at h0
              simp at h0
            · exact g
          refine ⟨h.fit.len, h.fit.b, h.w, h.iterations, ?_, rfl, hfit.b, ?_⟩
          · show Real.sqrt ((e'.resid.map fun r => ‖r‖ ^ 2).sum / e'.resid.length) = _
            rw [h.resid, List.map_map, List.length_map]
            have : (fun r : ℂ => ‖r‖ ^ 2) ∘ (k * ·) = fun r => ‖k‖ ^ 2 * ‖r‖ ^ 2 := by
              funext r
              simp only [Function.comp_apply, norm_mul, mul_pow]
            rw [this, List.sum_map_mul_left, mul_div_assoc, sqrt_sq_mul]
          · show Real.sqrt ((weightedFit N ((robProblem N a wf ncol X y).moved k d) (y.map fun _ => 1)).resid.getD 0 /
              X.length) = ‖k‖ * Real.sqrt ((passFit N (robProblem N a wf ncol X y) 0).resid.getD 0 / X.length)
            rw [hfit.resid]
            obtain ⟨s, hs⟩ := Option.isSome_iff_exists.1 h0
            rw [hs]
            show Real.sqrt (‖k‖ ^ 2 * s / X.length) = ‖k‖ * Real.sqrt (s / X.length)
            rw [mul_div_assoc, sqrt_sq_mul]

end

end UTide
