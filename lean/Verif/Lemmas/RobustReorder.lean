import Verif.Lemmas.RobustEquiv
import Verif.Lemmas.RobustTotal
import Verif.Lemmas.Reorder

/-!
# `robustfit` on re-ordered observations and on other combinations of the columns
-/

namespace UTide

noncomputable section

open Classical

/-- The rows `X'` describe the same curves as the rows `X`, with coefficients `b` in place of `S b`. -/
structure Change (ncol : ℕ) (X X' : List (List ℂ)) (S : List ℂ → List ℂ) : Prop where
  rows : ∀ r ∈ X, r.length = ncol
  rows' : ∀ r ∈ X', r.length = ncol
  height : X'.length = X.length
  slen : ∀ b : List ℂ, b.length = ncol → (S b).length = ncol
  dot : ∀ (i : ℕ) (h : i < X.length) (h' : i < X'.length) (b : List ℂ), b.length = ncol → dot X'[i] b = dot X[i] (S b)
  zero : S (List.replicate ncol 0) = List.replicate ncol 0
  sur : ∀ b : List ℂ, b.length = ncol → ∃ b', b'.length = ncol ∧ S b' = b
  inj : ∀ b b' : List ℂ, b.length = ncol → b'.length = ncol → S b = S b' → b = b'

theorem Change.same {ncol : ℕ} {X : List (List ℂ)} (h : ∀ r ∈ X, r.length = ncol) : Change ncol X X (fun b => b) :=
  ⟨h, h, rfl, fun _ h => h, fun _ _ _ _ _ => rfl, rfl, fun b h => ⟨b, h, rfl⟩, fun _ _ _ _ h => h⟩

/-! ## Medians -/

theorem median_perm {l l' : List ℝ} (h : l'.Perm l) : median l' = median l := by
  rw [median_eq l' _ (h.trans (List.mergeSort_perm l fun a b => decide (a ≤ b)).symm) (sort_pairwise l)]
  rfl

theorem cmedian_perm {l l' : List ℂ} (h : l'.Perm l) : cmedian l' = cmedian l := by
  rw [cmedian_eq l' _ (h.trans (List.mergeSort_perm l fun a b => decide (lexLE a b)).symm) (csort_pairwise l)]
  rfl

theorem sigmaHat_perm {l l' : List ℂ} (h : l'.Perm l) : sigmaHat l' = sigmaHat l := by
  unfold sigmaHat
  rw [cmedian_perm h, median_perm (h.map _)]

/-! ## One weighted fit -/

theorem all_zero_iff {m : List ℂ} {n : ℕ} (h : m.length = n) : (∀ x ∈ m, x = 0) ↔ m = List.replicate n 0 := by
  rw [List.eq_replicate_iff]
  exact ⟨fun h' => ⟨h, h'⟩, fun h' => h'.2⟩

theorem lstsq_change {lstsq : Option ℚ → ℕ → List (List ℂ) → List ℂ → Lstsq} (hl : LstsqOk lstsq) (rc : Option ℚ)
    (hrc : exactRcond rc) (ncol : ℕ) {X X' : List (List ℂ)} {S : List ℂ → List ℂ} (C : Change ncol X X' S) (A A' : List (List ℂ)) (b b' : List ℂ)
    (hA : ∀ r ∈ A, r.length = ncol) (hA' : ∀ r ∈ A', r.length = ncol) (hb : A.length = b.length) (hb' : A'.length = b'.length)
    (hn : A'.length = A.length) (hc : ∀ m : List ℂ, m.length = ncol → cost A' b' m = cost A b (S m))
    (hz : ∀ m : List ℂ, m.length = ncol → ((∀ r ∈ A', dot r m = 0) ↔ ∀ r ∈ A, dot r (S m) = 0)) :
    ((lstsq rc ncol A b).resid = none ∧ (lstsq rc ncol A' b').resid = none) ∨
    ((lstsq rc ncol A b).resid.isSome ∧ (lstsq rc ncol A' b').resid = (lstsq rc ncol A b).resid ∧
      (lstsq rc ncol A' b').b.length = ncol ∧ (lstsq rc ncol A b).b = S (lstsq rc ncol A' b').b) := by
  obtain ⟨l1, h1⟩ := hl rc ncol A b hA hb
  obtain ⟨l2, h2⟩ := hl rc ncol A' b' hA' hb'
  obtain ⟨m1, r1, i1⟩ := h1 hrc
  obtain ⟨m2, r2, i2⟩ := h2 hrc
  have hind : IndepColumns ncol A' ↔ IndepColumns ncol A := by
    constructor
    · intro h m hm h0
      obtain ⟨m', hm', rfl⟩ := C.sur m hm
      have := (all_zero_iff hm').1 (h m' hm' ((hz m' hm').2 h0))
      rw [this]
      rw [C.zero]
      exact fun x hx => List.eq_of_mem_replicate hx
    · intro h m hm h0
      have := (all_zero_iff (C.slen m hm)).1 (h (S m) (C.slen m hm) ((hz m hm).1 h0))
      rw [← C.zero] at this
      exact (all_zero_iff hm).2 (C.inj _ _ hm (by simp) this)
  cases hr : (lstsq rc ncol A b).resid with
  | none =>
    left
    refine ⟨rfl, ?_⟩
    have : ¬ (lstsq rc ncol A b).resid.isSome := by rw [hr]; simp
    rw [i1, ← hind, ← hn, ← i2] at this
    simpa using this
  | some s =>
    right
    have hi : IndepColumns ncol A ∧ ncol < A.length := i1.1 (by rw [hr]; rfl)
    have hs := r1 s hr
    obtain ⟨s', hs'⟩ := Option.isSome_iff_exists.1 (i2.2 ⟨hind.2 hi.1, by rw [hn]; exact hi.2⟩)
    have hbb : (lstsq rc ncol A b).b = S (lstsq rc ncol A' b').b := by
      refine optimal_unique ncol A _ _ _ hb hi.1 l1 (C.slen _ l2) m1.optimal ?_
      intro x hx
      obtain ⟨x', hx', rfl⟩ := C.sur x hx
      rw [← hc _ l2, ← hc _ hx']
      exact m2.optimal _ hx'
    refine ⟨rfl, ?_, l2, hbb⟩
    rw [hs', r2 s' hs', hs, hbb, hc _ l2]

/-! ## The loop -/

variable (N : Num) (p : RobProblem) (X' : List (List ℂ)) (S : List ℂ → List ℂ) (I : List ℕ)

/-- The problem in another order and with other columns. -/
def RobProblem.changed : RobProblem :=
  { p with X := gather X' I, y := gather p.y I, rfac := gather p.rfac I }

/-- What is known of the problem. -/
structure RobProblem.Sound (p : RobProblem) (I : List ℕ) : Prop where
  rows : ∀ r ∈ p.X, r.length = p.ncol
  y : p.X.length = p.y.length
  rfac : p.rfac.length = p.y.length
  perm : I.Perm (List.range p.y.length)

/-- Related fits. -/
structure FitChanged (S : List ℂ → List ℂ) (ncol : ℕ) (f f' : Lstsq) : Prop where
  len : f'.b.length = ncol
  b : f.b = S f'.b
  resid : f'.resid = f.resid

structure OldChanged (n : ℕ) (o o' : Old) : Prop where
  fit : FitChanged S p.ncol o.fit o'.fit
  w : o'.w = gather o.w I
  rmeansq : o'.rmeansq = o.rmeansq
  resid : o'.resid = gather o.resid I
  len : o.resid.length = n

structure EndChanged (n : ℕ) (e e' : RobEnd) : Prop where
  fit : FitChanged S p.ncol e.fit e'.fit
  w : e'.w = gather e.w I
  resid : e'.resid = gather e.resid I
  len : e.resid.length = n
  iterations : e'.iterations = e.iterations

def StepChanged (n : ℕ) : RobStep → RobStep → Prop
  | .stop e, .stop e' => EndChanged p S I n e e'
  | .next o w, .next o' w' => OldChanged p S I n o o' ∧ w' = gather w I ∧ w.length = n
  | _, _ => False

variable {N p X' S I}

theorem RobProblem.Sound.lt (hs : p.Sound I) : ∀ i ∈ I, i < p.y.length := fun i hi =>
  List.mem_range.1 (hs.perm.mem_iff.1 hi)

theorem weighted_rows (w : List ℝ) (X : List (List ℂ)) (ncol : ℕ) (h : ∀ r ∈ X, r.length = ncol) :
    ∀ r ∈ List.zipWith (fun (wi : ℝ) r => r.map fun x => (wi : ℂ) * x) w X, r.length = ncol := by
  intro r hr
  obtain ⟨i, hi, rfl⟩ := List.mem_iff_getElem.1 hr
  simp only [List.getElem_zipWith, List.length_map]
  exact h _ (List.getElem_mem _)

theorem gather_pwise {α β γ : Type} (f : α → β → γ) (l : List α) (l' : List β) (hl : l.length = l'.length) (I : List ℕ) :
    List.zipWith f (gather l I) (gather l' I) = gather (List.zipWith f l l') I :=
  (gather_zipWith f l l' hl I).symm

theorem weightedFit_changed (hl : LstsqOk N.lstsq) (C : Change p.ncol p.X X' S) (hrc : exactRcond (some p.rcond)) (hs : p.Sound I)
    (w : List ℝ) (hw : w.length = p.y.length) :
    ((weightedFit N p w).resid = none ∧ (weightedFit N (p.changed X' I) (gather w I)).resid = none) ∨
    ((weightedFit N p w).resid.isSome ∧
      FitChanged S p.ncol (weightedFit N p w) (weightedFit N (p.changed X' I) (gather w I))) := by
  have hX := hs.y
  have hX1 : X'.length = p.y.length := by rw [C.height, hX]
  have e1 : List.zipWith (fun (wi : ℝ) r => r.map fun x => (wi : ℂ) * x) (gather w I) (gather X' I) =
      gather (List.zipWith (fun (wi : ℝ) r => r.map fun x => (wi : ℂ) * x) w X') I :=
    gather_pwise _ _ _ (by rw [hw, hX1]) _
  have e2 : List.zipWith (fun (wi : ℝ) yi => (wi : ℂ) * yi) (gather w I) (gather p.y I) =
      gather (List.zipWith (fun (wi : ℝ) yi => (wi : ℂ) * yi) w p.y) I :=
    gather_pwise _ _ _ hw _
  have hlt : ∀ {α : Type} (l : List α), l.length = p.y.length → (gather l I).Perm l := fun l h =>
    gather_perm l (by rw [h]; exact hs.perm)
  have key := lstsq_change hl (some p.rcond) hrc p.ncol C
    (List.zipWith (fun (wi : ℝ) r => r.map fun x => (wi : ℂ) * x) w p.X)
    (gather (List.zipWith (fun (wi : ℝ) r => r.map fun x => (wi : ℂ) * x) w X') I)
    (List.zipWith (fun (wi : ℝ) yi => (wi : ℂ) * yi) w p.y)
    (gather (List.zipWith (fun (wi : ℝ) yi => (wi : ℂ) * yi) w p.y) I)
    (weighted_rows w p.X p.ncol C.rows) (fun r hr => weighted_rows w X' p.ncol C.rows' r (gather_mem _ _ _ hr)) (by simp [hX])
    (by rw [(hlt _ (by simp [hw, hX1])).length_eq, (hlt _ (by simp [hw])).length_eq]; simp [hX1])
    (by rw [(hlt _ (by simp [hw, hX1])).length_eq]; simp [hX1, hX])
    (by
      intro m hm
      unfold cost
      rw [gather_pwise _ _ _ (by simp [hX1]) _, (hlt _ (by simp [hw, hX1])).sum_eq]
      congr 1
      apply List.ext_getElem
      · simp [hX1, hX]
      · intro i h1 h2
        simp only [List.getElem_zipWith, dot_scaled_row]
        rw [C.dot i (by simp at h2; omega) (by simp at h1; omega) _ hm])
    (by
      intro m hm
      have hp := hlt (List.zipWith (fun (wi : ℝ) r => r.map fun x => (wi : ℂ) * x) w X') (by simp [hw, hX1])
      constructor
      · intro h r hr
        obtain ⟨i, hi, rfl⟩ := List.mem_iff_getElem.1 hr
        have hi' : i < w.length ∧ i < p.X.length := by simpa using hi
        have := h _ (hp.mem_iff.2 (List.getElem_mem (n := i) (by simp; omega)))
        simp only [List.getElem_zipWith, dot_scaled_row] at this ⊢
        rwa [C.dot i hi'.2 (by omega) _ hm] at this
      · intro h r hr
        obtain ⟨i, hi, rfl⟩ := List.mem_iff_getElem.1 (hp.mem_iff.1 hr)
        have hi' : i < w.length ∧ i < X'.length := by simpa using hi
        have := h _ (List.getElem_mem (n := i) (by simp; omega))
        simp only [List.getElem_zipWith, dot_scaled_row] at this ⊢
        rwa [C.dot i (by omega) hi'.2 _ hm])
  rw [← e1, ← e2] at key
  rcases key with h | ⟨h1, h2, h3, h4⟩
  · exact .inl h
  · exact .inr ⟨h1, h3, h4, h2⟩

theorem residual_changed (C : Change p.ncol p.X X' S) (hs : p.Sound I) (b : List ℂ) (hb : b.length = p.ncol) :
    residual (p.changed X' I) b = gather (residual p (S b)) I := by
  have hX := hs.y
  have hX1 : X'.length = p.y.length := by rw [C.height, hX]
  have : residual (p.changed X' I) b = List.zipWith (fun r yi => yi - dot r b) (gather X' I) (gather p.y I) := rfl
  rw [this, gather_pwise _ _ _ hX1 _]
  congr 1
  unfold residual
  apply List.ext_getElem
  · simp [hX1, hX]
  · intro i h1 h2
    simp only [List.getElem_zipWith]
    rw [C.dot i (by simp at h2; omega) (by simp at h1; omega) _ hb]

theorem residual_len (hs : p.Sound I) (b : List ℂ) : (residual p b).length = p.y.length := by
  simp [residual, hs.y]

theorem reweight_changed (C : Change p.ncol p.X X' S) (hs : p.Sound I) {f f' : Lstsq} (hf : FitChanged S p.ncol f f') (w : List ℝ)
    (ms : ℝ) : SameOutcome (StepChanged p S I p.y.length) (reweight p f w ms) (reweight (p.changed X' I) f' (gather w I) ms) := by
  unfold reweight
  dsimp only
  have hr := residual_len hs f.b
  have hp : (gather (residual p f.b) I).Perm (residual p f.b) := gather_perm _ (by rw [hr]; exact hs.perm)
  rw [residual_changed C hs _ hf.len, ← hf.b]
  have hwf : (p.changed X' I).wf = p.wf := rfl
  have hrf : (p.changed X' I).rfac = gather p.rfac I := rfl
  have hn : rNormed (gather (residual p f.b) I) (gather p.rfac I) = gather (rNormed (residual p f.b) p.rfac) I := by
    unfold rNormed
    rw [sigmaHat_perm hp, gather_pwise _ _ _ (by rw [hr, hs.rfac]) _]
  have hnl : (rNormed (residual p f.b) p.rfac).length = p.y.length := by simp [rNormed, hr, hs.rfac]
  have hnp : (gather (rNormed (residual p f.b) p.rfac) I).Perm (rNormed (residual p f.b) p.rfac) :=
    gather_perm _ (by rw [hnl]; exact hs.perm)
  rw [hwf, hrf, hn, sigmaHat_perm hp]
  split
  · rfl
  · unfold WFun.apply
    rw [hnp.length_eq, ← gather_map]
    split
    · split <;> rfl
    · exact ⟨⟨hf, rfl, rfl, rfl, hr⟩, rfl, by rw [List.length_map, hnl]⟩

theorem robStep_changed (hl : LstsqOk N.lstsq) (C : Change p.ncol p.X X' S) (hrc : exactRcond (some p.rcond)) (hs : p.Sound I)
    (i : ℕ) (w : List ℝ) (hw : w.length = p.y.length) (o o' : Option Old)
    (ho : Option.Rel (OldChanged p S I p.y.length) o o') :
    SameOutcome (StepChanged p S I p.y.length) (robStep N p i w o) (robStep N (p.changed X' I) i (gather w I) o') := by
  unfold robStep
  dsimp only
  have hsum : (gather w I).sum = w.sum := (gather_perm w (by rw [hw]; exact hs.perm)).sum_eq
  rcases weightedFit_changed hl C hrc hs w hw with ⟨h1, h2⟩ | ⟨h1, hf⟩
  · rw [h1, h2]; rfl
  · obtain ⟨s, hs1⟩ := Option.isSome_iff_exists.1 h1
    rw [hf.resid, hs1, hsum]
    dsimp only
    cases ho with
    | none => exact reweight_changed C hs hf w _
    | some ho =>
      rename_i a b
      dsimp only
      rw [ho.rmeansq]
      have ht : (p.changed X' I).tol = p.tol := rfl
      rw [ht]
      split
      · exact ⟨ho.fit, ho.w, ho.resid, ho.len, rfl⟩
      · split
        · exact ⟨hf, rfl, ho.resid, ho.len, rfl⟩
        · exact reweight_changed C hs hf w _

theorem robLoop_changed (hl : LstsqOk N.lstsq) (C : Change p.ncol p.X X' S) (hrc : exactRcond (some p.rcond)) (hs : p.Sound I)
    (maxit n i : ℕ) (w : List ℝ) (hw : w.length = p.y.length) (o o' : Option Old)
    (ho : Option.Rel (OldChanged p S I p.y.length) o o') :
    SameOutcome (EndChanged p S I p.y.length) (robLoop N p maxit n i w o) (robLoop N (p.changed X' I) maxit n i (gather w I) o') := by
  induction n generalizing i w o o' with
  | zero =>
    cases ho with
    | none => rfl
    | some ho => exact ⟨ho.fit, rfl, ho.resid, ho.len, rfl⟩
  | succ n ih =>
    unfold robLoop
    have h := robStep_changed hl C hrc hs i w hw o o' ho
    cases h1 : robStep N p i w o with
    | error e =>
      cases h2 : robStep N (p.changed X' I) i (gather w I) o' with
      | error e' => rw [h1, h2] at h; exact h
      | ok s' => rw [h1, h2] at h; exact h.elim
    | ok s =>
      cases h2 : robStep N (p.changed X' I) i (gather w I) o' with
      | error e' => rw [h1, h2] at h; exact h.elim
      | ok s' =>
        rw [h1, h2] at h
        cases s with
        | stop e =>
          cases s' with
          | stop e' => exact h
          | next o' w' => exact h.elim
        | next q w =>
          cases s' with
          | stop e' => exact h.elim
          | next q' w' =>
            obtain ⟨hq, rfl, hw'⟩ := h
            exact ih _ _ hw' _ _ (.some hq)

/-! ## Leverage -/

theorem unitVec_gather (n : ℕ) (I : List ℕ) (hI : I.Perm (List.range n)) (i j : ℕ) (hj : I[j]? = some i) :
    unitVec n j = gather (unitVec n i) I := by
  have hlen : I.length = n := by rw [hI.length_eq, List.length_range]
  have hnd : I.Nodup := hI.nodup_iff.2 List.nodup_range
  have hlt : ∀ k ∈ I, k < n := fun k hk => List.mem_range.1 (hI.mem_iff.1 hk)
  apply List.ext_getElem?
  intro k
  have hu : ∀ a b : ℕ, a < n → (unitVec n b)[a]? = some (if a = b then 1 else 0) := by
    intro a b h
    simp [unitVec, h]
  rw [gather_getElem? _ _ (by simpa [unitVec] using hlt)]
  by_cases hk : k < n
  · obtain ⟨i', hi'⟩ : ∃ i', I[k]? = some i' := ⟨I[k]'(by omega), List.getElem?_eq_getElem _⟩
    rw [hu _ _ hk, hi']
    show _ = (unitVec n i)[i']?
    rw [hu _ _ (hlt i' (List.mem_of_getElem? hi'))]
    congr 1
    have : k = j ↔ i' = i := by
      constructor
      · rintro rfl
        rw [hj] at hi'
        exact (Option.some.inj hi').symm
      · rintro rfl
        exact (List.getElem?_inj (by omega) hnd).1 (hi'.trans hj.symm)
    simp only [this]
  · rw [List.getElem?_eq_none (by simp [unitVec]; omega), List.getElem?_eq_none (by omega)]
    rfl

theorem leverage_changed (hp : PinvOk N.pinv) (ncol : ℕ) {X : List (List ℂ)} (C : Change ncol X X' S)
    (hI : I.Perm (List.range X.length)) :
    leverage N ncol (gather X' I) = gather (leverage N ncol X) I := by
  have hX := C.rows
  have hpm : (gather X' I).Perm X' := gather_perm _ (by rw [C.height]; exact hI)
  have hlen : (gather X' I).length = X.length := by rw [hpm.length_eq, C.height]
  have hIl : I.length = X.length := by rw [hI.length_eq, List.length_range]
  have hlt : ∀ k ∈ I, k < X.length := fun k hk => List.mem_range.1 (hI.mem_iff.1 hk)
  have hX' : ∀ r ∈ gather X' I, r.length = ncol := by
    intro r hr
    exact C.rows' _ (hpm.mem_iff.1 hr)
  have hll : ∀ Y : List (List ℂ), (leverage N ncol Y).length = Y.length := by intro Y; simp [leverage]
  apply List.ext_getElem?
  intro j
  rw [gather_getElem? _ _ (by rw [hll]; exact hlt)]
  by_cases hj : j < X.length
  · obtain ⟨i, hi⟩ : ∃ i, I[j]? = some i := ⟨I[j]'(by omega), List.getElem?_eq_getElem _⟩
    have hin : i < X.length := hlt i (List.mem_of_getElem? hi)
    obtain ⟨m', hm', e'⟩ := leverage_getElem? N hp ncol _ hX' j (by rw [hlen]; exact hj)
    obtain ⟨m, hm, e⟩ := leverage_getElem? N hp ncol X hX i hin
    have hc : ∀ x : List ℂ, x.length = ncol →
        cost (gather X' I) (unitVec (gather X' I).length j) x = cost X (unitVec X.length i) (S x) := by
      intro x hx
      rw [hlen, unitVec_gather _ I hI i j hi]
      unfold cost
      rw [gather_pwise _ _ _ (by simp [unitVec, C.height]), (gather_perm _ (by simpa [unitVec, C.height] using hI)).sum_eq]
      congr 1
      apply List.ext_getElem
      · simp [C.height]
      · intro k h1 h2
        simp only [List.getElem_zipWith]
        rw [C.dot k (by simp at h2; omega) (by simp at h1; omega) _ hx]
    rw [e', hi]
    show _ = (leverage N ncol X)[i]?
    rw [e, hc _ hm'.length]
    congr 2
    apply le_antisymm
    · obtain ⟨x, hx, rfl⟩ := C.sur m hm.length
      have := hm'.optimal x hx
      rwa [hc _ hm'.length, hc _ hx] at this
    · exact hm.optimal _ (C.slen _ hm'.length)
  · rw [List.getElem?_eq_none (by rw [hll, hlen]; omega), List.getElem?_eq_none (by omega)]
    rfl

/-! ## The whole -/

/-- Related results of `robustfit`. -/
structure OutChanged (S : List ℂ → List ℂ) (I : List ℕ) (ncol : ℕ) (o o' : RobOut) : Prop where
  len : o'.b.length = ncol
  b : o.b = S o'.b
  w : o'.w = gather o.w I
  iterations : o'.iterations = o.iterations
  rms : o'.rmsResid = o.rmsResid
  leverage : o'.leverage = gather o.leverage I
  olsB : o.olsB = S o'.olsB
  olsRms : o'.olsRmsResid = o.olsRmsResid

theorem robustfit_changed (hl : LstsqOk N.lstsq) (hp : PinvOk N.pinv) (a : RobArgs) (hrc : exactRcond (some a.rcond)) (ncol : ℕ)
    {X : List (List ℂ)} (C : Change ncol X X' S) (y : List ℂ) (hy : X.length = y.length)
    (hI : I.Perm (List.range y.length)) :
    SameOutcome (OutChanged S I ncol) (robustfit N a ncol X y) (robustfit N a ncol (gather X' I) (gather y I)) := by
  have hlev := leverage_changed (N := N) (X' := X') (S := S) (I := I) hp ncol C (by rw [hy]; exact hI)
  have hll : (leverage N ncol X).length = y.length := by simp [leverage, hy]
  have hlp : (gather (leverage N ncol X) I).Perm (leverage N ncol X) := gather_perm _ (by rw [hll]; exact hI)
  unfold robustfit
  rw [hlev]
  cases hw : WFun.ofName a.wfName with
  | error e => rfl
  | ok wf =>
    simp only [ok_bind]
    have hany : (gather (leverage N ncol X) I).any (fun l => decide (1 ≤ l)) =
        (leverage N ncol X).any fun l => decide (1 ≤ l) := by
      rw [Bool.eq_iff_iff, List.any_eq_true, List.any_eq_true]
      simp only [hlp.mem_iff]
    rw [hany]
    unfold raiseIf
    split
    · rfl
    · simp only [ok_bind]
      have hs : (robProblem N a wf ncol X y).Sound I := ⟨C.rows, hy, by simp [robProblem, hll], hI⟩
      have hprob : (⟨gather X' I, gather y I, ncol, wf, a.rcond, a.tol, (gather (leverage N ncol X) I).map
          fun l => 1 / (((a.tune.getD wf.tune : ℚ) : ℝ) * Real.sqrt (1 - l))⟩ : RobProblem) =
          (robProblem N a wf ncol X y).changed X' I := by
        unfold RobProblem.changed robProblem
        dsimp only
        rw [gather_map]
      rw [hprob]
      have hones : (gather y I).map (fun _ => (1 : ℝ)) = gather (y.map fun _ => (1 : ℝ)) I := (gather_map _ _ _).symm
      rw [hones]
      have h := robLoop_changed (N := N) (p := robProblem N a wf ncol X y) (X' := X') (S := S) (I := I) hl C hrc hs a.maxit
        a.maxit 0 (y.map fun _ => 1) (by simp [robProblem]) none none .none
      have hsp := robLoop_spec N (robProblem N a wf ncol X y) a.maxit
      change SameOutcome _ (robLoop N (robProblem N a wf ncol X y) a.maxit a.maxit 0 (y.map fun _ => 1) none >>= _) _
      cases h1 : robLoop N (robProblem N a wf ncol X y) a.maxit a.maxit 0 (y.map fun _ => 1) none with
      | error e =>
        cases h2 : robLoop N ((robProblem N a wf ncol X y).changed X' I) a.maxit a.maxit 0 (gather (y.map fun _ => 1) I) none with
        | error e' => rw [h1, h2] at h; exact h
        | ok s' => rw [h1, h2] at h; exact h.elim
      | ok e =>
        cases h2 : robLoop N ((robProblem N a wf ncol X y).changed X' I) a.maxit a.maxit 0 (gather (y.map fun _ => 1) I) none with
        | error e' => rw [h1, h2] at h; exact h.elim
        | ok e' =>
          rw [h1, h2] at h
          obtain ⟨n, -, -, -, h3, h4, h5⟩ := hsp e h1
          have h0 : (passFit N (robProblem N a wf ncol X y) 0).resid.isSome := by
            cases n with
            | zero => exact h3
            | succ n => exact (h4 0 (by omega)).1
          have hfit : FitChanged S ncol (passFit N (robProblem N a wf ncol X y) 0)
              (weightedFit N ((robProblem N a wf ncol X y).changed X' I) (gather (y.map fun _ => 1) I)) := by
            rcases weightedFit_changed (N := N) (p := robProblem N a wf ncol X y) (X' := X') (S := S) hl C hrc hs
              (y.map fun _ => 1) (by simp [robProblem]) with ⟨g, -⟩ | ⟨-, g⟩
            · rw [show passFit N (robProblem N a wf ncol X y) 0 = weightedFit N (robProblem N a wf ncol X y)
                (y.map fun _ => 1) from rfl, g] at h0
              simp at h0
            · exact g
          have hep : (gather e.resid I).Perm e.resid := gather_perm _ (by rw [h.len]; exact hI)
          refine ⟨h.fit.len, h.fit.b, h.w, h.iterations, ?_, rfl, hfit.b, ?_⟩
          · show Real.sqrt ((e'.resid.map fun r => ‖r‖ ^ 2).sum / e'.resid.length) = _
            rw [h.resid, (hep.map _).sum_eq, hep.length_eq]
          · show Real.sqrt ((weightedFit N ((robProblem N a wf ncol X y).changed X' I) (gather (y.map fun _ => 1) I)).resid.getD 0 /
              (gather X' I).length) = Real.sqrt ((passFit N (robProblem N a wf ncol X y) 0).resid.getD 0 / X.length)
            rw [hfit.resid, (gather_perm X' (by rw [C.height, hy]; exact hI)).length_eq, C.height]

end

end UTide
