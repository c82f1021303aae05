import Verif.Lemmas.Named
import Verif.Lemmas.Requested

/-!
# Real data: the fitted coefficients come in conjugate pairs
-/

namespace UTide

noncomputable section

local notation "conj" => starRingEnd ℂ

/-- Both rotary factors of every inferred constituent are conjugate. -/
def Sel.Conj (sel : Sel) : Prop := ∀ r ∈ sel.refs, ∀ q ∈ r.inf, q.Rm = conj q.Rp

theorem etilm_eq_etilp (fl : Flags) (tref lat : ℝ) (ap : Bool) (t : ℝ) (r : RefCon)
    (h : ∀ q ∈ r.inf, q.Rm = conj q.Rp) : etilm fl tref lat ap t r = etilp fl tref lat ap t r := by
  unfold etilm etilp qsum
  cases ap with
  | true => rfl
  | false =>
    simp only [Bool.false_eq_true, if_false]
    congr 3
    refine List.map_congr_left fun q hq => ?_
    rw [h q hq, Complex.conj_conj]

/-- Exchange of the coefficients of `E` and of its conjugate, with conjugation. -/
theorem row_mirror {tref : ℝ} {sel : Sel} (hal : SelAligned tref sel) (hc : sel.Conj) (fl : Flags) (tr lat lor : ℝ)
    (trend ap : Bool) (t : ℝ) (a b c d : List ℂ) (e : ℂ) (f : List ℂ) (ha : a.length = sel.nNR)
    (hb : b.length = sel.nNR) (hcl : c.length = sel.nR) (hd : d.length = sel.nR) :
    dot (modelRow fl tr lat lor trend ap sel t)
      (b.map conj ++ a.map conj ++ d.map conj ++ c.map conj ++ [conj e] ++ f.map conj) =
      conj (dot (modelRow fl tr lat lor trend ap sel t) (a ++ b ++ c ++ d ++ [e] ++ f)) := by
  have hn := rowNR_length hal fl tr lat t
  have hr : sel.refs.map (fun r => conj (etilm fl tr lat ap t r)) =
      (sel.refs.map (etilp fl tr lat ap t)).map conj := by
    rw [List.map_map]
    exact List.map_congr_left fun r hr => by rw [etilm_eq_etilp _ _ _ _ _ _ (hc r hr)]; rfl
  have hT : (sel.refs.map (etilp fl tr lat ap t)).length = sel.nR := by rw [List.length_map, hal.nR]
  unfold modelRow
  rw [hr]
  generalize rowNR fl tr lat sel t = z at hn
  generalize sel.refs.map (etilp fl tr lat ap t) = w at hT
  have hf : dot (if trend then [(((t - tr) / lor : ℝ) : ℂ)] else []) (f.map conj) =
      conj (dot (if trend then [(((t - tr) / lor : ℝ) : ℂ)] else []) f) := by
    rw [← dot_map_conj]
    cases trend <;> simp
  generalize (if trend then [(((t - tr) / lor : ℝ) : ℂ)] else []) = y at hf
  have hcc : ∀ l : List ℂ, (l.map conj).map conj = l := by intro l; simp [Function.comp_def]
  have h1 : ∀ r m : List ℂ, dot (r.map conj) m = conj (dot r (m.map conj)) := by
    intro r m
    rw [← dot_map_conj, hcc]
  rw [dot_append _ _ _ _ (by simp [hn, hT, ha, hb, hcl, hd]), dot_append _ _ _ _ (by simp [hn, hT, ha, hb, hcl, hd]),
    dot_append _ _ _ _ (by simp [hn, hT, ha, hb, hd]), dot_append _ _ _ _ (by simp [hn, ha, hb]),
    dot_append _ _ _ _ (by simp [hn, hb]),
    dot_append _ _ _ _ (by simp [hn, hT, ha, hb, hcl, hd]), dot_append _ _ _ _ (by simp [hn, hT, ha, hb, hcl, hd]),
    dot_append _ _ _ _ (by simp [hn, hT, ha, hb, hcl]), dot_append _ _ _ _ (by simp [hn, ha, hb]),
    dot_append _ _ _ _ (by simp [hn, ha]), hf]
  simp only [map_add, h1, hcc, Complex.conj_conj]
  have h2 : dot [1] [conj e] = conj (dot [1] [e]) := by simp [dot]
  have h3 : dot z (b.map conj) = conj (dot (z.map conj) b) := by rw [h1, Complex.conj_conj]
  have h4 : dot w (d.map conj) = conj (dot (w.map conj) d) := by rw [h1, Complex.conj_conj]
  rw [h2, h3, h4]
  simp only [h1, Complex.conj_conj]
  ring

/-- `m` is the minimum-norm solution of the system with rows and data multiplied by real weights. -/
def WeightedSol (ncol : ℕ) (A : List (List ℂ)) (y m : List ℂ) : Prop :=
  ∃ ws : List ℝ, IsMinNormSol ncol (List.zipWith (fun (wi : ℝ) r => r.map fun x => (wi : ℂ) * x) ws A)
    (List.zipWith (fun (wi : ℝ) yi => (wi : ℂ) * yi) ws y) m

theorem WeightedSol.of_min {ncol : ℕ} {A : List (List ℂ)} {y m : List ℂ} (hl : A.length = y.length)
    (h : IsMinNormSol ncol A y m) : WeightedSol ncol A y m := by
  refine ⟨List.replicate y.length 1, ?_⟩
  have h1 : List.zipWith (fun (wi : ℝ) r => r.map fun x => (wi : ℂ) * x) (List.replicate y.length 1) A = A := by
    apply List.ext_getElem <;> simp [hl]
  have h2 : List.zipWith (fun (wi : ℝ) yi => (wi : ℂ) * yi) (List.replicate y.length 1) y = y := by
    apply List.ext_getElem <;> simp
  rw [h1, h2]
  exact h

/-- The cost of the weighted system, by samples. -/
theorem cost_weighted (ws : List ℝ) (A : List (List ℂ)) (y m : List ℂ) (h : A.length = y.length) :
    cost (List.zipWith (fun (wi : ℝ) r => r.map fun x => (wi : ℂ) * x) ws A)
      (List.zipWith (fun (wi : ℝ) yi => (wi : ℂ) * yi) ws y) m =
    (List.zipWith (fun (wi : ℝ) e => wi ^ 2 * e) ws (List.zipWith (fun r x => ‖x - dot r m‖ ^ 2) A y)).sum := by
  unfold cost
  congr 1
  apply List.ext_getElem
  · simp [h]
  · intro i h1 h2
    simp only [List.getElem_zipWith]
    have : ∀ (k : ℂ) (r m : List ℂ), dot (r.map fun x => k * x) m = k * dot r m := by
      intro k r
      induction r with
      | nil => simp
      | cons a r ih =>
        intro m
        cases m with
        | nil => simp
        | cons b m => rw [List.map_cons, dot_cons, dot_cons, ih]; ring
    rw [this, ← mul_sub, norm_mul, mul_pow, Complex.norm_real, Real.norm_eq_abs, sq_abs]

/-- The minimum-norm solution of a weighted system for real data is its own mirror image. -/
theorem mirror_unique_w {tref : ℝ} {sel : Sel} (hal : SelAligned tref sel) (hc : sel.Conj) (fl : Flags) (tr lat lor : ℝ)
    (trend ap : Bool) (ts : List ℝ) (x : List ℂ) (hx : ∀ z ∈ x, conj z = z) (hlen : ts.length = x.length) (m : List ℂ)
    (h : WeightedSol (numCols trend sel) (ts.map (modelRow fl tr lat lor trend ap sel)) x m)
    (a b c d : List ℂ) (e : ℂ) (f : List ℂ) (hbl : Blocks sel trend m a b c d e f) :
    b = a.map conj ∧ d = c.map conj ∧ conj e = e ∧ f.map conj = f := by
  obtain ⟨ws, h⟩ := h
  obtain ⟨heq, la, lb, lc, ld, lf⟩ := hbl
  -- mirror images
  have hmir : ∀ (a b c d : List ℂ) (e : ℂ) (f : List ℂ), Blocks sel trend (a ++ b ++ c ++ d ++ [e] ++ f) a b c d e f →
      cost (List.zipWith (fun (wi : ℝ) r => r.map fun x => (wi : ℂ) * x) ws
        (ts.map (modelRow fl tr lat lor trend ap sel))) (List.zipWith (fun (wi : ℝ) yi => (wi : ℂ) * yi) ws x)
        (b.map conj ++ a.map conj ++ d.map conj ++ c.map conj ++ [conj e] ++ f.map conj) =
      cost (List.zipWith (fun (wi : ℝ) r => r.map fun x => (wi : ℂ) * x) ws
        (ts.map (modelRow fl tr lat lor trend ap sel))) (List.zipWith (fun (wi : ℝ) yi => (wi : ℂ) * yi) ws x) (a ++ b ++ c ++ d ++ [e] ++ f) := by
    intro a b c d e f hbl
    rw [cost_weighted _ _ _ _ (by simp [hlen]), cost_weighted _ _ _ _ (by simp [hlen])]
    congr 2
    apply List.ext_getElem
    · simp
    · intro i h1 h2
      simp only [List.getElem_zipWith, List.getElem_map]
      rw [row_mirror hal hc _ _ _ _ _ _ _ _ _ _ _ _ _ hbl.a hbl.b hbl.c hbl.d]
      have hi : i < x.length := by simp at h1; omega
      have := hx _ (List.getElem_mem hi)
      conv_lhs => rw [← this]
      rw [← map_sub, RCLike.norm_conj]
  have hns : normSq (b.map conj ++ a.map conj ++ d.map conj ++ c.map conj ++ [conj e] ++ f.map conj) =
      normSq (a ++ b ++ c ++ d ++ [e] ++ f) := by
    unfold normSq
    simp only [List.map_append, List.sum_append, List.map_map, List.map_cons, List.map_nil, Function.comp_def,
      RCLike.norm_conj]
    ring
  have hl1 : (b.map conj ++ a.map conj ++ d.map conj ++ c.map conj ++ [conj e] ++ f.map conj).length = m.length := by
    rw [heq]; simp [la, lb, lc, ld]
  have hsol : IsMinNormSol (numCols trend sel) (List.zipWith (fun (wi : ℝ) r => r.map fun x => (wi : ℂ) * x) ws
        (ts.map (modelRow fl tr lat lor trend ap sel))) (List.zipWith (fun (wi : ℝ) yi => (wi : ℂ) * yi) ws x)
      (b.map conj ++ a.map conj ++ d.map conj ++ c.map conj ++ [conj e] ++ f.map conj) := by
    have hbl : Blocks sel trend (a ++ b ++ c ++ d ++ [e] ++ f) a b c d e f := ⟨rfl, la, lb, lc, ld, lf⟩
    refine ⟨hl1.trans h.length, fun m' hm' => ?_, fun m' hm' he => ?_⟩
    · rw [hmir _ _ _ _ _ _ hbl, ← heq]; exact h.optimal m' hm'
    · rw [hns, ← heq]
      rw [hmir _ _ _ _ _ _ hbl, ← heq] at he
      exact h.minimal m' hm' he
  have hu := IsMinNormSol.unique (by simp [hlen]) hsol h
  rw [heq] at hu
  obtain ⟨h1, h2⟩ := List.append_inj hu (by simp [la, lb, lc, ld])
  obtain ⟨h3, h4⟩ := List.append_inj h1 (by simp [la, lb, lc, ld])
  obtain ⟨h5, h6⟩ := List.append_inj h3 (by simp [la, lb, lc, ld])
  obtain ⟨h7, h8⟩ := List.append_inj h5 (by simp [la, lb])
  obtain ⟨h9, h10⟩ := List.append_inj h7 (by simp [la, lb])
  exact ⟨h10.symm, h6.symm, (List.cons.inj h4).1, h2⟩

/-- The minimum-norm solution for real data is its own mirror image. -/
theorem mirror_unique {tref : ℝ} {sel : Sel} (hal : SelAligned tref sel) (hc : sel.Conj) (fl : Flags) (tr lat lor : ℝ)
    (trend ap : Bool) (ts : List ℝ) (x : List ℂ) (hx : ∀ z ∈ x, conj z = z) (hlen : ts.length = x.length) (m : List ℂ)
    (h : IsMinNormSol (numCols trend sel) (ts.map (modelRow fl tr lat lor trend ap sel)) x m)
    (a b c d : List ℂ) (e : ℂ) (f : List ℂ) (hbl : Blocks sel trend m a b c d e f) :
    b = a.map conj ∧ d = c.map conj ∧ conj e = e ∧ f.map conj = f :=
  mirror_unique_w hal hc fl tr lat lor trend ap ts x hx hlen m (.of_min (by simp [hlen]) h) a b c d e f hbl

/-! ## Inference written twice -/

/-- The same amplitude ratios and phase offsets for both directions of rotation. -/
def doubled (s : InferSpec) : InferSpec := { s with amp := s.amp ++ s.amp, phase := s.phase ++ s.phase }

theorem mapM_congr' {α β : Type} (f g : α → Except PyErr β) (l : List α) (h : ∀ a ∈ l, f a = g a) :
    l.mapM f = l.mapM g := by
  induction l with
  | nil => rfl
  | cons a l ih =>
    rw [List.mapM_cons, List.mapM_cons, h a (by simp), ih fun b hb => h b (by simp [hb])]

theorem mkInf_doubled (s : InferSpec) (tref : ℝ) (h1 : s.amp.length = s.inferred.length)
    (h2 : s.phase.length = s.inferred.length) (i : ℕ) (hi : i < s.inferred.length) :
    mkInf (doubled s) tref i = mkInf s tref i := by
  have e1 : getIdx (s.amp ++ s.amp) i = getIdx s.amp i := by
    unfold getIdx; rw [List.getElem?_append_left (by omega)]
  have e2 : getIdx (s.phase ++ s.phase) i = getIdx s.phase i := by
    unfold getIdx; rw [List.getElem?_append_left (by omega)]
  have e3 : getIdx (s.amp ++ s.amp) (i + s.inferred.length) = getIdx s.amp i := by
    unfold getIdx; rw [List.getElem?_append_right (by omega), h1, Nat.add_sub_cancel]
  have e4 : getIdx (s.phase ++ s.phase) (i + s.inferred.length) = getIdx s.phase i := by
    unfold getIdx; rw [List.getElem?_append_right (by omega), h2, Nat.add_sub_cancel]
  have g1 : getIdx s.amp i = .ok (s.amp[i]'(by omega)) := by
    unfold getIdx; rw [List.getElem?_eq_getElem (by omega)]
  have g2 : getIdx s.phase i = .ok (s.phase[i]'(by omega)) := by
    unfold getIdx; rw [List.getElem?_eq_getElem (by omega)]
  unfold mkInf inferRm doubled
  simp only [e1, e2, e3, e4, g1, g2, ok_bind]
  rw [if_pos (by simp; omega), if_neg (by omega)]
  simp only [ok_bind, pure_eq_ok]
  have : (s.amp[i]'(by omega) : ℂ) * Complex.exp (-Complex.I * ((s.phase[i]'(by omega) : ℚ) : ℂ) * Real.pi / 180) =
      conj ((s.amp[i]'(by omega) : ℂ) * Complex.exp (Complex.I * ((s.phase[i]'(by omega) : ℚ) : ℂ) * Real.pi / 180)) := by
    rw [map_mul, ← Complex.exp_conj]
    simp [Complex.conj_ofNat]
  rw [this]

theorem mkRef_doubled (s : InferSpec) (tref : ℝ) (h1 : s.amp.length = s.inferred.length)
    (h2 : s.phase.length = s.inferred.length) (h3 : s.inferred.length = s.reference.length) (n : String) :
    mkRef (doubled s) tref n = mkRef s tref n := by
  unfold mkRef
  congr 1
  funext lind
  have : (refPositions (doubled s).reference n).mapM (mkInf (doubled s) tref) =
      (refPositions s.reference n).mapM (mkInf s tref) := by
    refine mapM_congr' _ _ _ fun i hi => mkInf_doubled s tref h1 h2 i ?_
    have := (mem_refPositions _ _ _).1 hi
    have := (List.getElem?_eq_some_iff.1 this).1
    show i < s.inferred.length
    rw [h3]; exact this
  rw [this]

theorem cnstitsel_doubled (tref : ℝ) (mr : Fl) (con : Constit) (s : InferSpec) (h1 : s.amp.length = s.inferred.length)
    (h2 : s.phase.length = s.inferred.length) (h3 : s.inferred.length = s.reference.length) :
    cnstitsel tref mr con (some (doubled s)) = cnstitsel tref mr con (some s) := by
  unfold cnstitsel
  have : mkRef (doubled s) tref = mkRef s tref := funext (mkRef_doubled s tref h1 h2 h3)
  dsimp only
  rw [this]
  rfl

end

end UTide
