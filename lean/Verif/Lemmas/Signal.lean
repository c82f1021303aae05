import Verif.Lemmas.Reorder
import Verif.Lemmas.Ellipse
import Mathlib.Data.List.GetD

/-!
# The signal described by a result and by the fitted coefficients
-/

namespace UTide

noncomputable section

local notation "conj" => starRingEnd ℂ

/-! ## Reconstruction as a sum over constituents -/

/-- Basis functions of all constituents of `coef` at one time. -/
def Coef.basis (c : Coef) (t : ℝ) : List ℂ := List.zipWith (utE c.opt.flags c.reftime c.lat t) c.frq c.lind

/-- Contribution of every constituent at one time. -/
def contribs (c : Coef) (t : ℝ) : List ℂ :=
  List.zipWith (fun z e => z * (if c.opt.twodim then recAp2 e else recAp1 e) +
    conj z * (if c.opt.twodim then recAm2 e else recAm1 e)) (c.basis t) c.ell.toEll

/-- All arrays of `coef` needed for reconstruction have length `n`. -/
structure Coef.Len (n : ℕ) (c : Coef) : Prop where
  name : c.name.length = n
  frq : c.frq.length = n
  lind : c.lind.length = n
  ell : c.ell.Len n

theorem toEll_length {n : ℕ} {e : EllArr} (h : e.Len n) : e.toEll.length = n := by
  cases e with
  | one A g => obtain ⟨h1, h2⟩ := h; simp [EllArr.toEll, h1, h2]
  | two a b c d => obtain ⟨h1, h2, h3, h4⟩ := h; simp [EllArr.toEll, h1, h2, h3, h4]

theorem toEll_permute {n : ℕ} {e : EllArr} (h : e.Len n) (ind : List ℕ) :
    (e.permute ind).toEll = gather e.toEll ind := by
  cases e with
  | one A g =>
    obtain ⟨h1, h2⟩ := h
    simp only [EllArr.permute, EllArr.toEll]
    rw [gather_zipWith _ _ _ (by omega)]
  | two a b c d =>
    obtain ⟨h1, h2, h3, h4⟩ := h
    simp only [EllArr.permute, EllArr.toEll, List.zip]
    rw [gather_zipWith _ _ _ (by simp; omega), gather_zipWith _ _ _ (by omega), gather_zipWith _ _ _ (by omega)]

theorem permute_len {n : ℕ} {e : EllArr} (h : e.Len n) (ind : List ℕ) (hi : ∀ i ∈ ind, i < n) :
    (e.permute ind).Len ind.length := by
  cases e with
  | one A g =>
    obtain ⟨h1, h2⟩ := h
    exact ⟨gather_length _ _ (by rwa [h1]), gather_length _ _ (by rwa [h2])⟩
  | two a b c d =>
    obtain ⟨h1, h2, h3, h4⟩ := h
    exact ⟨gather_length _ _ (by rwa [h1]), gather_length _ _ (by rwa [h2]), gather_length _ _ (by rwa [h3]),
      gather_length _ _ (by rwa [h4])⟩

theorem Coef.Len.permute {n : ℕ} {c : Coef} (h : c.Len n) (ind : List ℕ) (hi : ∀ i ∈ ind, i < n) :
    (c.permute ind).Len ind.length :=
  ⟨gather_length _ _ (by rwa [h.name]), gather_length _ _ (by rwa [h.frq]), gather_length _ _ (by rwa [h.lind]),
    permute_len h.ell ind hi⟩

theorem dot_add_conj {α : Type} (l : List ℂ) (e : List α) (f g : α → ℂ) :
    dot l (e.map f) + dot (l.map conj) (e.map g) =
      (List.zipWith (fun z e => z * f e + conj z * g e) l e).sum := by
  induction l generalizing e with
  | nil => simp
  | cons z l ih =>
    cases e with
    | nil => simp
    | cons a e =>
      simp only [List.map_cons, dot_cons, List.zipWith_cons_cons, List.sum_cons]
      rw [← ih e]; ring

theorem basis_length {n : ℕ} {c : Coef} (h : c.Len n) (t : ℝ) : (c.basis t).length = n := by
  simp [Coef.basis, h.frq, h.lind]

theorem contribs_length {n : ℕ} {c : Coef} (h : c.Len n) (t : ℝ) : (contribs c t).length = n := by
  simp [contribs, basis_length h, toEll_length h.ell]

/-- `fit` is the sum of the contributions of the selected constituents. -/
theorem recFit_eq {n : ℕ} {c : Coef} (h : c.Len n) (ind : List ℕ) (t : ℝ) :
    recFit c ind t = (gather (contribs c t) ind).sum := by
  unfold recFit recAp recAm
  dsimp only
  rw [dot_add_conj, toEll_permute h.ell,
    ← gather_zipWith _ _ _ (by rw [h.frq, h.lind]), ← gather_zipWith _ _ _ (by simp [h.frq, h.lind, toEll_length h.ell])]
  rfl

theorem basis_permute {n : ℕ} {c : Coef} (h : c.Len n) (ind : List ℕ) (t : ℝ) :
    (c.permute ind).basis t = gather (c.basis t) ind := by
  unfold Coef.basis Coef.permute
  dsimp only
  rw [gather_zipWith _ _ _ (by rw [h.frq, h.lind])]

theorem contribs_permute {n : ℕ} {c : Coef} (h : c.Len n) (ind : List ℕ) (t : ℝ) :
    contribs (c.permute ind) t = gather (contribs c t) ind := by
  unfold contribs
  rw [basis_permute h, show (c.permute ind).ell = c.ell.permute ind from rfl, toEll_permute h.ell,
    gather_zipWith _ _ _ (by rw [basis_length h, toEll_length h.ell])]
  rfl

/-- Using every constituent. -/
theorem recFit_all {n : ℕ} {c : Coef} (h : c.Len n) (t : ℝ) :
    recFit c (List.range n) t = (contribs c t).sum := by
  rw [recFit_eq h]
  conv_lhs => rw [← contribs_length h t]
  rw [gather_range]

theorem recFit_all_permute {n : ℕ} {c : Coef} (h : c.Len n) (ind : List ℕ) (hp : ind.Perm (List.range n)) (t : ℝ) :
    recFit (c.permute ind) (List.range n) t = recFit c (List.range n) t := by
  have hi := perm_range_lt hp
  have hl : ind.length = n := by rw [hp.length_eq, List.length_range]
  have h' := h.permute ind hi
  rw [hl] at h'
  rw [recFit_all h', recFit_all h, contribs_permute h]
  exact (gather_perm _ (by rw [contribs_length h]; exact hp)).sum_eq

/-! ## The fitted coefficients -/

/-- The signal of rotary coefficients `ap`, `am` with basis functions `E`. -/
def rotary (E ap am : List ℂ) : ℂ := dot E ap + dot (E.map conj) am

theorem zipWith_ell_toEll (td : Bool) (ap am : List ℂ) :
    (ellOf td ap am).toEll = List.zipWith (if td then ell2 else ell1) ap am := by
  cases td with
  | true =>
    simp only [ellOf, if_true, EllArr.toEll, List.zip]
    rw [zipWith_map_same, zipWith_map_same, zipWith_map_same]
    exact List.map_id _
  | false =>
    simp only [ellOf, EllArr.toEll, Bool.false_eq_true, if_false]
    rw [zipWith_map_same]
    conv_rhs => rw [← List.map_id (List.zipWith ell1 ap am)]
    apply List.map_congr_left
    intro e he
    rw [List.mem_iff_getElem] at he
    obtain ⟨i, hi, rfl⟩ := he
    rw [List.getElem_zipWith, ell1_eq]
    rfl

theorem ellOf_len (td : Bool) (ap am : List ℂ) (n : ℕ) (h1 : ap.length = n) (h2 : am.length = n) :
    (ellOf td ap am).Len n := by
  cases td <;> simp [ellOf, EllArr.Len, h1, h2]

/-- Two-dimensional series: nothing is lost between fit and reconstruction. -/
theorem contribs_rotary2 (E ap am : List ℂ) (h1 : ap.length = am.length) (h2 : E.length = ap.length) :
    (List.zipWith (fun z e => z * recAp2 e + conj z * recAm2 e) E (List.zipWith ell2 ap am)).sum =
      rotary E ap am := by
  induction E generalizing ap am with
  | nil => simp [rotary]
  | cons z E ih =>
    cases ap with
    | nil => simp at h2
    | cons a ap =>
      cases am with
      | nil => simp at h1
      | cons b am =>
        have := ih ap am (by simpa using h1) (by simpa using h2)
        unfold rotary at this ⊢
        simp only [List.zipWith_cons_cons, List.sum_cons, List.map_cons, dot_cons, this, recAp2_ell2, recAm2_ell2]
        ring

/-- One-dimensional series: the real part is kept. -/
theorem contribs_rotary1 (E ap am : List ℂ) (h1 : ap.length = am.length) (h2 : E.length = ap.length) :
    ((List.zipWith (fun z e => z * recAp1 e + conj z * recAm1 e) E (List.zipWith ell1 ap am)).sum).re =
      (rotary E ap am).re := by
  induction E generalizing ap am with
  | nil => simp [rotary]
  | cons z E ih =>
    cases ap with
    | nil => simp at h2
    | cons a ap =>
      cases am with
      | nil => simp at h1
      | cons b am =>
        have := ih ap am (by simpa using h1) (by simpa using h2)
        unfold rotary at this ⊢
        simp only [List.zipWith_cons_cons, List.sum_cons, List.map_cons, dot_cons, Complex.add_re] at this ⊢
        rw [this]
        have h3 := rec1_re z a b
        simp only [Complex.add_re] at h3
        rw [h3]
        ring

/-- The blocks of the coefficient vector. -/
structure Blocks (sel : Sel) (trend : Bool) (m a b c d : List ℂ) (e : ℂ) (f : List ℂ) : Prop where
  eq : m = a ++ b ++ c ++ d ++ [e] ++ f
  a : a.length = sel.nNR
  b : b.length = sel.nNR
  c : c.length = sel.nR
  d : d.length = sel.nR
  f : f.length = if trend then 1 else 0

theorem exists_blocks (sel : Sel) (trend : Bool) (m : List ℂ) (h : m.length = numCols trend sel) :
    ∃ a b c d e f, Blocks sel trend m a b c d e f := by
  unfold numCols at h
  obtain ⟨n1, n2⟩ : ∃ n1 n2, n1 = sel.nNR ∧ n2 = sel.nR := ⟨_, _, rfl, rfl⟩
  refine ⟨m.take sel.nNR, (m.drop sel.nNR).take sel.nNR, (m.drop (2 * sel.nNR)).take sel.nR,
    (m.drop (2 * sel.nNR + sel.nR)).take sel.nR, m.getD (2 * (sel.nNR + sel.nR)) 0,
    m.drop (2 * (sel.nNR + sel.nR) + 1), ?_, ?_, ?_, ?_, ?_, ?_⟩
  · have hlt : 2 * (sel.nNR + sel.nR) < m.length := by omega
    have key : ∀ k j, (m.drop k).take j ++ m.drop (k + j) = m.drop k := by
      intro k j
      rw [← List.drop_drop]
      exact List.take_append_drop _ _
    have h1 := key 0 sel.nNR
    have h2 := key sel.nNR sel.nNR
    have h3 := key (2 * sel.nNR) sel.nR
    have h4 := key (2 * sel.nNR + sel.nR) sel.nR
    have h5 : [m.getD (2 * (sel.nNR + sel.nR)) 0] ++ m.drop (2 * (sel.nNR + sel.nR) + 1) =
        m.drop (2 * (sel.nNR + sel.nR)) := by
      rw [List.drop_eq_getElem_cons hlt, List.getD_eq_getElem _ _ hlt]
      rfl
    simp only [List.append_assoc]
    rw [h5, show 2 * (sel.nNR + sel.nR) = 2 * sel.nNR + sel.nR + sel.nR by ring, h4, h3,
      show 2 * sel.nNR = sel.nNR + sel.nNR by ring, h2]
    simpa using h1.symm
  · rw [List.length_take]; omega
  · rw [List.length_take, List.length_drop]; omega
  · rw [List.length_take, List.length_drop]; omega
  · rw [List.length_take, List.length_drop]; omega
  · rw [List.length_drop]; cases trend <;> simp only [Bool.false_eq_true, if_true, if_false] at h ⊢ <;> omega

theorem Blocks.length {sel : Sel} {trend : Bool} {m a b c d : List ℂ} {e : ℂ} {f : List ℂ}
    (h : Blocks sel trend m a b c d e f) : m.length = numCols trend sel := by
  rw [h.eq]
  simp only [List.length_append, List.length_cons, List.length_nil, h.a, h.b, h.c, h.d, h.f]
  unfold numCols; omega

theorem Blocks.ap {sel : Sel} {trend : Bool} {m a b c d : List ℂ} {e : ℂ} {f : List ℂ}
    (h : Blocks sel trend m a b c d e f) : apOf sel m = a ++ c := by
  unfold apOf
  rw [h.eq, ← h.a, show 2 * a.length = (a ++ b).length by simp [h.a, h.b]; omega]
  congr 1
  · simp [List.append_assoc]
  · rw [show a ++ b ++ c ++ d ++ [e] ++ f = (a ++ b) ++ (c ++ (d ++ ([e] ++ f))) by simp, List.drop_left, ← h.c,
      List.take_left]

theorem Blocks.am {sel : Sel} {trend : Bool} {m a b c d : List ℂ} {e : ℂ} {f : List ℂ}
    (h : Blocks sel trend m a b c d e f) : amOf sel m = b ++ d := by
  unfold amOf
  rw [h.eq, show 2 * sel.nNR + sel.nR = (a ++ b ++ c).length by simp [h.a, h.b, h.c]; omega]
  congr 1
  · conv_lhs => rw [← h.a]
    rw [show a ++ b ++ c ++ d ++ [e] ++ f = a ++ (b ++ (c ++ (d ++ ([e] ++ f)))) by simp, List.drop_left, h.a, ← h.b,
      List.take_left]
  · rw [show a ++ b ++ c ++ d ++ [e] ++ f = (a ++ b ++ c) ++ (d ++ ([e] ++ f)) by simp, List.drop_left, ← h.d,
      List.take_left]

theorem Blocks.mean {sel : Sel} {trend : Bool} {m a b c d : List ℂ} {e : ℂ} {f : List ℂ}
    (h : Blocks sel trend m a b c d e f) (k : ℕ) (hk : k = 2 * (sel.nNR + sel.nR)) : m.getD k 0 = e := by
  rw [h.eq, show a ++ b ++ c ++ d ++ [e] ++ f = (a ++ b ++ c ++ d) ++ (e :: f) by simp,
    List.getD_append_right _ _ _ _ (by simp [h.a, h.b, h.c, h.d]; omega)]
  rw [show k - (a ++ b ++ c ++ d).length = 0 by simp [h.a, h.b, h.c, h.d]; omega]
  rfl

theorem Blocks.slope {sel : Sel} {m a b c d : List ℂ} {e : ℂ} {f : List ℂ}
    (h : Blocks sel true m a b c d e f) (k : ℕ) (hk : k = 2 * (sel.nNR + sel.nR) + 1) : f = [m.getD k 0] := by
  rw [h.eq, show a ++ b ++ c ++ d ++ [e] ++ f = (a ++ b ++ c ++ d ++ [e]) ++ f by simp,
    List.getD_append_right _ _ _ _ (by simp [h.a, h.b, h.c, h.d]; omega)]
  rw [show k - (a ++ b ++ c ++ d ++ [e]).length = 0 by simp [h.a, h.b, h.c, h.d]; omega]
  have := h.f
  simp only [if_true] at this
  obtain ⟨x, rfl⟩ := List.length_eq_one_iff.1 this
  rfl

/-- Coefficients of the inferred constituents. -/
theorem inferredCoef_eq (sel : Sel) (R : InfCon → ℂ) (a c : List ℂ) (ha : a.length = sel.nNR)
    (hc : c.length = sel.refs.length) :
    inferredCoef sel R (a ++ c) = (sel.refs.zip c).flatMap fun p => p.1.inf.map fun q => R q * p.2 := by
  unfold inferredCoef
  have h1 : ∀ k, (a ++ c).getD (sel.nNR + k) 0 = c.getD k 0 := by
    intro k
    rw [List.getD_append_right _ _ _ _ (by omega)]
    congr 1; omega
  simp only [h1]
  have key : ∀ (refs : List RefCon) (c : List ℂ) (j : ℕ) (g : ℕ → ℂ), c.length = refs.length →
      (∀ i, i < c.length → g (j + i) = c.getD i 0) →
      ((refs.zipIdx j).flatMap fun rk => rk.1.inf.map fun q => R q * g rk.2) =
        (refs.zip c).flatMap fun p => p.1.inf.map fun q => R q * p.2 := by
    intro refs
    induction refs with
    | nil => intros; rfl
    | cons r refs ih =>
      intro c j g hl hg
      cases c with
      | nil => simp at hl
      | cons z c =>
        simp only [List.zipIdx_cons, List.flatMap_cons, List.zip_cons_cons]
        rw [ih c (j + 1) g (by simpa using hl) (fun i hi => by
          have := hg (i + 1) (by simpa using hi)
          rw [show j + 1 + i = j + (i + 1) by ring, this]; rfl)]
        have := hg 0 (by simp)
        simp only [add_zero, List.getD_cons_zero] at this
        rw [this]
  exact key sel.refs c 0 (fun k => c.getD k 0) hc (fun i _ => by simp)

/-- The basis functions of all constituents, from a selection. -/
def selBasis (fl : Flags) (tref lat : ℝ) (sel : Sel) (t : ℝ) : List ℂ :=
  rowNR fl tref lat sel t ++ sel.refs.map (fun r => utE fl tref lat t r.frq r.lind) ++
    sel.refs.flatMap fun r => r.inf.map fun q => utE fl tref lat t q.frq q.lind

/-- Exact inference spelled out: the reference column is the sum over the reference and its inferred
constituents. -/
theorem etilp_exact (fl : Flags) (tref lat t : ℝ) (r : RefCon) (h : utE fl tref lat t r.frq r.lind ≠ 0) :
    etilp fl tref lat false t r = utE fl tref lat t r.frq r.lind +
      (r.inf.map fun q => utE fl tref lat t q.frq q.lind * q.Rp).sum := by
  unfold etilp qsum
  simp only [Bool.false_eq_true, if_false]
  rw [mul_add, mul_one, ← List.sum_map_mul_left]
  congr 2
  apply List.map_congr_left
  intro q _
  field_simp

theorem etilm_exact (fl : Flags) (tref lat t : ℝ) (r : RefCon) (h : utE fl tref lat t r.frq r.lind ≠ 0) :
    conj (etilm fl tref lat false t r) = conj (utE fl tref lat t r.frq r.lind) +
      (r.inf.map fun q => conj (utE fl tref lat t q.frq q.lind) * q.Rm).sum := by
  unfold etilm qsum
  simp only [Bool.false_eq_true, if_false]
  rw [mul_add, mul_one, ← List.sum_map_mul_left, map_add, map_list_sum]
  congr 2
  rw [List.map_map]
  apply List.map_congr_left
  intro q _
  simp only [Function.comp]
  rw [show utE fl tref lat t r.frq r.lind * (utE fl tref lat t q.frq q.lind / utE fl tref lat t r.frq r.lind *
    conj q.Rm) = utE fl tref lat t q.frq q.lind * conj q.Rm by field_simp]
  simp

theorem dot_map_mul {α : Type} (l : List α) (f g : α → ℂ) (z : ℂ) :
    dot (l.map f) (l.map fun q => g q * z) = (l.map fun q => f q * g q).sum * z := by
  induction l with
  | nil => simp
  | cons a l ih => simp only [List.map_cons, dot_cons, List.sum_cons, ih]; ring

theorem refs_dot (F G : RefCon → ℂ) (f : InfCon → ℂ) (R : InfCon → ℂ) (refs : List RefCon) (c : List ℂ)
    (hl : c.length = refs.length) (hF : ∀ r ∈ refs, F r = G r + (r.inf.map fun q => f q * R q).sum) :
    dot (refs.map F) c = dot (refs.map G) c +
      dot (refs.flatMap fun r => r.inf.map f) ((refs.zip c).flatMap fun p => p.1.inf.map fun q => R q * p.2) := by
  induction refs generalizing c with
  | nil => simp
  | cons r refs ih =>
    cases c with
    | nil => simp at hl
    | cons z c =>
      simp only [List.map_cons, dot_cons, List.flatMap_cons, List.zip_cons_cons]
      rw [dot_append _ _ _ _ (by simp), dot_map_mul, ih c (by simpa using hl) (fun r hr => hF r (by simp [hr])),
        hF r (by simp)]
      ring

/-- One row of the matrix times the coefficients: the signal of all constituents, inferred ones included, plus mean
and trend. -/
theorem row_signal (fl : Flags) (tref lat lor : ℝ) (trend : Bool) (sel : Sel) (t : ℝ) (m : List ℂ)
    (hal : SelAligned tref sel) (hm : m.length = numCols trend sel)
    (hE : ∀ r ∈ sel.refs, utE fl tref lat t r.frq r.lind ≠ 0) :
    dot (modelRow fl tref lat lor trend false sel t) m =
      rotary (selBasis fl tref lat sel t) (allAp sel m) (allAm sel m) + m.getD (2 * (sel.nNR + sel.nR)) 0 +
      (if trend then (((t - tref) / lor : ℝ) : ℂ) * m.getD (2 * (sel.nNR + sel.nR) + 1) 0 else 0) := by
  obtain ⟨a, b, c, d, e, f, hb⟩ := exists_blocks sel trend m hm
  have hnr : (rowNR fl tref lat sel t).length = sel.nNR := by
    unfold rowNR; rw [List.length_zipWith, hal.nrFrq, List.length_map, hal.nNR, min_self]
  have hc : c.length = sel.refs.length := by rw [hb.c, hal.nR]
  have hd : d.length = sel.refs.length := by rw [hb.d, hal.nR]
  rw [hb.mean _ rfl]
  unfold allAp allAm
  rw [hb.ap, hb.am, inferredCoef_eq sel _ a c hb.a hc, inferredCoef_eq sel _ b d hb.b hd]
  have hrow : dot (modelRow fl tref lat lor trend false sel t) m =
      dot (rowNR fl tref lat sel t) a + dot ((rowNR fl tref lat sel t).map conj) b +
      dot (sel.refs.map (etilp fl tref lat false t)) c +
      dot (sel.refs.map fun r => conj (etilm fl tref lat false t r)) d + e +
      dot (if trend then [(((t - tref) / lor : ℝ) : ℂ)] else []) f := by
    unfold modelRow
    rw [hb.eq, dot_append _ _ _ _ (by simp [hnr, hb.a, hb.b, hb.c, hb.d, hal.nR]),
      dot_append _ _ _ _ (by simp [hnr, hb.a, hb.b, hb.c, hb.d, hal.nR]),
      dot_append _ _ _ _ (by simp [hnr, hb.a, hb.b, hb.c, hal.nR]),
      dot_append _ _ _ _ (by simp [hnr, hb.a, hb.b]),
      dot_append _ _ _ _ (by simp [hnr, hb.a])]
    simp [dot]
  rw [hrow, refs_dot _ (fun r => utE fl tref lat t r.frq r.lind) (fun q => utE fl tref lat t q.frq q.lind) InfCon.Rp
      sel.refs c hc (fun r hr => etilp_exact fl tref lat t r (hE r hr)),
    refs_dot _ (fun r => conj (utE fl tref lat t r.frq r.lind)) (fun q => conj (utE fl tref lat t q.frq q.lind))
      InfCon.Rm sel.refs d hd (fun r hr => etilm_exact fl tref lat t r (hE r hr))]
  have htr : dot (if trend then [(((t - tref) / lor : ℝ) : ℂ)] else []) f =
      (if trend then (((t - tref) / lor : ℝ) : ℂ) * m.getD (2 * (sel.nNR + sel.nR) + 1) 0 else 0) := by
    cases trend with
    | false => simp
    | true => rw [hb.slope _ rfl]; simp [dot]
  rw [htr]
  unfold rotary selBasis
  rw [List.map_append, List.map_append,
    dot_append _ _ _ _ (by simp [hnr, hb.a, hc]), dot_append _ _ _ _ (by simp [hnr, hb.a]),
    dot_append _ _ _ _ (by simp [hnr, hb.b, hd]), dot_append _ _ _ _ (by simp [hnr, hb.b])]
  simp only [List.map_map, List.map_flatMap, Function.comp_def]
  ring

end

end UTide
