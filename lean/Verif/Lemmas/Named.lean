import Verif.Lemmas.Fit

/-!
# Every solution in terms of constituent names
-/

namespace UTide

noncomputable section

local notation "conj" => starRingEnd ℂ

theorem exists_fun_map (l : List String) (hn : l.Nodup) (vals : List ℂ) (hlen : vals.length = l.length) :
    ∃ P : String → ℂ, l.map P = vals := by
  refine ⟨fun n => vals.getD (l.idxOf n) 0, ?_⟩
  apply List.ext_getElem
  · simp [hlen]
  · intro i h1 h2
    rw [List.getElem_map, hn.idxOf_getElem i (by simpa using h1), List.getD_eq_getElem _ _ h2]

theorem flatMap_map_inj {α β : Type} (refs : List α) (inf : α → List β) (f g : α → β → ℂ)
    (h : (refs.flatMap fun r => (inf r).map (f r)) = refs.flatMap fun r => (inf r).map (g r)) :
    ∀ r ∈ refs, ∀ q ∈ inf r, f r q = g r q := by
  induction refs with
  | nil => intro r hr; simp at hr
  | cons a refs ih =>
    rw [List.flatMap_cons, List.flatMap_cons] at h
    obtain ⟨h1, h2⟩ := List.append_inj h (by simp)
    intro r hr q hq
    rcases List.mem_cons.1 hr with rfl | hr
    · exact List.map_inj_left.1 h1 q hq
    · exact ih h2 r hr q hq

theorem tied_of_map {sel : Sel} (R : InfCon → ℂ) (P : String → ℂ) (a : List ℂ) (ha : a.length = sel.nNR)
    (h : (sel.refs.flatMap fun r => r.inf.map InfCon.name).map P =
      inferredCoef sel R (a ++ sel.refs.map fun r => P r.name)) : TiedBy sel R P := by
  rw [inferredCoef_eq sel R a _ ha (by rw [List.length_map]), List.map_flatMap] at h
  have h2 : ((sel.refs.zip (sel.refs.map fun r => P r.name)).flatMap fun p => p.1.inf.map fun q => R q * p.2) =
      sel.refs.flatMap fun r => r.inf.map fun q => R q * P r.name := by
    generalize sel.refs = refs
    induction refs with
    | nil => rfl
    | cons r refs ih => rw [List.map_cons, List.zip_cons_cons, List.flatMap_cons, List.flatMap_cons, ih]
  rw [h2] at h
  simp only [List.map_map] at h
  exact flatMap_map_inj sel.refs RefCon.inf (fun _ q => P q.name) (fun r q => R q * P r.name) h

theorem inferredCoef_length (sel : Sel) (R : InfCon → ℂ) (a : List ℂ) :
    (inferredCoef sel R a).length = (sel.refs.flatMap fun r => r.inf.map InfCon.name).length := by
  unfold inferredCoef
  rw [List.length_flatMap, List.length_flatMap]
  simp only [List.length_map]
  have : sel.refs.map (fun r => r.inf.length) = (sel.refs.zipIdx.map Prod.fst).map fun r => r.inf.length := by
    rw [List.zipIdx_map_fst]
  rw [this, List.map_map]
  rfl

/-- Every coefficient vector comes from rotary coefficients of the names. -/
theorem exists_nameCoef {tref : ℝ} {sel : Sel} (h : SelAligned tref sel) (hn : sel.name.Nodup) (trend : Bool)
    (m : List ℂ) (hm : m.length = numCols trend sel) :
    ∃ (P M : String → ℂ) (mean slope : ℂ), TiedBy sel InfCon.Rp P ∧ TiedBy sel InfCon.Rm M ∧
      m = nameCoef sel trend P M mean slope := by
  obtain ⟨a, b, c, d, e, f, hb⟩ := exists_blocks sel trend m hm
  have hnr : sel.nrName.length = sel.nNR := by rw [h.nrName, List.length_map, h.nNR]
  have hnames := h.names
  have key : ∀ (R : InfCon → ℂ) (x y : List ℂ), x.length = sel.nNR → y.length = sel.nR →
      ∃ P, sel.nrName.map P = x ∧ (sel.refs.map fun r => P r.name) = y ∧ TiedBy sel R P := by
    intro R x y hx hy
    obtain ⟨P, hP⟩ := exists_fun_map sel.name hn (x ++ y ++ inferredCoef sel R (x ++ y)) (by
      rw [hnames]
      simp only [List.length_append, List.length_map, inferredCoef_length, hx, hy, hnr, h.nR])
    rw [hnames, List.map_append, List.map_append] at hP
    obtain ⟨h1, h2⟩ := List.append_inj hP (by simp [hnr, hx, hy, h.nR])
    obtain ⟨h3, h4⟩ := List.append_inj h1 (by simp [hnr, hx])
    rw [List.map_map] at h4
    refine ⟨P, h3, h4, tied_of_map R P x hx ?_⟩
    rw [h2]
    congr 2
    exact h4.symm
  obtain ⟨P, p1, p2, p3⟩ := key InfCon.Rp a c hb.a hb.c
  obtain ⟨M, m1, m2, m3⟩ := key InfCon.Rm b d hb.b hb.d
  refine ⟨P, M, e, f.getD 0 0, p3, m3, ?_⟩
  unfold nameCoef
  rw [p1, p2, m1, m2, hb.eq]
  congr 1
  have := hb.f
  cases trend with
  | false => simpa using this
  | true =>
    simp only [if_true] at this ⊢
    obtain ⟨x, rfl⟩ := List.length_eq_one_iff.1 this
    rfl

theorem nameCoef_meanOf {tref : ℝ} {sel : Sel} (h : SelAligned tref sel) (td notrend : Bool) (lor : ℝ)
    (P M : String → ℂ) (mean slope : ℂ) :
    meanOf td notrend lor (numCols (!notrend) sel) (nameCoef sel (!notrend) P M mean slope) =
      if td then .two mean.re mean.im (if notrend then none else some (slope.re / lor, slope.im / lor))
      else .one mean.re (if notrend then none else some (slope.re / lor)) := by
  have hb := nameCoef_blocks h (!notrend) P M mean slope
  unfold meanOf numCols
  cases notrend with
  | true => simp only [if_true]; rw [hb.mean _ (by simp)]
  | false =>
    have h1 := hb.slope (2 * (sel.nNR + sel.nR) + 1) rfl
    simp only [Bool.not_false, if_true] at h1
    simp only [Bool.not_false, if_true, Bool.false_eq_true, if_false]
    have h2 := (List.cons.inj h1).1
    have h3 := hb.mean (2 * (sel.nNR + sel.nR)) rfl
    rw [Bool.not_false] at h3
    rw [show 2 * (sel.nNR + sel.nR) + 1 + 1 - 2 = 2 * (sel.nNR + sel.nR) by omega,
      show 2 * (sel.nNR + sel.nR) + 1 + 1 - 1 = 2 * (sel.nNR + sel.nR) + 1 by omega, ← h2, h3]

/-- Ellipses of named constituents. -/
theorem ellOf_map {α : Type} (td : Bool) (l : List α) (P M : α → ℂ) : ellOf td (l.map P) (l.map M) =
    if td then .two (l.map fun n => (ell2 (P n) (M n)).Lsmaj) (l.map fun n => (ell2 (P n) (M n)).Lsmin)
      (l.map fun n => (ell2 (P n) (M n)).theta) (l.map fun n => (ell2 (P n) (M n)).g)
    else .one (l.map fun n => (ell1 (P n) (M n)).Lsmaj) (l.map fun n => (ell1 (P n) (M n)).g) := by
  unfold ellOf
  simp only [zipWith_map_same, List.map_map]
  rfl

theorem ellOf_map_permute {α : Type} (td : Bool) (l : List α) (P M : α → ℂ) (ind : List ℕ) :
    (ellOf td (l.map P) (l.map M)).permute ind = ellOf td ((gather l ind).map P) ((gather l ind).map M) := by
  rw [ellOf_map, ellOf_map]
  cases td
  · simp only [Bool.false_eq_true, if_false, EllArr.permute, gather_map]
  · simp only [if_true, EllArr.permute, gather_map]

end

end UTide
