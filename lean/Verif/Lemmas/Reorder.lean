import Verif.Lemmas.Total

/-!
# Re-ordering and what it leaves alone
-/

namespace UTide

noncomputable section

/-! ## `gather` -/

@[simp] theorem gather_nil_right {α : Type} (l : List α) : gather l [] = [] := rfl

theorem gather_cons {α : Type} (l : List α) (i : ℕ) (ind : List ℕ) (h : i < l.length) :
    gather l (i :: ind) = l[i] :: gather l ind := by
  unfold gather
  rw [List.filterMap_cons, List.getElem?_eq_getElem h]

theorem gather_length {α : Type} (l : List α) (ind : List ℕ) (h : ∀ i ∈ ind, i < l.length) :
    (gather l ind).length = ind.length := by
  induction ind with
  | nil => rfl
  | cons i ind ih =>
    rw [gather_cons l i ind (h i (by simp)), List.length_cons, List.length_cons, ih fun j hj => h j (by simp [hj])]

theorem gather_getElem? {α : Type} (l : List α) (ind : List ℕ) (h : ∀ i ∈ ind, i < l.length) (j : ℕ) :
    (gather l ind)[j]? = ind[j]?.bind (l[·]?) := by
  induction ind generalizing j with
  | nil => simp
  | cons i ind ih =>
    rw [gather_cons l i ind (h i (by simp))]
    cases j with
    | zero => simp [List.getElem?_eq_getElem (h i (by simp))]
    | succ j => simpa using ih (fun k hk => h k (by simp [hk])) j

theorem gather_map {α β : Type} (f : α → β) (l : List α) (ind : List ℕ) :
    gather (l.map f) ind = (gather l ind).map f := by
  unfold gather
  rw [List.map_filterMap]
  congr 1
  funext i
  rw [List.getElem?_map]

theorem gather_zipWith {α β γ : Type} (f : α → β → γ) (l : List α) (l' : List β) (hl : l.length = l'.length)
    (ind : List ℕ) : gather (List.zipWith f l l') ind = List.zipWith f (gather l ind) (gather l' ind) := by
  induction ind with
  | nil => simp
  | cons i ind ih =>
    by_cases h : i < l.length
    · rw [gather_cons l i ind h, gather_cons l' i ind (by omega), gather_cons _ i ind (by simp; omega),
        List.zipWith_cons_cons, ih]
      simp
    · have h1 : l[i]? = none := by simp; omega
      have h2 : l'[i]? = none := by simp; omega
      have h3 : (List.zipWith f l l')[i]? = none := by simp; omega
      unfold gather at ih ⊢
      rw [List.filterMap_cons, List.filterMap_cons, List.filterMap_cons, h1, h2, h3]
      exact ih

theorem gather_range {α : Type} (l : List α) : gather l (List.range l.length) = l := by
  apply List.ext_getElem?
  intro j
  rw [gather_getElem? _ _ (by simp)]
  by_cases h : j < l.length
  · rw [List.getElem?_range h]; rfl
  · rw [List.getElem?_eq_none (by simp; omega), List.getElem?_eq_none (by omega)]; rfl

theorem gather_gather {α : Type} (l : List α) (ind ind' : List ℕ) (h : ∀ i ∈ ind, i < l.length) :
    gather (gather l ind) ind' = gather l (gather ind ind') := by
  have h1 : ∀ j, (gather l ind)[j]? = ind[j]?.bind (l[·]?) := gather_getElem? l ind h
  have hf : (fun j => (gather l ind)[j]?) = fun j => ind[j]?.bind (l[·]?) := funext h1
  conv_lhs => unfold gather
  unfold gather at hf
  rw [hf]
  unfold gather
  rw [List.filterMap_filterMap]

theorem gather_perm_perm {α : Type} (l : List α) {ind ind' : List ℕ} (h : ind.Perm ind') :
    (gather l ind).Perm (gather l ind') := h.filterMap _

theorem gather_perm {α : Type} (l : List α) {ind : List ℕ} (h : ind.Perm (List.range l.length)) :
    (gather l ind).Perm l := by
  have := gather_perm_perm l h
  rwa [gather_range] at this

theorem perm_range_lt {ind : List ℕ} {n : ℕ} (h : ind.Perm (List.range n)) : ∀ i ∈ ind, i < n := by
  intro i hi
  simpa using h.mem_iff.1 hi

theorem gather_mem {α : Type} (l : List α) (ind : List ℕ) (a : α) (h : a ∈ gather l ind) : a ∈ l := by
  unfold gather at h
  rw [List.mem_filterMap] at h
  obtain ⟨i, -, hi⟩ := h
  exact List.mem_of_getElem? hi

/-! ## The parts of a result -/

/-- All per-constituent arrays have length `n`. -/
def EllArr.Len (n : ℕ) : EllArr → Prop
  | .one A g => A.length = n ∧ g.length = n
  | .two a b c d => a.length = n ∧ b.length = n ∧ c.length = n ∧ d.length = n
def CiArr.Len (n : ℕ) : CiArr → Prop
  | .one A g => A.length = n ∧ g.length = n
  | .two a b c d => a.length = n ∧ b.length = n ∧ c.length = n ∧ d.length = n

/-- `coef` with all per-constituent arrays indexed by `ind`. -/
def Coef.permute (ind : List ℕ) (c : Coef) : Coef :=
  { c with
    name := gather c.name ind
    ell := c.ell.permute ind
    ci := c.ci.map (CiArr.permute ind)
    PE := c.PE.map (gather · ind)
    SNR := c.SNR.map (gather · ind)
    frq := gather c.frq ind
    lind := gather c.lind ind }

theorem reorder_ok (E : Env) (c : Coef) (o : Order) (c' : Coef) :
    reorder E c o = .ok c' ↔ ∃ c2 ind, orderIndex E c o = .ok (c2, ind) ∧ c' = c2.permute ind := by
  unfold reorder
  simp only [bind_eq_ok, pure_eq_ok, Except.ok.injEq, Prod.exists]
  constructor
  · rintro ⟨a, b, h, rfl⟩; exact ⟨a, b, h, rfl⟩
  · rintro ⟨a, b, h, rfl⟩; exact ⟨a, b, h, rfl⟩

/-- What `orderIndex` does to `coef`: it may fill in `PE`. -/
theorem orderIndex_coef (E : Env) (c : Coef) (o : Order) (c2 : Coef) (ind : List ℕ)
    (h : orderIndex E c o = .ok (c2, ind)) :
    c2 = { c with PE := c2.PE } ∧ (o = .PE → c2.PE = some (c.PE.getD (pe c.ell))) ∧ (o ≠ .PE → c2.PE = c.PE) := by
  unfold orderIndex at h
  cases o with
  | PE =>
    simp only [Except.ok.injEq, Prod.mk.injEq] at h
    obtain ⟨rfl, -⟩ := h
    exact ⟨rfl, fun _ => rfl, fun h => absurd rfl h⟩
  | frequency =>
    simp only [Except.ok.injEq, Prod.mk.injEq] at h
    obtain ⟨rfl, -⟩ := h
    exact ⟨rfl, fun h => by simp at h, fun _ => rfl⟩
  | SNR =>
    simp only at h
    split at h
    · simp only [Except.ok.injEq, Prod.mk.injEq] at h
      obtain ⟨rfl, -⟩ := h
      exact ⟨rfl, fun h => by simp at h, fun _ => rfl⟩
    · simp at h
  | names l =>
    simp only [bind_eq_ok, pure_eq_ok, Except.ok.injEq, Prod.mk.injEq] at h
    obtain ⟨_, -, rfl, -⟩ := h
    exact ⟨rfl, fun h => by simp at h, fun _ => rfl⟩

/-- The scalar fields of a result. -/
structure SameHead (c c' : Coef) : Prop where
  mean : c'.mean = c.mean
  reftime : c'.reftime = c.reftime
  lat : c'.lat = c.lat
  opt : c'.opt = c.opt
  nR : c'.nR = c.nR
  nNR : c'.nNR = c.nNR
  nI : c'.nI = c.nI
  weights : c'.weights = c.weights
  rf : c'.rf = c.rf

theorem SameHead.trans {a b c : Coef} (h : SameHead a b) (h' : SameHead b c) : SameHead a c := by
  obtain ⟨h1, h2, h3, h4, h5, h6, h7, h8, h9⟩ := h
  obtain ⟨g1, g2, g3, g4, g5, g6, g7, g8, g9⟩ := h'
  constructor <;> simp_all

theorem reorder_head (E : Env) (c : Coef) (o : Order) (c' : Coef) (h : reorder E c o = .ok c') :
    SameHead c c' := by
  obtain ⟨c2, ind, h1, rfl⟩ := (reorder_ok E c o c').1 h
  obtain ⟨h2, -, -⟩ := orderIndex_coef E c o c2 ind h1
  rw [h2]
  constructor <;> rfl

theorem stageConf_ok (E : Env) (p : Prep) (m : List ℂ) (W : List ℝ) (c c1 : Coef)
    (h : stageConf E p m W c = .ok c1) : c1 = { c with ci := c1.ci } ∧
      ((p.opt.confInt = false ∧ c1 = c) ∨
       (p.opt.confInt = true ∧ ∃ ci, confidence E.num (confIn p m W) = .ok ci ∧ c1.ci = some ci)) := by
  unfold stageConf at h
  split at h
  · next hc =>
    simp only [bind_eq_ok, pure_eq_ok, Except.ok.injEq] at h
    obtain ⟨ci, hci, rfl⟩ := h
    exact ⟨rfl, .inr ⟨hc, ci, hci, rfl⟩⟩
  · next hc =>
    have := Except.ok.inj h
    subst this
    exact ⟨rfl, .inl ⟨by simpa using hc, rfl⟩⟩

theorem stageDiagn_ok (E : Env) (p : Prep) (c c2 : Coef) (h : stageDiagn E p c = .ok c2) :
    (p.opt.nodiagn = true ∧ c2 = c) ∨
    (p.opt.nodiagn = false ∧ ∃ s, snr c.ell c.ci = .ok s ∧
      c2 = { c with
        diagn := some ⟨gather c.name (E.num.argsort (pe c.ell)).reverse,
          gather (pe c.ell) (E.num.argsort (pe c.ell)).reverse, gather s (E.num.argsort (pe c.ell)).reverse⟩
        PE := some (pe c.ell), SNR := some s }) := by
  unfold stageDiagn at h
  split at h
  · next hc =>
    have := Except.ok.inj h
    exact .inl ⟨hc, this.symm⟩
  · next hc =>
    unfold addDiagn at h
    simp only [bind_eq_ok, pure_eq_ok, Except.ok.injEq] at h
    obtain ⟨s, hs, rfl⟩ := h
    exact .inr ⟨by simpa using hc, s, hs, rfl⟩

theorem SolOk.head {E : Env} {p : Prep} {m : List ℂ} {W : List ℝ} {rf : Option RobOut} {c1 c2 c : Coef}
    {o : Order} (h : SolOk E p m W rf c1 c2 c o) : SameHead (rawCoef p m W rf) c := by
  have h1 := (stageConf_ok _ _ _ _ _ _ h.conf).1
  have h2 : SameHead (rawCoef p m W rf) c1 := by rw [h1]; constructor <;> rfl
  have h3 : SameHead c1 c2 := by
    rcases stageDiagn_ok _ _ _ _ h.diagn with ⟨-, rfl⟩ | ⟨-, s, -, rfl⟩ <;> constructor <;> rfl
  exact (h2.trans h3).trans (reorder_head _ _ _ _ h.reorder)

end

end UTide
