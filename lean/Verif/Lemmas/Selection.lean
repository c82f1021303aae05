import Verif.Model.Selection
import Verif.Lemmas.Dict
import Verif.Lemmas.Options
import Verif.Lemmas.Harmonics
import Mathlib.Data.List.Forall2
import Mathlib.Data.List.Perm.Basic
import Mathlib.Data.List.Range

/-!
# Lemmas about constituent selection
-/

namespace UTide

/-! ## `mapM` over exceptions -/

theorem mapM_ok {α β : Type} (f : α → Except PyErr β) (l : List α) (r : List β) :
    l.mapM f = .ok r ↔ List.Forall₂ (fun a b => f a = .ok b) l r := by
  induction l generalizing r with
  | nil =>
    rw [List.mapM_nil, pure_eq_ok]
    constructor
    · intro h; cases h; exact .nil
    · intro h; cases h; rfl
  | cons a l ih =>
    rw [List.mapM_cons, bind_eq_ok]
    constructor
    · rintro ⟨b, hb, h⟩
      rw [bind_eq_ok] at h
      obtain ⟨bs, hbs, h⟩ := h
      rw [pure_eq_ok] at h
      cases h
      exact .cons hb ((ih bs).1 hbs)
    · intro h
      cases h with
      | cons hb hbs => exact ⟨_, hb, (bind_eq_ok _ _ _).2 ⟨_, (ih _).2 hbs, rfl⟩⟩

theorem mapM_error {α β : Type} (f : α → Except PyErr β) (l : List α) (e : PyErr)
    (h : l.mapM f = .error e) : ∃ a ∈ l, f a = .error e := by
  induction l with
  | nil => rw [List.mapM_nil, pure_eq_ok] at h; cases h
  | cons a l ih =>
    rw [List.mapM_cons, bind_eq_error] at h
    rcases h with h | ⟨b, hb, h⟩
    · exact ⟨a, by simp, h⟩
    · rw [bind_eq_error] at h
      rcases h with h | ⟨bs, hbs, h⟩
      · obtain ⟨x, hx, he⟩ := ih h
        exact ⟨x, List.mem_cons_of_mem _ hx, he⟩
      · rw [pure_eq_ok] at h; cases h

theorem mapM_total {α β : Type} (f : α → Except PyErr β) (l : List α)
    (h : ∀ a ∈ l, ∃ b, f a = .ok b) : ∃ r, l.mapM f = .ok r := by
  induction l with
  | nil => exact ⟨[], rfl⟩
  | cons a l ih =>
    obtain ⟨b, hb⟩ := h a (by simp)
    obtain ⟨r, hr⟩ := ih fun x hx => h x (List.mem_cons_of_mem _ hx)
    exact ⟨b :: r, (mapM_ok f _ _).2 (.cons hb ((mapM_ok f _ _).1 hr))⟩

theorem mapM_map {α β γ : Type} (f : α → Except PyErr β) (g : β → γ) (g' : α → γ) (l : List α) (r : List β)
    (h : l.mapM f = .ok r) (hg : ∀ a ∈ l, ∀ b, f a = .ok b → g b = g' a) : r.map g = l.map g' := by
  rw [mapM_ok] at h
  induction h with
  | nil => rfl
  | cons hab _ ih =>
    rw [List.map_cons, List.map_cons, hg _ (by simp) _ hab, ih fun a ha b hb =>
      hg a (List.mem_cons_of_mem _ ha) b hb]

theorem mapM_mem {α β : Type} (f : α → Except PyErr β) (l : List α) (r : List β) (h : l.mapM f = .ok r)
    (a : α) (ha : a ∈ l) : ∃ b ∈ r, f a = .ok b := by
  rw [mapM_ok] at h
  induction h with
  | nil => cases ha
  | cons hab _ ih =>
    rcases List.mem_cons.1 ha with rfl | ha
    · exact ⟨_, by simp, hab⟩
    · obtain ⟨b, hb, e⟩ := ih ha
      exact ⟨b, List.mem_cons_of_mem _ hb, e⟩

theorem mapM_mem' {α β : Type} (f : α → Except PyErr β) (l : List α) (r : List β) (h : l.mapM f = .ok r)
    (b : β) (hb : b ∈ r) : ∃ a ∈ l, f a = .ok b := by
  rw [mapM_ok] at h
  induction h with
  | nil => cases hb
  | cons hab _ ih =>
    rcases List.mem_cons.1 hb with rfl | hb
    · exact ⟨_, by simp, hab⟩
    · obtain ⟨a, ha, e⟩ := ih hb
      exact ⟨a, List.mem_cons_of_mem _ ha, e⟩

theorem mapM_length {α β : Type} (f : α → Except PyErr β) (l : List α) (r : List β) (h : l.mapM f = .ok r) :
    r.length = l.length := ((mapM_ok f l r).1 h).length_eq.symm

/-! ## Catalogue look-ups -/

theorem constitNames_getElem? (i : ℕ) : constitNames[i]? = catalogue[i]?.map Con.name := by
  unfold constitNames; rw [List.getElem?_map]

theorem nameAt_eq {i : ℕ} {n : String} (h : constitNames[i]? = some n) : nameAt i = n := by
  rw [constitNames_getElem?, Option.map_eq_some_iff] at h
  obtain ⟨c, hc, rfl⟩ := h
  unfold nameAt
  rw [hc]

theorem constitNames_length : constitNames.length = 146 := by
  unfold constitNames; rw [List.length_map, catalogue_length]

theorem constitNames_nameAt {i : ℕ} (h : i < 146) : constitNames[i]? = some (nameAt i) := by
  have h' : i < constitNames.length := by rw [constitNames_length]; exact h
  have := List.getElem?_eq_getElem h'
  rw [this, nameAt_eq this]

theorem Dict.get?_iff_mem {V : Type} (d : Dict V) (hd : d.keys.Nodup) (k : String) (v : V) :
    d.get? k = some v ↔ (k, v) ∈ d := by
  refine ⟨Dict.get?_mem, fun h => ?_⟩
  induction d with
  | nil => cases h
  | cons p d ih =>
    obtain ⟨a, b⟩ := p
    simp only [keys, List.map_cons, List.nodup_cons] at hd
    rw [get?_cons]
    rcases List.mem_cons.1 h with h | h
    · cases h; rw [if_pos rfl]
    · have : a ≠ k := by
        rintro rfl
        exact hd.1 (List.mem_map.2 ⟨_, h, rfl⟩)
      rw [if_neg this]
      exact ih hd.2 h

theorem zipIdx_keys : Dict.keys constitNames.zipIdx = constitNames := by
  unfold Dict.keys
  exact List.zipIdx_map_fst 0 constitNames

theorem get?_constitIndexDict (n : String) (i : ℕ) :
    constitIndexDict.get? n = some i ↔ constitNames[i]? = some n := by
  have hnd : (Dict.keys constitNames.zipIdx).Nodup := by rw [zipIdx_keys]; exact names_nodup
  unfold constitIndexDict
  rw [Dict.get?_update _ _ hnd, Dict.get?_nil, Option.or_none, Dict.get?_iff_mem _ hnd,
    List.mem_zipIdx_iff_getElem?]

theorem constitIndex_ok (n : String) (i : ℕ) : constitIndex n = .ok i ↔ constitNames[i]? = some n := by
  rw [← get?_constitIndexDict]
  unfold constitIndex Dict.get
  split
  · rename_i v h; rw [h]; constructor <;> intro h' <;> simp_all
  · rename_i h; rw [h]; constructor <;> intro h' <;> cases h'

theorem constitIndex_error (n : String) (e : PyErr) :
    constitIndex n = .error e ↔ n ∉ constitNames ∧ e = .keyError := by
  have hmem : n ∈ constitNames ↔ ∃ i, constitIndexDict.get? n = some i := by
    simp only [get?_constitIndexDict]
    exact List.mem_iff_getElem?
  unfold constitIndex Dict.get
  split
  · rename_i v h
    constructor
    · intro h'; cases h'
    · rintro ⟨h', -⟩; exact absurd (hmem.2 ⟨v, h⟩) h'
  · rename_i h
    constructor
    · intro h'; cases h'
      refine ⟨fun hm => ?_, rfl⟩
      obtain ⟨i, hi⟩ := hmem.1 hm
      rw [h] at hi; cases hi
    · rintro ⟨-, rfl⟩; rfl

theorem constitIndex_lt {n : String} {i : ℕ} (h : constitIndex n = .ok i) : i < 146 := by
  rw [constitIndex_ok] at h
  rw [← constitNames_length]
  exact (List.getElem?_eq_some_iff.1 h).1

theorem nameAt_constitIndex {n : String} {i : ℕ} (h : constitIndex n = .ok i) : nameAt i = n :=
  nameAt_eq ((constitIndex_ok n i).1 h)

theorem constitIndex_nameAt {i : ℕ} (h : i < 146) : constitIndex (nameAt i) = .ok i :=
  (constitIndex_ok _ _).2 (constitNames_nameAt h)

/-! ## The parts of `ut_cnstitsel` -/

theorem mem_autoLind (minres : Fl) (i : ℕ) :
    i ∈ autoLind minres ↔ ∃ c, catalogue[i]? = some c ∧ minres ≤ Fl.fin c.df.toReal := by
  unfold autoLind
  simp only [List.mem_filterMap]
  constructor
  · rintro ⟨⟨c, j⟩, hm, h⟩
    rw [List.mem_zipIdx_iff_getElem?] at hm
    dsimp only at hm h
    split at h
    · rename_i hle; cases h; exact ⟨c, hm, hle⟩
    · cases h
  · rintro ⟨c, hc, hle⟩
    refine ⟨(c, i), (List.mem_zipIdx_iff_getElem?).2 hc, ?_⟩
    dsimp only
    rw [if_pos hle]

theorem autoLind_sorted (minres : Fl) : (autoLind minres).Pairwise (· < ·) := by
  unfold autoLind
  rw [List.pairwise_filterMap]
  have : catalogue.zipIdx.Pairwise fun a b => a.2 < b.2 := by
    have h := List.pairwise_lt_range' (s := 0) (n := catalogue.length)
    rw [← List.zipIdx_map_snd 0 catalogue, List.pairwise_map] at h
    exact h
  refine this.imp ?_
  intro a b hab x hx y hy
  split at hx
  · split at hy
    · cases hx; cases hy; exact hab
    · cases hy
  · cases hx

theorem autoLind_nodup (minres : Fl) : (autoLind minres).Nodup :=
  (autoLind_sorted minres).imp fun h => ne_of_lt h

/-- First appearances, in order. -/
def firsts : List String → List String
  | [] => []
  | a :: l => a :: (firsts l).filter fun b => b != a

theorem mem_firsts (l : List String) (a : String) : a ∈ firsts l ↔ a ∈ l := by
  induction l with
  | nil => simp [firsts]
  | cons b l ih =>
    simp only [firsts, List.mem_cons, List.mem_filter, ih, bne_iff_ne]
    by_cases h : a = b <;> simp [h]

theorem firsts_nodup (l : List String) : (firsts l).Nodup := by
  induction l with
  | nil => simp [firsts]
  | cons b l ih =>
    simp only [firsts, List.nodup_cons]
    exact ⟨by simp, ih.filter _⟩

theorem keys_update_firsts {V : Type} (d e : Dict V) :
    (Dict.update d e).keys = d.keys ++ (firsts e.keys).filter fun k => decide (k ∉ d.keys) := by
  induction e generalizing d with
  | nil => simp [Dict.keys, firsts]
  | cons p e ih =>
    rw [Dict.update_cons, ih, Dict.keys_set]
    have hk : Dict.keys (p :: e) = p.1 :: Dict.keys e := rfl
    rw [hk]
    simp only [firsts, List.filter_cons, List.filter_filter]
    split
    · rename_i hp
      simp only [hp, not_true, decide_false, Bool.false_eq_true, if_false]
      congr 1
      refine List.filter_congr fun x _ => ?_
      by_cases hx : x ∈ d.keys
      · simp [hx]
      · have : x ≠ p.1 := by rintro rfl; exact hx hp
        simp [hx, this]
    · rename_i hp
      simp only [hp, not_false_eq_true, decide_true, if_true, List.append_assoc, List.singleton_append]
      congr 2
      refine List.filter_congr fun x _ => ?_
      by_cases hx : x ∈ d.keys <;> simp [hx, bne, Bool.beq_eq_decide_eq]

theorem allRefs_eq (r : List String) : allRefs r = firsts r := by
  unfold allRefs
  rw [keys_update_firsts]
  simp [Dict.keys, Function.comp_def]

theorem mem_refPositions (r : List String) (n : String) (i : ℕ) :
    i ∈ refPositions r n ↔ r[i]? = some n := by
  unfold refPositions
  simp only [List.mem_map, List.mem_filter, beq_iff_eq]
  constructor
  · rintro ⟨⟨m, j⟩, ⟨hm, he⟩, hj⟩
    rw [List.mem_zipIdx_iff_getElem?] at hm
    dsimp only at hm he hj
    subst hj; rw [hm, he]
  · intro h
    exact ⟨(n, i), ⟨(List.mem_zipIdx_iff_getElem?).2 h, rfl⟩, rfl⟩

theorem refPositions_sorted (r : List String) (n : String) : (refPositions r n).Pairwise (· < ·) := by
  unfold refPositions
  rw [List.pairwise_map]
  apply List.Pairwise.filter
  have h := List.pairwise_lt_range' (s := 0) (n := r.length)
  rw [← List.zipIdx_map_snd 0 r, List.pairwise_map] at h
  exact h

theorem refPositions_flatMap_perm (r : List String) :
    ((firsts r).flatMap (refPositions r)).Perm (List.range r.length) := by
  rw [List.perm_ext_iff_of_nodup]
  · intro i
    simp only [List.mem_flatMap, mem_refPositions, mem_firsts, List.mem_range]
    constructor
    · rintro ⟨a, -, h⟩
      exact (List.getElem?_eq_some_iff.1 h).1
    · intro h
      exact ⟨r[i], List.getElem_mem h, List.getElem?_eq_getElem h⟩
  · rw [List.nodup_flatMap]
    refine ⟨fun a _ => (refPositions_sorted r a).imp fun h => ne_of_lt h, ?_⟩
    refine (firsts_nodup r).imp ?_
    intro a b hab
    rw [Function.onFun, List.disjoint_left]
    intro i hi hj
    rw [mem_refPositions] at hi hj
    rw [hi] at hj
    exact hab (Option.some.inj hj)
  · exact List.nodup_range

theorem getIdx_ok {α : Type} (l : List α) (i : ℕ) (a : α) : getIdx l i = .ok a ↔ l[i]? = some a := by
  unfold getIdx
  split
  · rename_i h; rw [h]; constructor <;> intro h' <;> simp_all
  · rename_i h; rw [h]; constructor <;> intro h' <;> cases h'

theorem startLind_ok (minres : Fl) (c : Constit) (l : List ℕ) (h : startLind minres c = .ok l) :
    (∀ i ∈ l, i < 146) ∧
    ((c = .auto ∧ l = autoLind minres) ∨ ∃ ns, c = .names ns ∧ l.map nameAt = ns) := by
  cases c with
  | auto =>
    unfold startLind at h
    cases h
    refine ⟨fun i hi => ?_, .inl ⟨rfl, rfl⟩⟩
    obtain ⟨c, hc, -⟩ := (mem_autoLind minres i).1 hi
    rw [← catalogue_length]
    exact (List.getElem?_eq_some_iff.1 hc).1
  | names ns =>
    unfold startLind at h
    refine ⟨?_, .inr ⟨ns, rfl, ?_⟩⟩
    · rw [mapM_ok] at h
      induction h with
      | nil => simp
      | cons hab _ ih =>
        intro i hi
        rcases List.mem_cons.1 hi with rfl | hi
        · exact constitIndex_lt hab
        · exact ih i hi
    · rw [mapM_map constitIndex nameAt id ns l h fun a _ b hb => nameAt_constitIndex hb, List.map_id]

theorem removeRI_ok (inf : Option InferSpec) (l l' : List ℕ) (h : removeRI inf l = .ok l') :
    (inf = none ∧ l' = l) ∨
    ∃ s, inf = some s ∧ (∀ n ∈ s.inferred ++ s.reference, n ∈ constitNames) ∧
      ∃ p : ℕ → Bool, l' = l.filter p ∧ ∀ i < 146, p i = true ↔ nameAt i ∉ s.inferred ++ s.reference := by
  cases inf with
  | none => unfold removeRI at h; cases h; exact .inl ⟨rfl, rfl⟩
  | some s =>
    unfold removeRI at h
    dsimp only at h
    rw [bind_eq_ok] at h
    obtain ⟨ri, hri, h⟩ := h
    rw [pure_eq_ok] at h
    cases h
    refine .inr ⟨s, rfl, ?_, _, rfl, ?_⟩
    · intro n hn
      obtain ⟨i, -, hi⟩ := mapM_mem _ _ _ hri n hn
      have := (constitIndex_ok _ _).1 hi
      exact List.mem_of_getElem? this
    · intro i hi
      rw [decide_eq_true_eq]
      apply not_congr
      rw [mapM_ok] at hri
      constructor
      · intro h
        obtain ⟨j, hj, rfl⟩ := List.mem_iff_getElem.1 h
        obtain ⟨hl, hg⟩ := List.forall₂_iff_get.1 hri
        have := hg j (hl ▸ hj) hj
        rw [List.get_eq_getElem, List.get_eq_getElem] at this
        rw [nameAt_constitIndex this]
        exact List.getElem_mem _
      · intro h
        obtain ⟨j, hj, e⟩ := List.mem_iff_getElem.1 h
        obtain ⟨hl, hg⟩ := List.forall₂_iff_get.1 hri
        have := hg j hj (hl ▸ hj)
        rw [List.get_eq_getElem, List.get_eq_getElem, e, constitIndex_nameAt hi] at this
        cases this
        exact List.getElem_mem _

theorem mkInf_ok (s : InferSpec) (tref : ℝ) (ilk : ℕ) (c : InfCon) (h : mkInf s tref ilk = .ok c) :
    ∃ a ph, s.amp[ilk]? = some a ∧ s.phase[ilk]? = some ph ∧
      c.Rp = (a : ℂ) * Complex.exp (Complex.I * (ph : ℂ) * Real.pi / 180) ∧
      (s.inferred.length < s.amp.length → ∃ a' ph', s.amp[ilk + s.inferred.length]? = some a' ∧
        s.phase[ilk + s.inferred.length]? = some ph' ∧
        c.Rm = (a' : ℂ) * Complex.exp (-Complex.I * (ph' : ℂ) * Real.pi / 180)) ∧
      (s.amp.length ≤ s.inferred.length → c.Rm = (starRingEnd ℂ) c.Rp) ∧
      s.inferred[ilk]? = some c.name ∧ constitIndex c.name = .ok c.lind ∧
      c.frq = linFreqs tref c.lind := by
  unfold mkInf at h
  simp only [bind_eq_ok, getIdx_ok] at h
  obtain ⟨a, ha, ph, hph, Rm, hRm, iname, hin, lind, hl, h⟩ := h
  rw [pure_eq_ok] at h
  cases h
  refine ⟨a, ph, ha, hph, rfl, ?_, ?_, hin, hl, rfl⟩
  · intro hlen
    unfold inferRm at hRm
    rw [if_pos hlen] at hRm
    simp only [bind_eq_ok, getIdx_ok] at hRm
    obtain ⟨a', ha', ph', hph', h⟩ := hRm
    rw [pure_eq_ok] at h
    cases h
    exact ⟨a', ph', ha', hph', rfl⟩
  · intro hlen
    unfold inferRm at hRm
    rw [if_neg (not_lt.2 hlen)] at hRm
    cases hRm
    rfl

theorem mkRef_ok (s : InferSpec) (tref : ℝ) (n : String) (r : RefCon) (h : mkRef s tref n = .ok r) :
    r.name = n ∧ constitIndex n = .ok r.lind ∧ r.frq = linFreqs tref r.lind ∧
      (refPositions s.reference n).mapM (mkInf s tref) = .ok r.inf := by
  unfold mkRef at h
  simp only [bind_eq_ok] at h
  obtain ⟨lind, hl, inf, hi, h⟩ := h
  rw [pure_eq_ok] at h
  cases h
  exact ⟨rfl, hl, rfl, hi⟩

/-- Everything `ut_cnstitsel` returns is aligned. -/
structure SelAligned (tref : ℝ) (s : Sel) : Prop where
  lt : ∀ i ∈ s.lind, i < 146
  name : s.name = s.lind.map nameAt
  frq : s.frq = s.lind.map (linFreqs tref)
  nr_lt : ∀ i ∈ s.nrLind, i < 146
  nrName : s.nrName = s.nrLind.map nameAt
  nrFrq : s.nrFrq = s.nrLind.map (linFreqs tref)
  ref : ∀ r ∈ s.refs, r.lind < 146 ∧ r.name = nameAt r.lind ∧ r.frq = linFreqs tref r.lind ∧
    ∀ c ∈ r.inf, c.lind < 146 ∧ c.name = nameAt c.lind ∧ c.frq = linFreqs tref c.lind
  lind_eq : s.lind = s.nrLind ++ s.refs.map RefCon.lind ++ s.refs.flatMap fun r => r.inf.map InfCon.lind
  nNR : s.nNR = s.nrLind.length
  nR : s.nR = s.refs.length

theorem cnstitsel_aligned (tref : ℝ) (minres : Fl) (c : Constit) (inf : Option InferSpec) (s : Sel)
    (h : cnstitsel tref minres c inf = .ok s) : SelAligned tref s := by
  unfold cnstitsel at h
  simp only [bind_eq_ok] at h
  obtain ⟨l0, hl0, l, hl, h⟩ := h
  have hlt : ∀ i ∈ l, i < 146 := by
    obtain ⟨h0, -⟩ := startLind_ok _ _ _ hl0
    rcases removeRI_ok _ _ _ hl with ⟨-, rfl⟩ | ⟨_, -, -, p, rfl, -⟩
    · exact h0
    · exact fun i hi => h0 i (List.mem_of_mem_filter hi)
  cases inf with
  | none =>
    dsimp only at h
    rw [pure_eq_ok] at h
    cases h
    exact ⟨hlt, rfl, rfl, hlt, rfl, rfl, by simp, by simp, by simp, rfl⟩
  | some sp =>
    dsimp only at h
    rw [bind_eq_ok] at h
    obtain ⟨refs, hrefs, h⟩ := h
    rw [pure_eq_ok] at h
    cases h
    have hr : ∀ r ∈ refs, r.lind < 146 ∧ r.name = nameAt r.lind ∧ r.frq = linFreqs tref r.lind ∧
        ∀ c ∈ r.inf, c.lind < 146 ∧ c.name = nameAt c.lind ∧ c.frq = linFreqs tref c.lind := by
      intro r hrm
      obtain ⟨n, -, hn⟩ : ∃ n, n ∈ allRefs sp.reference ∧ mkRef sp tref n = .ok r := by
        rw [mapM_ok] at hrefs
        obtain ⟨hle, hg⟩ := List.forall₂_iff_get.1 hrefs
        obtain ⟨j, hj, rfl⟩ := List.mem_iff_getElem.1 hrm
        exact ⟨_, List.getElem_mem _, hg j (hle ▸ hj) hj⟩
      obtain ⟨h1, h2, h3, h4⟩ := mkRef_ok _ _ _ _ hn
      refine ⟨constitIndex_lt h2, by rw [h1, nameAt_constitIndex h2], h3, ?_⟩
      intro c hc
      rw [mapM_ok] at h4
      obtain ⟨hle, hg⟩ := List.forall₂_iff_get.1 h4
      obtain ⟨j, hj, rfl⟩ := List.mem_iff_getElem.1 hc
      obtain ⟨a, ph, -, -, -, -, -, -, hci, hf⟩ := mkInf_ok _ _ _ _ (hg j (hle ▸ hj) hj)
      rw [List.get_eq_getElem] at hci hf
      exact ⟨constitIndex_lt hci, (nameAt_constitIndex hci).symm, hf⟩
    have hnames : refs.map RefCon.name = allRefs sp.reference := by
      rw [mapM_map (mkRef sp tref) RefCon.name id _ refs hrefs fun a _ b hb => (mkRef_ok _ _ _ _ hb).1,
        List.map_id]
    refine ⟨?_, ?_, ?_, hlt, rfl, rfl, hr, rfl, by simp, ?_⟩
    · intro i hi
      simp only [List.mem_append, List.mem_map, List.mem_flatMap] at hi
      rcases hi with (hi | ⟨r, hr', rfl⟩) | ⟨r, hr', c, hc, rfl⟩
      · exact hlt i hi
      · exact (hr r hr').1
      · exact ((hr r hr').2.2.2 c hc).1
    · simp only [List.map_append, List.map_map, List.map_flatMap]
      rw [← hnames]
      congr 1
      · congr 1
        exact List.map_congr_left fun r hr' => (hr r hr').2.1
      · exact List.flatMap_congr fun r hr' => by
          exact List.map_congr_left fun c hc => ((hr r hr').2.2.2 c hc).2.1
    · simp only [List.map_append, List.map_map, List.map_flatMap]
      congr 1
      · congr 1
        exact List.map_congr_left fun r hr' => (hr r hr').2.2.1
      · exact List.flatMap_congr fun r hr' => by
          exact List.map_congr_left fun c hc => ((hr r hr').2.2.2 c hc).2.2
    · dsimp only
      rw [← hnames, List.length_map]

/-- The result without inference. -/
theorem cnstitsel_none (tref : ℝ) (minres : Fl) (c : Constit) (s : Sel)
    (h : cnstitsel tref minres c none = .ok s) :
    startLind minres c = .ok s.lind ∧ s.nrLind = s.lind ∧ s.refs = [] ∧ s.nI = 0 := by
  unfold cnstitsel at h
  simp only [bind_eq_ok] at h
  obtain ⟨l0, hl0, l, hl, h⟩ := h
  rw [pure_eq_ok] at h
  cases h
  unfold removeRI at hl
  cases hl
  exact ⟨hl0, rfl, rfl, rfl⟩

/-- The result with inference. -/
theorem cnstitsel_some (tref : ℝ) (minres : Fl) (c : Constit) (sp : InferSpec) (s : Sel)
    (h : cnstitsel tref minres c (some sp) = .ok s) :
    ∃ l0, startLind minres c = .ok l0 ∧
      (∃ p : ℕ → Bool, s.nrLind = l0.filter p ∧
        ∀ i < 146, p i = true ↔ nameAt i ∉ sp.inferred ++ sp.reference) ∧
      (∀ n ∈ sp.inferred ++ sp.reference, n ∈ constitNames) ∧
      s.nI = sp.inferred.length ∧
      (firsts sp.reference).mapM (mkRef sp tref) = .ok s.refs ∧
      s.name = s.nrName ++ firsts sp.reference ++ s.refs.flatMap fun r => r.inf.map InfCon.name := by
  unfold cnstitsel at h
  simp only [bind_eq_ok] at h
  obtain ⟨l0, hl0, l, hl, refs, hrefs, h⟩ := h
  rw [pure_eq_ok] at h
  cases h
  rcases removeRI_ok _ _ _ hl with ⟨h, -⟩ | ⟨_, h, hk, hp⟩
  · cases h
  · cases h
    rw [← allRefs_eq]
    exact ⟨l0, hl0, hp, hk, rfl, hrefs, rfl⟩

theorem refPositions_map {β : Type} (r : List String) (xs : List β) (hlen : xs.length = r.length)
    (n : String) : (refPositions r n).filterMap (fun i => xs[i]?) =
      ((r.zip xs).filter fun p => n == p.1).map Prod.snd := by
  have hzip : r.zip xs = (r.zipIdx).filterMap fun p => xs[p.2]?.map fun x => (p.1, x) := by
    apply List.ext_getElem?
    intro i
    have hfm : (r.zipIdx).filterMap (fun p => xs[p.2]?.map fun x => (p.1, x)) =
        (r.zipIdx).pmap (fun p (hp : p.2 < xs.length) => (p.1, xs[p.2])) (by
          intro p hp
          have := List.mem_zipIdx' hp
          rw [hlen]; exact this.1) := by
      have key : ∀ (l : List (String × ℕ)) (hl : ∀ p ∈ l, p.2 < xs.length),
          l.filterMap (fun p => xs[p.2]?.map fun x => (p.1, x)) =
          l.pmap (fun p (hp : p.2 < xs.length) => (p.1, xs[p.2])) hl := by
        intro l hl
        induction l with
        | nil => rfl
        | cons a l ih =>
          rw [List.filterMap_cons, List.getElem?_eq_getElem (hl a (by simp))]
          simp only [Option.map_some, List.pmap_cons, List.cons.injEq, true_and]
          exact ih fun p hp => hl p (List.mem_cons_of_mem _ hp)
      exact key _ _
    rw [hfm, List.getElem?_pmap]
    simp only [List.getElem?_zipIdx, List.getElem?_zip_eq_some]
    by_cases hi : i < r.length
    · have hi' : i < xs.length := by omega
      rw [List.getElem?_eq_getElem (by simp [hi, hi'])]
      simp [hi]
    · rw [List.getElem?_eq_none (by simp; omega)]
      simp [hi]
  unfold refPositions
  rw [hzip, List.filterMap_map, List.filter_filterMap, List.map_filterMap, List.filterMap_filter]
  refine List.filterMap_congr fun p _ => ?_
  simp only [Function.comp_apply]
  cases xs[p.2]? with
  | none => simp
  | some x =>
    by_cases h : n = p.1 <;> simp [Option.guard, h]

end UTide
