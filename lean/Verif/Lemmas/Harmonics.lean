import Verif.Model.Harmonics
import Verif.Model.Constants
import Mathlib.Algebra.BigOperators.Group.List.Basic

/-!
# Facts about the catalogue and the loops over compounds
-/

namespace UTide

/-! ## Catalogue facts (by kernel evaluation of the complete table) -/

theorem catalogue_length : catalogue.length = 146 := by decide +kernel

theorem names_nodup : constitNames.Nodup := by decide +kernel

theorem freq_increasing : (catalogue.map Con.freq).Pairwise fun a b => a.lt b = true := by
  decide +kernel

/-- Position of the constituent `M7`. -/
def M7 : ℕ := 117

theorem shallowRows_keys_nodup : (shallowRows.map Prod.fst).Nodup := by decide +kernel

/-- Is entry `k` a primary constituent? -/
def isPrimary (k : ℕ) : Bool := match kindOf k with
  | some (.primary _ _) => true
  | _ => false

theorem parents_primary_bool :
    (shallowRows.all fun r => r.2.all fun p => isPrimary p.1) = true := by decide +kernel

theorem weights_integer_bool :
    (shallowRows.all fun r => r.1 == M7 || r.2.all fun p => p.2.exp == 0) = true := by decide +kernel

theorem m7_parts_bool : kindOf M7 = some (.shallow [(47, ⟨7, 1⟩)]) := by rfl

theorem mem_shallowRows (k : ℕ) (parts : List (ℕ × Dy)) :
    (k, parts) ∈ shallowRows ↔ kindOf k = some (.shallow parts) := by
  unfold shallowRows kindOf
  simp only [List.mem_filterMap, Option.map_eq_some_iff]
  constructor
  · rintro ⟨⟨c, i⟩, hm, h⟩
    rw [List.mem_zipIdx_iff_getElem?] at hm
    dsimp only at hm h
    split at h
    · rename_i p hk
      cases h
      exact ⟨c, hm, hk⟩
    · cases h
  · rintro ⟨c, hc, hk⟩
    refine ⟨(c, k), ?_, ?_⟩
    · rw [List.mem_zipIdx_iff_getElem?]; exact hc
    · dsimp only; rw [hk]

theorem kindOf_parent {k : ℕ} {parts : List (ℕ × Dy)} (h : kindOf k = some (.shallow parts))
    {p : ℕ × Dy} (hp : p ∈ parts) : ∃ d s, kindOf p.1 = some (.primary d s) := by
  have := List.all_eq_true.1 parents_primary_bool _ ((mem_shallowRows k parts).2 h)
  have := List.all_eq_true.1 this p hp
  unfold isPrimary at this
  split at this
  · rename_i d s hk; exact ⟨d, s, hk⟩
  · cases this

theorem parent_not_shallow {k : ℕ} {parts : List (ℕ × Dy)} (h : kindOf k = some (.shallow parts))
    {p : ℕ × Dy} (hp : p ∈ parts) (q : List (ℕ × Dy)) : kindOf p.1 ≠ some (.shallow q) := by
  obtain ⟨d, s, e⟩ := kindOf_parent h hp
  rw [e]; intro h'; cases h'

theorem weight_integer {k : ℕ} {parts : List (ℕ × Dy)} (h : kindOf k = some (.shallow parts))
    (hk : k ≠ M7) {p : ℕ × Dy} (hp : p ∈ parts) : p.2.toReal = (p.2.num : ℝ) := by
  have := List.all_eq_true.1 weights_integer_bool _ ((mem_shallowRows k parts).2 h)
  simp only [Bool.or_eq_true, beq_iff_eq, hk, false_or] at this
  have := List.all_eq_true.1 this p hp
  simp only [beq_iff_eq] at this
  unfold Dy.toReal
  rw [this]; simp

theorem kindOf_lt {k : ℕ} {x : Kind} (h : kindOf k = some x) : k < 146 := by
  unfold kindOf at h
  rw [Option.map_eq_some_iff] at h
  obtain ⟨c, hc, -⟩ := h
  rw [← catalogue_length]
  exact (List.getElem?_eq_some_iff.1 hc).1

theorem kindOf_of_lt {k : ℕ} (h : k < 146) : ∃ x, kindOf k = some x := by
  rw [← catalogue_length] at h
  exact ⟨_, by unfold kindOf; rw [List.getElem?_eq_getElem h]; rfl⟩

/-! ## The loops over compounds -/

/-- A step that reads the array only at the parents. -/
def LocalStep {α : Type} (step : (ℕ → α) → List (ℕ × Dy) → α) : Prop :=
  ∀ v v' parts, (∀ p ∈ parts, v p.1 = v' p.1) → step v parts = step v' parts

theorem localStep_sum : LocalStep sumStep := by
  intro v v' parts h
  unfold sumStep
  congr 1
  exact List.map_congr_left fun p hp => by rw [h p hp]

theorem localStep_prod : LocalStep prodStep := by
  intro v v' parts h
  unfold prodStep
  congr 1
  exact List.map_congr_left fun p hp => by rw [h p hp]

theorem loopShallow_off {α : Type} (step : (ℕ → α) → List (ℕ × Dy) → α)
    (rows : List (ℕ × List (ℕ × Dy))) (v : ℕ → α) (k : ℕ) (h : k ∉ rows.map Prod.fst) :
    loopShallow step rows v k = v k := by
  induction rows generalizing v with
  | nil => rfl
  | cons r rows ih =>
    simp only [List.map_cons, List.mem_cons, not_or] at h
    have := ih (Function.update v r.1 (step v r.2)) h.2
    unfold loopShallow at this ⊢
    rw [List.foldl_cons, this, Function.update_of_ne h.1]

theorem loopShallow_on {α : Type} (step : (ℕ → α) → List (ℕ × Dy) → α) (hs : LocalStep step)
    (rows : List (ℕ × List (ℕ × Dy))) (hnd : (rows.map Prod.fst).Nodup)
    (hpar : ∀ r ∈ rows, ∀ p ∈ r.2, p.1 ∉ rows.map Prod.fst) (v : ℕ → α)
    (r : ℕ × List (ℕ × Dy)) (hr : r ∈ rows) :
    loopShallow step rows v r.1 = step v r.2 := by
  induction rows generalizing v with
  | nil => cases hr
  | cons q rows ih =>
    simp only [List.map_cons, List.nodup_cons] at hnd
    have hq : ∀ r ∈ q :: rows, ∀ p ∈ r.2, p.1 ≠ q.1 := fun r hr p hp e =>
      hpar r hr p hp (by rw [e]; simp)
    rcases List.mem_cons.1 hr with rfl | hr'
    · have := loopShallow_off step rows (Function.update v r.1 (step v r.2)) r.1 hnd.1
      unfold loopShallow at this ⊢
      rw [List.foldl_cons, this, Function.update_self]
    · have := ih hnd.2 (fun r hr p hp hm => hpar r (List.mem_cons_of_mem _ hr) p hp
        (by rw [List.map_cons]; exact List.mem_cons_of_mem _ hm))
        (Function.update v q.1 (step v q.2)) hr'
      unfold loopShallow at this ⊢
      rw [List.foldl_cons, this]
      exact hs _ _ _ fun p hp => Function.update_of_ne (hq r hr p hp) _ _

theorem shallow_parents_off : ∀ r ∈ shallowRows, ∀ p ∈ r.2, p.1 ∉ shallowRows.map Prod.fst := by
  rintro ⟨k, parts⟩ hr p hp hm
  rw [List.mem_map] at hm
  obtain ⟨⟨j, q⟩, hq, e⟩ := hm
  dsimp only at e
  subst e
  exact parent_not_shallow ((mem_shallowRows k parts).1 hr) hp q ((mem_shallowRows _ q).1 hq)

theorem loop_shallow {α : Type} {step : (ℕ → α) → List (ℕ × Dy) → α} (hs : LocalStep step) (v : ℕ → α)
    {k : ℕ} {parts : List (ℕ × Dy)} (h : kindOf k = some (.shallow parts)) :
    loopShallow step shallowRows v k = step v parts :=
  loopShallow_on step hs shallowRows shallowRows_keys_nodup shallow_parents_off v (k, parts)
    ((mem_shallowRows k parts).2 h)

theorem loop_not_shallow {α : Type} (step : (ℕ → α) → List (ℕ × Dy) → α) (v : ℕ → α)
    {k : ℕ} (h : ∀ parts, kindOf k ≠ some (.shallow parts)) :
    loopShallow step shallowRows v k = v k := by
  apply loopShallow_off
  intro hm
  rw [List.mem_map] at hm
  obtain ⟨⟨j, q⟩, hq, e⟩ := hm
  dsimp only at e
  subst e
  exact h q ((mem_shallowRows _ q).1 hq)

theorem loop_parent {α : Type} (step : (ℕ → α) → List (ℕ × Dy) → α) (v : ℕ → α)
    {k : ℕ} {parts : List (ℕ × Dy)} (h : kindOf k = some (.shallow parts)) {p : ℕ × Dy} (hp : p ∈ parts) :
    loopShallow step shallowRows v p.1 = v p.1 :=
  loop_not_shallow step v fun q => parent_not_shallow h hp q

end UTide
