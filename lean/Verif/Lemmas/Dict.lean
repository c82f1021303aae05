import Verif.Model.Bunch

/-! Lemmas about association-list dictionaries. -/

namespace UTide
namespace Dict
variable {V : Type}

@[simp] theorem get?_nil (k : String) : get? ([] : Dict V) k = none := rfl

theorem get?_cons (k' : String) (v : V) (d : Dict V) (k : String) :
    get? ((k', v) :: d) k = if k' = k then some v else get? d k := rfl

theorem get?_set (d : Dict V) (k : String) (v : V) (k' : String) :
    get? (set d k v) k' = if k = k' then some v else get? d k' := by
  induction d with
  | nil => simp [set, get?_cons]
  | cons p d ih =>
    obtain ⟨a, b⟩ := p
    unfold set
    split <;> grind [get?_cons]

theorem get?_isSome_iff (d : Dict V) (k : String) : (get? d k).isSome ↔ k ∈ d.keys := by
  induction d with
  | nil => simp [keys]
  | cons p d ih =>
    obtain ⟨a, b⟩ := p
    simp only [get?_cons, keys, List.map_cons, List.mem_cons]
    split
    · simp; left; exact (by assumption : a = k).symm
    · rw [ih]; constructor
      · intro h; exact Or.inr h
      · rintro (h | h)
        · exact absurd h.symm (by assumption)
        · exact h

theorem get?_eq_none_iff (d : Dict V) (k : String) : get? d k = none ↔ k ∉ d.keys := by
  rw [← get?_isSome_iff]; cases get? d k <;> simp

theorem mem_iff (d : Dict V) (k : String) : mem d k = true ↔ k ∈ d.keys := get?_isSome_iff d k

theorem keys_set (d : Dict V) (k : String) (v : V) :
    (set d k v).keys = if k ∈ d.keys then d.keys else d.keys ++ [k] := by
  induction d with
  | nil => simp [set, keys]
  | cons p d ih =>
    obtain ⟨a, b⟩ := p
    unfold set
    by_cases h : a = k
    · subst h; simp [keys]
    · have h' : ¬ k = a := fun e => h e.symm
      simp only [if_neg h]
      simp only [keys, List.map_cons, List.mem_cons, h', false_or] at ih ⊢
      rw [ih]
      by_cases hk : k ∈ List.map Prod.fst d <;> simp [hk]

theorem keys_set_nodup (d : Dict V) (k : String) (v : V) (h : d.keys.Nodup) :
    (set d k v).keys.Nodup := by
  rw [keys_set]; split
  · exact h
  · rw [List.nodup_append]; simp_all
    rintro a ha rfl; contradiction

theorem update_cons (d : Dict V) (p : String × V) (e : Dict V) :
    update d (p :: e) = update (set d p.1 p.2) e := rfl

@[simp] theorem update_nil (d : Dict V) : update d [] = d := rfl

theorem keys_update_nodup (d e : Dict V) (h : d.keys.Nodup) : (update d e).keys.Nodup := by
  induction e generalizing d with
  | nil => exact h
  | cons p e ih => rw [update_cons]; exact ih _ (keys_set_nodup _ _ _ h)

theorem mem_keys_update (d e : Dict V) (k : String) :
    k ∈ (update d e).keys ↔ k ∈ d.keys ∨ k ∈ e.keys := by
  induction e generalizing d with
  | nil => simp [keys]
  | cons p e ih =>
    rw [update_cons, ih, keys_set]
    simp only [keys, List.map_cons, List.mem_cons]
    by_cases hp : p.1 ∈ List.map Prod.fst d <;> simp only [hp, if_true, if_false, List.mem_append, List.mem_singleton] <;> grind

theorem keys_update_subset (d e : Dict V) (h : ∀ k ∈ e.keys, k ∈ d.keys) :
    (update d e).keys = d.keys := by
  induction e generalizing d with
  | nil => rfl
  | cons p e ih =>
    rw [update_cons]
    have hp : p.1 ∈ d.keys := h _ (by simp [keys])
    have hk : (set d p.1 p.2).keys = d.keys := by rw [keys_set, if_pos hp]
    rw [ih _ (by intro k hk'; rw [hk]; exact h k (by simp only [keys, List.map_cons, List.mem_cons]; right; exact hk')), hk]

/-- Looking a key up after `update`: the new dictionary wins. -/
theorem get?_update (d e : Dict V) (he : e.keys.Nodup) (k : String) :
    get? (update d e) k = (get? e k).or (get? d k) := by
  induction e generalizing d with
  | nil => simp
  | cons p e ih =>
    obtain ⟨a, b⟩ := p
    simp only [keys, List.map_cons, List.nodup_cons] at he
    rw [update_cons, ih _ he.2, get?_set, get?_cons]
    by_cases h : a = k
    · subst h
      have : get? e a = none := (get?_eq_none_iff e a).2 he.1
      simp [this]
    · simp [h]

theorem get?_filter (d : Dict V) (hd : d.keys.Nodup) (f : String × V → Bool) (k : String) :
    get? (d.filter f) k = (get? d k).bind (fun v => if f (k, v) then some v else none) := by
  induction d with
  | nil => simp
  | cons p d ih =>
    obtain ⟨a, b⟩ := p
    simp only [keys, List.map_cons, List.nodup_cons] at hd
    have ih := ih hd.2
    by_cases h : a = k
    · subst h
      have hn : get? d a = none := (get?_eq_none_iff d a).2 hd.1
      rw [hn] at ih
      by_cases hf : f (a, b)
      · simp [List.filter_cons, hf, get?_cons]
      · simp only [List.filter_cons, hf, get?_cons]
        simpa [hf] using ih
    · by_cases hf : f (a, b)
      · simp [List.filter_cons, hf, get?_cons, h, ih]
      · simp [List.filter_cons, hf, get?_cons, h, ih]

theorem keys_filter_sublist (d : Dict V) (f : String × V → Bool) :
    (keys (d.filter f)).Sublist d.keys := (List.filter_sublist).map _

theorem get?_mem {d : Dict V} {k : String} {v : V} (h : get? d k = some v) : (k, v) ∈ d := by
  induction d with
  | nil => simp at h
  | cons p d ih =>
    obtain ⟨a, b⟩ := p
    rw [get?_cons] at h
    split at h
    · simp_all
    · exact List.mem_cons_of_mem _ (ih h)

theorem get?_append (a b : Dict V) (k : String) : get? (a ++ b) k = (get? a k).or (get? b k) := by
  induction a with
  | nil => simp [get?]
  | cons p a ih =>
    obtain ⟨x, y⟩ := p
    rw [List.cons_append, get?_cons, get?_cons, ih]
    by_cases h : x = k <;> simp [h]

/-- After a sequence of assignments a key holds the value assigned last. -/
theorem get?_update_last (d e : Dict V) (k : String) :
    get? (update d e) k = (get? e.reverse k).or (get? d k) := by
  induction e generalizing d with
  | nil => simp
  | cons p e ih =>
    obtain ⟨a, b⟩ := p
    rw [update_cons, ih, List.reverse_cons, get?_append, get?_set, get?_cons]
    by_cases h : a = k <;> simp [h]

end Dict
end UTide
