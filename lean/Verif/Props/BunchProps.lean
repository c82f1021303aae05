import Verif.Lemmas.Dict

/-!
# Properties of `Bunch` (C64, C65, C66)

Specification: a Bunch is a finite map `String → Option V` (its `get?`), plus an ordered key list.
The value offered for a key by a sequence of sources is the one of the *last* source that has it.
-/

namespace UTide
namespace Props
open Dict
variable {V : Type}

/-- Spec: the value the sources offer for `k`, later sources taking precedence. -/
def offered (sources : List (Dict V)) (k : String) : Option V :=
  sources.foldl (fun acc d => (d.get? k).or acc) none

theorem newkw_get? (args : List (Dict V)) (kw : Dict V)
    (hargs : ∀ d ∈ args, d.keys.Nodup) (hkw : kw.keys.Nodup) (k : String) :
    (Bunch.newkw args kw).get? k = offered (args ++ [kw]) k := by
  have aux : ∀ (l : List (Dict V)) (acc : Dict V), (∀ d ∈ l, d.keys.Nodup) →
      (l.foldl Dict.update acc).get? k = l.foldl (fun a d => (d.get? k).or a) (acc.get? k) := by
    intro l
    induction l with
    | nil => intros; rfl
    | cons d l ih =>
      intro acc h
      simp only [List.foldl_cons]
      rw [ih _ (fun d' hd' => h d' (List.mem_cons_of_mem _ hd')), get?_update _ _ (h d (by simp))]
  unfold Bunch.newkw offered
  rw [get?_update _ _ hkw, aux args [] hargs]
  simp

theorem newkw_keys_nodup (args : List (Dict V)) (kw : Dict V) : (Bunch.newkw args kw).keys.Nodup := by
  unfold Bunch.newkw
  apply keys_update_nodup
  have : ∀ (l : List (Dict V)) (acc : Dict V), acc.keys.Nodup → (l.foldl Dict.update acc).keys.Nodup := by
    intro l
    induction l with
    | nil => intro acc h; exact h
    | cons d l ih => intro acc h; exact ih _ (keys_update_nodup _ _ h)
  exact this args [] (by simp [keys])

theorem mem_newkw_keys (args : List (Dict V)) (kw : Dict V) (k : String) :
    k ∈ (Bunch.newkw args kw).keys ↔ ∃ d ∈ args ++ [kw], k ∈ d.keys := by
  have aux : ∀ (l : List (Dict V)) (acc : Dict V),
      k ∈ (l.foldl Dict.update acc).keys ↔ k ∈ acc.keys ∨ ∃ d ∈ l, k ∈ d.keys := by
    intro l
    induction l with
    | nil => intro acc; simp
    | cons d l ih => intro acc; simp only [List.foldl_cons, ih, mem_keys_update]; grind
  unfold Bunch.newkw
  rw [mem_keys_update, aux]
  simp only [keys, List.map_nil, List.not_mem_nil, false_or, List.mem_append, List.mem_singleton]
  grind

theorem checkStrict_eq (b : Bunch V) (strict : Bool) (kw : Dict V) :
    Bunch.checkStrict b strict kw =
      if strict = true ∧ ∃ k ∈ kw.keys, k ∉ b.keys then .error .keyError else .ok () := by
  have hiff : (strict && kw.keys.any (fun k => !b.mem k)) = true ↔
      (strict = true ∧ ∃ k ∈ kw.keys, k ∉ b.keys) := by
    simp only [Bool.and_eq_true, List.any_eq_true, Bool.not_eq_true', ← Bool.not_eq_true, mem_iff]
  unfold Bunch.checkStrict
  by_cases h : strict = true ∧ ∃ k ∈ kw.keys, k ∉ b.keys
  · rw [if_pos h, if_pos (hiff.2 h)]
  · rw [if_neg h, if_neg (fun h' => h (hiff.1 h'))]

/-- **C64 (strict).** `b.update_values(*args, strict=True, **kw)` raises iff some source offers a key that
is not in the Bunch, and what it raises is KeyError. (The Bunch is then unchanged: the method assigns nothing
before the check, see `Bunch.updateValues`.) -/
theorem C64_update_values_strict (b : Bunch V) (args : List (Dict V)) (kw : Dict V) (e : PyErr) :
    b.updateValues args kw (strict := true) = .error e ↔
      e = .keyError ∧ ∃ d ∈ args ++ [kw], ∃ k ∈ d.keys, k ∉ b.keys := by
  have hkeys : (∃ k ∈ (Bunch.newkw args kw).keys, k ∉ b.keys) ↔
      ∃ d ∈ args ++ [kw], ∃ k ∈ d.keys, k ∉ b.keys := by
    simp only [mem_newkw_keys]; grind
  simp only [Bunch.updateValues, checkStrict_eq, bind, Except.bind, pure, Except.pure]
  by_cases h : ∃ k ∈ (Bunch.newkw args kw).keys, k ∉ b.keys
  · simp only [true_and, h, if_true]
    have := hkeys.1 h
    constructor
    · intro h'; exact ⟨by injection h' with h'; exact h'.symm, this⟩
    · rintro ⟨rfl, _⟩; rfl
  · simp only [true_and, h, if_false]
    constructor
    · intro h'; cases h'
    · rintro ⟨_, h'⟩; exact absurd (hkeys.2 h') h

/-- **C64 (effect).** Whenever `update_values` returns, the key list is exactly the old one (none added,
removed or moved), and every existing key has the value offered last, or its old value if none is offered.
Without `strict` the call always returns. -/
theorem C64_update_values_effect (b : Bunch V) (args : List (Dict V)) (kw : Dict V) (strict : Bool)
    (hargs : ∀ d ∈ args, d.keys.Nodup) (hkw : kw.keys.Nodup) :
    (strict = false → ∃ b', b.updateValues args kw strict = .ok b') ∧
    ∀ b', b.updateValues args kw strict = .ok b' →
      b'.keys = b.keys ∧
      ∀ k, b'.get? k = if k ∈ b.keys then (offered (args ++ [kw]) k).or (b.get? k) else none := by
  constructor
  · rintro rfl
    simp [Bunch.updateValues, checkStrict_eq, bind, Except.bind, pure, Except.pure]
  · intro b' h
    have hb' : b' = b.update ((Bunch.newkw args kw).filter (fun p => b.mem p.1)) := by
      simp only [Bunch.updateValues, checkStrict_eq, bind, Except.bind, pure, Except.pure] at h
      split at h
      · split at * <;> simp_all
      · simpa using h.symm
    have hnd := newkw_keys_nodup args kw
    have hsub := keys_filter_sublist (Bunch.newkw args kw) (fun p => b.mem p.1)
    subst hb'
    refine ⟨keys_update_subset _ _ ?_, ?_⟩
    · intro k hk
      obtain ⟨p, hp, rfl⟩ := List.mem_map.1 hk
      exact (mem_iff b p.1).1 (List.mem_filter.1 hp).2
    · intro k
      rw [get?_update _ _ (hnd.sublist hsub), get?_filter _ hnd, newkw_get? _ _ hargs hkw]
      by_cases hk : k ∈ b.keys
      · have : b.mem k = true := (mem_iff b k).2 hk
        simp only [this, if_true, hk]
        cases offered (args ++ [kw]) k <;> rfl
      · have : b.mem k = false := by rw [← Bool.not_eq_true, mem_iff]; exact hk
        have hn := (get?_eq_none_iff b k).2 hk
        simp only [this, hk, hn]
        cases offered (args ++ [kw]) k <;> rfl

/-- **C65.** `update_None` follows the same strictness rule, keeps the key list, and changes only entries whose
current value is `None`. -/
theorem C65_update_None (isNone : V → Bool) (b : Bunch V) (args : List (Dict V)) (kw : Dict V) (strict : Bool)
    (hargs : ∀ d ∈ args, d.keys.Nodup) (hkw : kw.keys.Nodup) :
    (∀ e, b.updateNone isNone args kw strict = .error e ↔
      e = .keyError ∧ strict = true ∧ ∃ d ∈ args ++ [kw], ∃ k ∈ d.keys, k ∉ b.keys) ∧
    ∀ b', b.updateNone isNone args kw strict = .ok b' →
      b'.keys = b.keys ∧
      ∀ k v, b.get? k = some v →
        b'.get? k = if isNone v then some ((offered (args ++ [kw]) k).getD v) else some v := by
  have hkeys : (∃ k ∈ (Bunch.newkw args kw).keys, k ∉ b.keys) ↔
      ∃ d ∈ args ++ [kw], ∃ k ∈ d.keys, k ∉ b.keys := by
    simp only [mem_newkw_keys]; grind
  constructor
  · intro e
    simp only [Bunch.updateNone, checkStrict_eq, bind, Except.bind, pure, Except.pure, hkeys]
    by_cases h : strict = true ∧ ∃ d ∈ args ++ [kw], ∃ k ∈ d.keys, k ∉ b.keys
    · simp only [h, if_true]
      constructor
      · intro h'; exact ⟨by injection h' with h'; exact h'.symm, by simp_all⟩
      · rintro ⟨rfl, _⟩; simp
    · simp only [h, if_false]
      constructor
      · intro h'; cases h'
      · rintro ⟨_, h'⟩; exact absurd h' (by simp_all)
  · intro b' h
    have hb' : b' = b.update ((Bunch.newkw args kw).filter
        (fun p => Bunch.holdsNone isNone b p.1)) := by
      simp only [Bunch.updateNone, checkStrict_eq, bind, Except.bind, pure, Except.pure] at h
      split at h
      · split at * <;> simp_all
      · simpa using h.symm
    have hnd := newkw_keys_nodup args kw
    have hsub := keys_filter_sublist (Bunch.newkw args kw)
      (fun p => Bunch.holdsNone isNone b p.1)
    subst hb'
    refine ⟨keys_update_subset _ _ ?_, ?_⟩
    · intro k hk
      obtain ⟨p, hp, rfl⟩ := List.mem_map.1 hk
      have := (List.mem_filter.1 hp).2
      rw [← get?_isSome_iff]
      unfold Bunch.holdsNone at this
      cases hg : b.get? p.1 <;> simp_all
    · intro k v hv
      rw [get?_update _ _ (hnd.sublist hsub), get?_filter _ hnd, newkw_get? _ _ hargs hkw]
      have : Bunch.holdsNone isNone b k = isNone v := by simp [Bunch.holdsNone, hv]
      simp only [hv, this]
      cases offered (args ++ [kw]) k <;> cases isNone v <;> rfl

/-- One operation on a Bunch through either syntax. -/
inductive Assign (V : Type)
  | attr (name : String) (v : V)   -- `b.name = v`
  | item (name : String) (v : V)   -- `b[name] = v`

def Assign.run (b : Bunch V) : Assign V → Bunch V
  | .attr n v => b.setattr n v
  | .item n v => Dict.set b n v

def Assign.name : Assign V → String
  | .attr n _ => n
  | .item n _ => n

def Assign.val : Assign V → V
  | .attr _ v => v
  | .item _ v => v

/-- The names that mean something on every Bunch: those of Python's `dict` and those the class defines (`t_mpl` aside). -/
def reservedNames : List String :=
  ["clear", "copy", "fromkeys", "get", "items", "keys", "pop", "popitem", "setdefault", "update", "values"] ++
  ["str_fmt", "formatted", "from_pyfile", "update_values", "update_None", "_check_strict"] ++
  ["__init__", "__getattr__", "__setattr__", "__str__", "__doc__", "__module__", "__dict__", "__weakref__"] ++
  ["__class_getitem__", "__contains__", "__delitem__", "__getitem__", "__ior__", "__iter__", "__len__", "__or__",
    "__reversed__", "__ror__", "__setitem__"] ++
  ["__class__", "__delattr__", "__dir__", "__eq__", "__format__", "__ge__", "__getattribute__", "__getstate__", "__gt__",
    "__hash__", "__init_subclass__", "__le__", "__lt__", "__ne__", "__new__", "__reduce__", "__reduce_ex__", "__repr__",
    "__sizeof__", "__subclasshook__"]

theorem reserved_iff (k : String) : k ∈ reservedNames ↔ k ∈ Bunch.classAttrs :=
  ⟨fun h => (by decide +kernel : ∀ x ∈ reservedNames, x ∈ Bunch.classAttrs) k h,
    fun h => (by decide +kernel : ∀ x ∈ Bunch.classAttrs, x ∈ reservedNames) k h⟩

/-- **C66.** After any sequence of assignments through either syntax, `b[k]` is the value assigned last to `k`
(or the initial one); and reading through an attribute agrees with reading the item for every name that is not
a class member, raising AttributeError exactly when the item is missing (KeyError for the property `t_mpl`). -/
theorem C66_attribute_is_item (b : Bunch V) (ops : List (Assign V)) :
    (∀ k, (ops.foldl Assign.run b).get? k =
      ((ops.filter (fun o => o.name = k)).getLast?.map Assign.val).or (b.get? k)) ∧
    (∀ k, k ∉ reservedNames →
      (ops.foldl Assign.run b).getattr k = match (ops.foldl Assign.run b).get? k with
        | some v => .val v
        | none => .raised (if k = "t_mpl" then .keyError else .attributeError)) := by
  constructor
  · intro k
    induction ops generalizing b with
    | nil => simp
    | cons o ops ih =>
      simp only [List.foldl_cons]
      rw [ih]
      have hrun : (Assign.run b o).get? k = if o.name = k then some o.val else b.get? k := by
        cases o <;> simp only [Assign.run, Assign.name, Assign.val, Bunch.setattr, get?_set] <;> congr
      rw [hrun, List.filter_cons]
      by_cases h : o.name = k
      · simp only [h, decide_true, if_true]
        rw [List.getLast?_cons]
        cases hl : (ops.filter (fun o => o.name = k)).getLast? <;> simp
      · simp [h]
  · intro k hk
    rw [reserved_iff] at hk
    generalize ops.foldl Assign.run b = c
    unfold Bunch.getattr
    by_cases h : k = "t_mpl"
    · subst h
      simp only [if_true]
      cases c.get? "t_mpl" <;> rfl
    · simp only [h, if_false, hk]
      cases c.get? k <;> rfl

/-- The exception in C66 is real: a key that is also the name of a method is stored but cannot be read back as an
attribute. -/
theorem C66_shadowed_names (b : Bunch V) (v : V) (k : String) (hk : k ∈ reservedNames) :
    (b.setattr k v).get? k = some v ∧ (b.setattr k v).getattr k = .classMember k := by
  have ht : k ≠ "t_mpl" := fun h => (by decide +kernel : "t_mpl" ∉ reservedNames) (h ▸ hk)
  rw [reserved_iff] at hk
  constructor
  · simp [Bunch.setattr, get?_set]
  · unfold Bunch.getattr
    rw [if_neg ht, if_pos hk]

/-! Non-vacuity: concrete Bunches meeting the hypotheses, both outcomes of the strict check. -/

example : Bunch.updateValues (V := Nat) [("a", 1), ("b", 2)] [[("a", 5)], [("a", 6)]] [("b", 7)] (strict := true)
    = .ok [("a", 6), ("b", 7)] := by rfl

example : Bunch.updateValues (V := Nat) [("a", 1)] [[("c", 5)]] [] (strict := true) = .error .keyError := by rfl

example : (∀ d ∈ [[("a", 5)], [("a", 6)]], (Dict.keys (V := Nat) d).Nodup) ∧
    (Dict.keys (V := Nat) [("b", 7)]).Nodup := by decide

example : Bunch.updateNone (V := Option Nat) (·.isNone) [("a", some 1), ("b", none)] [] [("a", some 3), ("b", some 4)]
    = .ok [("a", some 1), ("b", some 4)] := by rfl

end Props
end UTide
