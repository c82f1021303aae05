import Verif.Lemmas.Selection
import Verif.Props.BunchProps

/-!
# Building a `Bunch`: C140
-/

namespace UTide
namespace Props
open Dict
variable {V : Type}

/-! ## Specification -/

/-- All the pairs given to a constructor, in the order of the arguments; keyword arguments last. -/
def given (args : List (Dict V)) (kw : Dict V) : List (String × V) := args.flatten ++ kw

/-- The value of the last pair of that name. -/
def lastGiven (ps : List (String × V)) (k : String) : Option V := ((ps.filter fun p => p.1 = k).getLast?).map Prod.snd

/-- `l` in the order of first appearance, each entry once. -/
structure FirstUses (l ks : List String) : Prop where
  nodup : ks.Nodup
  same : ∀ k, k ∈ ks ↔ k ∈ l
  order : ks.Sublist l
  first : ks.Pairwise fun a b => l.idxOf a < l.idxOf b

/-! ## Lemmas -/

theorem mk_eq_update (args : List (Dict V)) (kw : Dict V) : Bunch.mk args kw = Dict.update [] (given args kw) := by
  unfold Bunch.mk given Dict.update
  rw [List.foldl_append]
  congr 1
  generalize ([] : Dict V) = d
  induction args generalizing d with
  | nil => rfl
  | cons a args ih =>
    rw [List.foldl_cons, List.flatten_cons, List.foldl_append]
    exact ih _

theorem get?_reverse_last (ps : Dict V) (k : String) : Dict.get? ps.reverse k = lastGiven ps k := by
  unfold lastGiven
  induction ps using List.reverseRecOn with
  | nil => rfl
  | append_singleton ps p ih =>
    rw [List.reverse_append, List.reverse_singleton, List.singleton_append, List.filter_append]
    obtain ⟨a, b⟩ := p
    rw [get?_cons]
    by_cases h : a = k
    · simp [h]
    · simp only [h, if_false, List.filter_cons, decide_false, Bool.false_eq_true, List.filter_nil, List.append_nil]
      exact ih

theorem firsts_sublist (l : List String) : (firsts l).Sublist l := by
  induction l with
  | nil => exact List.Sublist.refl _
  | cons a l ih => exact (List.filter_sublist.trans ih).cons_cons a

theorem firsts_order (l : List String) : (firsts l).Pairwise fun a b => l.idxOf a < l.idxOf b := by
  induction l with
  | nil => exact List.Pairwise.nil
  | cons a l ih =>
    unfold firsts
    refine List.pairwise_cons.2 ⟨fun b hb => ?_, ?_⟩
    · have hne : a ≠ b := by
        rintro rfl
        simp at hb
      rw [List.idxOf_cons_self, List.idxOf_cons_ne _ hne]
      omega
    · rw [List.pairwise_filter]
      refine ih.imp fun {x y} hxy hx hy => ?_
      have h1 : a ≠ x := fun h => by simp [h] at hx
      have h2 : a ≠ y := fun h => by simp [h] at hy
      rw [List.idxOf_cons_ne _ h1, List.idxOf_cons_ne _ h2]
      omega

/-! ## C140 -/

/-- **C140**: `Bunch(*args, **kwargs)` has exactly the keys given, in the order of their first mention, and each has the
value given last: by the keyword arguments, else by the last argument that has it. -/
theorem C140_built (args : List (Dict V)) (kw : Dict V) :
    (∀ k, (Bunch.mk args kw).get? k = lastGiven (given args kw) k) ∧
    FirstUses ((given args kw).map Prod.fst) (Bunch.mk args kw).keys := by
  rw [mk_eq_update]
  have hk : (Dict.update [] (given args kw)).keys = firsts ((given args kw).map Prod.fst) := by
    rw [keys_update_firsts]
    simp [Dict.keys]
  constructor
  · intro k
    rw [get?_update_last, get?_reverse_last]
    simp
  · rw [hk]
    exact ⟨firsts_nodup _, mem_firsts _, firsts_sublist _, firsts_order _⟩

/-- **C140**, precedence: a keyword argument wins over every other mention, and without one the value is that of the
last argument that has the key. -/
theorem C140_precedence (args : List (Dict V)) (kw : Dict V) (k : String) :
    (∀ v, (k, v) ∈ kw → kw.keys.Nodup → (Bunch.mk args kw).get? k = some v) ∧
    (k ∉ kw.keys → ∀ (pre post : List (Dict V)) (d : Dict V) (v : V), args = pre ++ d :: post → d.keys.Nodup →
      (k, v) ∈ d → (∀ d' ∈ post, k ∉ d'.keys) → (Bunch.mk args kw).get? k = some v) := by
  have one : ∀ (d : Dict V) (v : V), d.keys.Nodup → (k, v) ∈ d → lastGiven d k = some v := by
    intro d v hd hm
    have hu : ∀ p ∈ d.filter fun p => p.1 = k, p = (k, v) := by
      intro p hp
      obtain ⟨hp, hpk⟩ := List.mem_filter.1 hp
      rw [decide_eq_true_eq] at hpk
      exact List.inj_on_of_nodup_map hd hp hm hpk
    unfold lastGiven
    have hne : (d.filter fun p => p.1 = k) ≠ [] := List.ne_nil_of_mem (List.mem_filter.2 ⟨hm, by simp⟩)
    rw [List.getLast?_eq_getLast_of_ne_nil hne, hu _ (List.getLast_mem hne)]
    rfl
  have none_of : ∀ (l : List (String × V)), (∀ p ∈ l, p.1 ≠ k) → (l.filter fun p => p.1 = k) = [] := by
    intro l h
    rw [List.filter_eq_nil_iff]
    intro p hp
    simpa using h p hp
  have app : ∀ (a b : List (String × V)) (v : V), lastGiven b k = some v → lastGiven (a ++ b) k = some v := by
    intro a b v h
    unfold lastGiven at h ⊢
    rw [List.filter_append]
    cases hb : (b.filter fun p => p.1 = k).getLast? with
    | none => rw [hb] at h; cases h
    | some p => rw [hb] at h; simpa [List.getLast?_append, hb] using h
  constructor
  · intro v hv hn
    rw [(C140_built args kw).1]
    exact app _ _ _ (one kw v hn hv)
  · rintro hk pre post d v rfl hd hv hpost
    rw [(C140_built _ kw).1]
    unfold given
    rw [List.flatten_append, List.flatten_cons, List.append_assoc, List.append_assoc]
    refine app _ _ _ ?_
    have hz : ((post.flatten ++ kw).filter fun p => p.1 = k) = [] := by
      refine none_of _ fun p hp => ?_
      rintro rfl
      rcases List.mem_append.1 hp with hp | hp
      · obtain ⟨d', hd', hp⟩ := List.mem_flatten.1 hp
        exact hpost d' hd' (List.mem_map_of_mem hp)
      · exact hk (List.mem_map_of_mem hp)
    have := one d v hd hv
    unfold lastGiven at this ⊢
    rw [List.filter_append, hz, List.append_nil]
    exact this

/-- **C140**, copies: `Bunch(b)` is equal to `b`, key order included, and so is `Bunch(**b)`. -/
theorem C140_copy (b : Dict V) (hb : b.keys.Nodup) : Bunch.mk [b] [] = b ∧ Bunch.mk [] b = b := by
  have key : ∀ (e d : Dict V), (d ++ e).keys.Nodup → Dict.update d e = d ++ e := by
    intro e
    induction e with
    | nil => intro d _; simp
    | cons p e ih =>
      intro d h
      have hp : p.1 ∉ d.keys := by
        unfold Dict.keys at h ⊢
        rw [List.map_append, List.map_cons, List.nodup_append] at h
        intro hm
        exact h.2.2 _ hm _ List.mem_cons_self rfl
      have hs : Dict.set d p.1 p.2 = d ++ [p] := by
        clear h ih
        induction d with
        | nil => rfl
        | cons q d ihd =>
          have h1 : ¬ q.1 = p.1 := fun h => hp (by simp [Dict.keys, h])
          have h2 : p.1 ∉ Dict.keys d := fun h => hp (List.mem_cons_of_mem _ h)
          obtain ⟨a, c⟩ := q
          simp only [Dict.set]
          rw [if_neg h1, ihd h2]
          rfl
      rw [update_cons, hs, ih (d ++ [p]) (by simpa using h)]
      simp
  have h := key b [] (by simpa using hb)
  rw [mk_eq_update, mk_eq_update]
  simpa [given] using h

/-! Non-vacuity. -/

example : Bunch.mk (V := Nat) [[("a", 1), ("b", 2)], [("c", 3), ("a", 4)]] [("b", 5), ("d", 6)] =
    [("a", 4), ("b", 5), ("c", 3), ("d", 6)] := by rfl

example : (Dict.keys (V := Nat) [("b", 5), ("d", 6)]).Nodup ∧ ("a" ∉ Dict.keys (V := Nat) [("b", 5), ("d", 6)]) := by decide

end Props
end UTide
