import Verif.Model.MatBunch
import Verif.Lemmas.Dict
import Verif.Lemmas.KernelRfl

/-!
# Printing a Bunch (C86), loading files (C87), showing them (C88), strings in loaded arrays (C89)
-/

namespace UTide
namespace Props
open Dict

section printing
variable {V : Type}

theorem pyMax_spec (l : List ℕ) (h : l ≠ []) :
    ∃ m, pyMax l = .ok m ∧ m ∈ l ∧ ∀ x ∈ l, x ≤ m := by
  cases l with
  | nil => exact absurd rfl h
  | cons a l =>
    refine ⟨l.foldl max a, rfl, ?_⟩
    clear h
    induction l generalizing a with
    | nil => simp
    | cons b l ih =>
      simp only [List.foldl_cons]
      obtain ⟨h1, h2⟩ := ih (max a b)
      constructor
      · rcases List.mem_cons.mp h1 with h | h
        · rw [h]
          rcases max_choice a b with e | e <;> rw [e] <;> simp
        · simp [h]
      · intro x hx
        have hm := h2 (max a b) (by simp)
        rcases List.mem_cons.mp hx with rfl | hx
        · exact le_trans (le_max_left _ _) hm
        · rcases List.mem_cons.mp hx with rfl | hx
          · exact le_trans (le_max_right _ _) hm
          · exact h2 x (List.mem_cons_of_mem _ hx)

theorem sortItems_perm (b : Bunch V) : (Bunch.sortItems b).Perm b := List.mergeSort_perm _ _

theorem sortItems_sorted (b : Bunch V) (hb : Dict.keys b |>.Nodup) :
    (Bunch.sortItems b).Pairwise fun x y => x.1 < y.1 := by
  have h := List.pairwise_mergeSort (le := fun x y : String × V => decide (x.1 ≤ y.1))
    (fun a b c h1 h2 => by
      simp only [decide_eq_true_eq] at h1 h2 ⊢
      exact le_trans h1 h2)
    (fun a b => by
      simp only [Bool.or_eq_true, decide_eq_true_eq]
      exact le_total _ _) b
  have hn : ((Bunch.sortItems b).map Prod.fst).Nodup := ((sortItems_perm b).map Prod.fst).nodup_iff.mpr hb
  have hn' : (Bunch.sortItems b).Pairwise fun x y => x.1 ≠ y.1 := by
    simpa [List.Nodup, List.pairwise_map] using hn
  refine (List.Pairwise.and h hn').imp ?_
  intro x y hxy
  exact lt_of_le_of_ne (by simpa using hxy.1) hxy.2

/-- Two lists sorted strictly by key with the same items are the same list. -/
theorem sorted_unique {l l' : List (String × V)} (hp : l.Perm l')
    (h : l.Pairwise fun x y => x.1 < y.1) (h' : l'.Pairwise fun x y => x.1 < y.1) : l = l' := by
  refine List.Perm.eq_of_pairwise (fun a b _ _ hab hba => ?_) h h' hp
  exact absurd hab (not_lt.mpr hba.le)

theorem texts_ok (str : V → Except PyErr String) (tname txt : V → String) (types : Bool) (l : List (String × V))
    (ht : ∀ kv ∈ l, (if types then .ok (tname kv.2) else str kv.2) = .ok (txt kv.2)) :
    Bunch.texts str tname types l = .ok (l.map fun kv => (kv.1, txt kv.2)) := by
  induction l with
  | nil => rfl
  | cons a l ih =>
    have h1 := ht a (by simp)
    have h2 := ih fun kv hkv => ht kv (List.mem_cons_of_mem _ hkv)
    unfold Bunch.texts at h2 ⊢
    rw [List.mapM_cons]
    cases types with
    | true =>
      simp only [if_true] at h1 h2 ⊢
      rw [h2, Except.ok.inj h1]
      rfl
    | false =>
      simp only [Bool.false_eq_true, if_false] at h1 h2 ⊢
      rw [h2, h1]
      rfl

/-- Spec: `n` blanks. -/
def blanks (n : ℕ) : String := String.ofList (List.replicate n ' ')

/-- Spec: `m` is the largest of the numbers `f x`, `x ∈ l`. -/
def IsMax {A : Type} (f : A → ℕ) (l : List A) (m : ℕ) : Prop := (∃ x ∈ l, f x = m) ∧ ∀ x ∈ l, f x ≤ m

/-- Spec: the line printed for a key and the text of its value, in columns of widths `kw` and `vw`. -/
def printedLine (kw vw : ℕ) (key text : String) : String :=
  key ++ blanks (kw - key.length) ++ " : " ++ (blanks (vw - text.length) ++ text) ++ "\n"

/-- C86: `str(b)` (and `b.formatted(types=True)`) of a Bunch with at least one entry has one line for every entry, in
the order of the keys; the columns are as wide as the longest key and text, but not more than 20 and 40. -/
theorem C86_listing (str : V → Except PyErr String) (tname txt : V → String) (types : Bool) (b : Bunch V)
    (hb : b ≠ []) (hk : (Dict.keys b).Nodup)
    (ht : ∀ kv ∈ b, (if types then .ok (tname kv.2) else str kv.2) = .ok (txt kv.2)) :
    ∃ (l : List (String × V)) (kmax vmax : ℕ), l.Perm b ∧ (l.Pairwise fun x y => x.1 < y.1) ∧
      IsMax (fun kv : String × V => kv.1.length) b kmax ∧ IsMax (fun kv : String × V => (txt kv.2).length) b vmax ∧
      Bunch.formatted str tname b (types := types) =
        .ok (String.join (l.map fun kv => printedLine (min 20 kmax) (min 40 vmax) kv.1 (txt kv.2))) := by
  have hp := sortItems_perm b
  have hne : Bunch.sortItems b ≠ [] := fun h => hb (by
    have := hp.length_eq
    rw [h] at this
    exact List.length_eq_zero_iff.mp this.symm)
  have htx := texts_ok str tname txt types (Bunch.sortItems b) fun kv hkv => ht kv (hp.mem_iff.mp hkv)
  obtain ⟨km, hkm, hkm1, hkm2⟩ := pyMax_spec ((Bunch.sortItems b).map fun kv => kv.1.length) (by simpa using hne)
  obtain ⟨vm, hvm, hvm1, hvm2⟩ := pyMax_spec ((Bunch.sortItems b).map fun kv => (txt kv.2).length) (by simpa using hne)
  refine ⟨Bunch.sortItems b, km, vm, hp, sortItems_sorted b hk, ?_, ?_, ?_⟩
  · obtain ⟨x, hx, he⟩ := List.mem_map.mp hkm1
    exact ⟨⟨x, hp.mem_iff.mp hx, he⟩, fun y hy => hkm2 _ (List.mem_map.mpr ⟨y, hp.mem_iff.mpr hy, rfl⟩)⟩
  · obtain ⟨x, hx, he⟩ := List.mem_map.mp hvm1
    exact ⟨⟨x, hp.mem_iff.mp hx, he⟩, fun y hy => hvm2 _ (List.mem_map.mpr ⟨y, hp.mem_iff.mpr hy, rfl⟩)⟩
  · unfold Bunch.formatted
    simp only [htx, bind, Except.bind, List.map_map, Function.comp_def]
    rw [hkm]
    simp only
    rw [hvm]
    rfl

/-- C86: what is printed does not depend on the order in which the entries were made. -/
theorem C86_order (str : V → Except PyErr String) (tname : V → String) (fmt : String → String → ℕ → ℕ → String)
    (types : Bool) (b b' : Bunch V) (hk : (Dict.keys b).Nodup) (hp : b.Perm b') :
    Bunch.formatted str tname b fmt types = Bunch.formatted str tname b' fmt types := by
  have hk' : (Dict.keys b').Nodup := (hp.map Prod.fst).nodup_iff.mp hk
  unfold Bunch.formatted
  rw [sorted_unique ((sortItems_perm b).trans (hp.trans (sortItems_perm b').symm)) (sortItems_sorted b hk)
    (sortItems_sorted b' hk')]

theorem blanks_length (n : ℕ) : (blanks n).length = n := by simp [blanks]

/-- C86: keys of at most 20 and texts of at most 40 characters are printed as a table: all lines have the same
length, and the text of every value ends in the same column. -/
theorem C86_aligned (kw vw : ℕ) (key text : String) (hk : key.length ≤ kw) (hv : text.length ≤ vw) :
    (printedLine kw vw key text).length = kw + 3 + vw + 1 := by
  simp only [printedLine, String.length_append, blanks_length]
  have h1 : " : ".length = 3 := rfl
  have h2 : "\n".length = 1 := rfl
  omega

/-- An empty Bunch cannot be printed: `max` of an empty list. -/
theorem C86_empty (str : V → Except PyErr String) (tname : V → String) (fmt : String → String → ℕ → ℕ → String)
    (types : Bool) : Bunch.formatted str tname [] fmt types = .error .valueError := by
  unfold Bunch.formatted Bunch.sortItems Bunch.texts
  simp only [List.mergeSort_nil, List.mapM_nil]
  rfl

/-- Hence neither can a Bunch that holds an empty one, whatever else it holds. -/
theorem C86_nested_empty (str : V → Except PyErr String) (tname : V → String)
    (fmt : String → String → ℕ → ℕ → String) (b : Bunch V) (kv : String × V) (hkv : kv ∈ b) (e : PyErr)
    (he : str kv.2 = .error e) : ∃ e', Bunch.formatted str tname b fmt = .error e' := by
  have : ∀ l : List (String × V), kv ∈ l → ∃ e', Bunch.texts str tname false l = .error e' := by
    intro l
    induction l with
    | nil => intro h; simp at h
    | cons a l ih =>
      intro h
      unfold Bunch.texts at ih ⊢
      rw [List.mapM_cons]
      simp only [Bool.false_eq_true, if_false] at ih ⊢
      rcases List.mem_cons.mp h with rfl | h
      · rw [he]; exact ⟨e, rfl⟩
      · obtain ⟨e', h'⟩ := ih h
        cases hs : str a.2 with
        | error e2 => exact ⟨e2, rfl⟩
        | ok s => rw [h']; exact ⟨e', rfl⟩
  obtain ⟨e', h⟩ := this (Bunch.sortItems b) ((sortItems_perm b).mem_iff.mpr hkv)
  exact ⟨e', by unfold Bunch.formatted; rw [h]; rfl⟩

example : Bunch.formatted (V := ℕ) (fun n => .ok (toString n)) (fun _ => "int") [("b", 10), ("abc", 2)]
    = .ok "abc :  2\nb   : 10\n" := by
  have h : Bunch.sortItems [("b", 10), ("abc", 2)] = [("abc", 2), ("b", 10)] :=
    sorted_unique ((sortItems_perm _).trans (List.Perm.swap _ _ _)) (sortItems_sorted _ (by decide)) (by
      simp only [List.pairwise_cons, List.mem_singleton, forall_eq, List.not_mem_nil, false_imp_iff, implies_true,
        List.Pairwise.nil, and_true]
      decide)
  unfold Bunch.formatted
  rw [h]
  rfl

end printing

/-! ### Loading -/

section loading
variable {α : Type}

theorem set_new {V : Type} (d : Dict V) (k : String) (v : V) (h : k ∉ d.keys) : d.set k v = d ++ [(k, v)] := by
  induction d with
  | nil => rfl
  | cons a d ih =>
    simp only [keys, List.map_cons, List.mem_cons, not_or] at h
    have : ¬ a.1 = k := fun e => h.1 e.symm
    obtain ⟨a1, a2⟩ := a
    simp only [Dict.set, this, if_false, List.cons_append]
    rw [ih h.2]

theorem foldl_set {V W : Type} (f : V → W) (l : List (String × V)) (acc : Dict W)
    (h : (acc.keys ++ l.map Prod.fst).Nodup) :
    l.foldl (fun out kv => Dict.set out kv.1 (f kv.2)) acc = acc ++ l.map fun kv => (kv.1, f kv.2) := by
  induction l generalizing acc with
  | nil => simp
  | cons a l ih =>
    have ha : a.1 ∉ acc.keys := by
      intro hm
      rw [List.nodup_append] at h
      exact h.2.2 _ hm _ (by simp) rfl
    simp only [List.foldl_cons, List.map_cons]
    rw [ih, set_new _ _ _ ha, List.append_assoc]
    · rfl
    · rw [set_new _ _ _ ha]
      simpa [keys] using h

/-- Spec: follow field names into a variable of the file. -/
def MatAt : MatVal α → List String → Option (MatVal α)
  | v, [] => some v
  | .struct fields, k :: path => (Dict.get? fields k).bind fun v => MatAt v path
  | _, _ :: _ => none

/-- Spec: follow keys into what was loaded. -/
def LoadedAt : Loaded α → List String → Option (Loaded α)
  | v, [] => some v
  | .bunch fields, k :: path => (Dict.get? fields k).bind fun v => LoadedAt v path
  | _, _ :: _ => none

/-- Spec: the values that can be seen in an array; a masked element shows nothing. -/
def seen : Loaded α → List (Option α)
  | .arr a => a.data.map some
  | .masked a m => List.zipWith (fun x b => if b then none else some x) a.data m
  | _ => []

/-- Spec: the array inside an array or masked array. -/
def arrayOf : Loaded α → Option (NdArr α)
  | .arr a => some a
  | .masked a _ => some a
  | _ => none

/-- Spec: `r` is what a user expects to find for the array `a` of the file: a single element as such; otherwise an
array with the same elements in the same order, of the same dtype, without the dimensions of length 1; it is a
masked array exactly when masking is asked for and an array of floats has an element that is not finite, and then
exactly those elements are masked. -/
def ExpectedArray (bad : α → Bool) (masked : Bool) (a : NdArr α) (r : Loaded α) : Prop :=
  (∀ x, a.data = [x] → r = .item x) ∧
  (a.data.length ≠ 1 →
    arrayOf r = some ⟨a.shape.filter (· ≠ 1), a.kind, a.dtype, a.data⟩ ∧
    seen r = a.data.map (fun x => if masked = true ∧ a.kind = 'f' ∧ bad x = true then none else some x) ∧
    ((∃ b m, r = .masked b m) ↔ masked = true ∧ a.kind = 'f' ∧ ∃ x ∈ a.data, bad x = true))

theorem crunch_expected (bad : α → Bool) (masked : Bool) (a : NdArr α) :
    ExpectedArray bad masked a (crunch bad a masked) := by
  constructor
  · intro x hx
    simp [crunch, hx]
  · intro hl
    have hc : crunch bad a masked = if masked && a.kind == 'f' && a.data.any bad then
        .masked a.squeeze (a.data.map bad) else .arr a.squeeze := by
      unfold crunch
      split
      · rename_i x hx
        rw [hx] at hl
        simp at hl
      · rfl
    rw [hc]
    by_cases h : (masked && a.kind == 'f' && a.data.any bad) = true
    · rw [if_pos h]
      simp only [Bool.and_eq_true, beq_iff_eq, List.any_eq_true] at h
      refine ⟨rfl, ?_, ?_⟩
      · simp only [seen, NdArr.squeeze, List.zipWith_map_right, List.zipWith_self, h.1.1, h.1.2, true_and]
      · exact ⟨fun _ => ⟨h.1.1, h.1.2, h.2⟩, fun _ => ⟨_, _, rfl⟩⟩
    · rw [if_neg h]
      simp only [Bool.and_eq_true, beq_iff_eq, List.any_eq_true, not_and, not_exists, and_imp] at h
      refine ⟨rfl, ?_, ?_⟩
      · simp only [seen, NdArr.squeeze]
        refine List.map_congr_left fun x hx => ?_
        rw [if_neg]
        rintro ⟨h1, h2, h3⟩
        exact h h1 h2 x hx h3
      · constructor
        · rintro ⟨b, m, hb⟩
          cases hb
        · rintro ⟨h1, h2, x, hx, h3⟩
          exact absurd h3 (h h1 h2 x hx)

theorem get?_mapVal {V W : Type} (f : V → W) (l : List (String × V)) (k : String) :
    Dict.get? (l.map fun kv => (kv.1, f kv.2)) k = (Dict.get? l k).map f := by
  induction l with
  | nil => rfl
  | cons a l ih =>
    obtain ⟨a1, a2⟩ := a
    simp only [List.map_cons, get?_cons, ih]
    split <;> rfl

theorem loadedAt_structured (bad : α → Bool) (masked : Bool) (path : List String) (v : MatVal α) :
    LoadedAt (structuredToBunch bad masked v) path = (MatAt v path).map (structuredToBunch bad masked) := by
  induction path generalizing v with
  | nil => cases v <;> simp [LoadedAt, MatAt]
  | cons k path ih =>
    cases v with
    | str s => simp [structuredToBunch, LoadedAt, MatAt]
    | arr a =>
      simp only [structuredToBunch, MatAt, Option.map_none]
      unfold crunch
      split
      · rfl
      · split <;> rfl
    | struct fields =>
      simp only [structuredToBunch, LoadedAt, MatAt, get?_mapVal]
      cases Dict.get? fields k with
      | none => rfl
      | some w => simp [ih w]

/-- Spec: what is found where the file has `v`. -/
def Expected (bad : α → Bool) (masked : Bool) : Option (MatVal α) → Option (Loaded α) → Prop
  | none, r => r = none
  | some (.str s), r => r = some (.str s)
  | some (.struct fields), r => ∃ fs, r = some (.bunch fs) ∧ Dict.keys fs = fields.map Prod.fst
  | some (.arr a), r => ∃ w, r = some w ∧ ExpectedArray bad masked a w

/-- Spec: names that begin with two underscores. -/
def HiddenName (k : String) : Prop := ∃ rest, k.toList = '_' :: '_' :: rest

theorem hidden_iff (k : String) : "__".toList <+: k.toList ↔ HiddenName k := by
  constructor
  · rintro ⟨r, hr⟩
    exact ⟨r, hr.symm⟩
  · rintro ⟨r, hr⟩
    exact ⟨r, hr.symm⟩

theorem suffix_iff (e s : String) : e.toList <:+ s.toList ↔ ∃ stem, s = stem ++ e := by
  constructor
  · rintro ⟨r, hr⟩
    exact ⟨String.ofList r, String.toList_inj.mp (by simp [hr])⟩
  · rintro ⟨stem, rfl⟩
    exact ⟨stem.toList, by simp⟩

theorem get?_filter_key {V : Type} (l : List (String × V)) (f : String → Bool) (k : String) :
    Dict.get? (l.filter fun kv => f kv.1) k = if f k then Dict.get? l k else none := by
  induction l with
  | nil => simp [Dict.get?]
  | cons a l ih =>
    obtain ⟨a1, a2⟩ := a
    by_cases ha : f a1 = true
    · rw [List.filter_cons_of_pos (p := fun kv : String × V => f kv.1) ha, get?_cons, get?_cons, ih]
      by_cases h : a1 = k
      · subst h; simp [ha]
      · simp [h]
    · rw [List.filter_cons_of_neg (p := fun kv : String × V => f kv.1) ha, get?_cons, ih]
      by_cases h : a1 = k
      · subst h; simp [ha]
      · simp [h]

/-- C87: `loadbunch` of a .mat or .npz file returns a Bunch with the variables of the file whose names do not begin
with two underscores, in their order; following the same names through nested structures one finds the same strings
and arrays, with non-finite floats masked. -/
theorem C87_load (bad : α → Bool) (read : String → List (String × MatVal α)) (fname : String) (masked : Bool)
    (hext : (∃ stem, fname = stem ++ ".mat") ∨ ∃ stem, fname = stem ++ ".npz")
    (hk : ((read fname).map Prod.fst).Nodup) :
    ∃ out, loadbunch bad read fname masked = .ok out ∧
      (∀ k, k ∈ Dict.keys out ↔ k ∈ (read fname).map Prod.fst ∧ ¬ HiddenName k) ∧
      (Dict.keys out).Sublist ((read fname).map Prod.fst) ∧
      ∀ k path, ¬ HiddenName k → Expected bad masked ((Dict.get? (read fname) k).bind fun v => MatAt v path)
        ((Dict.get? out k).bind fun v => LoadedAt v path) := by
  have hx : ".mat".toList <:+ fname.toList ∨ ".npz".toList <:+ fname.toList := by
    rw [suffix_iff, suffix_iff]; exact hext
  set vars := (read fname).filter fun kv => !decide ("__".toList <+: kv.1.toList) with hv
  have hsub : (vars.map Prod.fst).Sublist ((read fname).map Prod.fst) := (List.filter_sublist).map _
  have hl : loadbunch bad read fname masked = .ok (vars.map fun kv => (kv.1, structuredToBunch bad masked kv.2)) := by
    unfold loadbunch
    rw [if_pos hx, foldl_set (structuredToBunch bad masked) vars [] (hsub.nodup hk)]
    rfl
  have hkeys : Dict.keys (vars.map fun kv => (kv.1, structuredToBunch bad masked kv.2)) = vars.map Prod.fst := by
    simp [keys, Function.comp_def]
  refine ⟨_, hl, ?_, ?_, ?_⟩
  · intro k
    rw [hkeys, ← hidden_iff]
    simp only [hv, List.mem_map, List.mem_filter, Bool.not_eq_true', decide_eq_false_iff_not]
    constructor
    · rintro ⟨a, ⟨h1, h2⟩, rfl⟩
      exact ⟨⟨a, h1, rfl⟩, h2⟩
    · rintro ⟨⟨a, h1, rfl⟩, h2⟩
      exact ⟨a, ⟨h1, h2⟩, rfl⟩
  · rw [hkeys]; exact hsub
  · intro k path hh
    rw [get?_mapVal, hv, get?_filter_key (f := fun k => !decide ("__".toList <+: k.toList)),
      if_pos (by rw [Bool.not_eq_true', decide_eq_false_iff_not, hidden_iff]; exact hh)]
    have : (Option.map (structuredToBunch bad masked) (Dict.get? (read fname) k)).bind (fun v => LoadedAt v path)
        = ((Dict.get? (read fname) k).bind fun v => MatAt v path).map (structuredToBunch bad masked) := by
      cases Dict.get? (read fname) k with
      | none => rfl
      | some w => exact loadedAt_structured bad masked path w
    rw [this]
    cases (Dict.get? (read fname) k).bind fun v => MatAt v path with
    | none => rfl
    | some w =>
      cases w with
      | str s => simp [Expected, structuredToBunch]
      | struct fields =>
        refine ⟨_, by rw [Option.map_some, structuredToBunch], ?_⟩
        simp [keys, Function.comp_def]
      | arr a =>
        refine ⟨_, by rw [Option.map_some, structuredToBunch], ?_⟩
        exact crunch_expected bad masked a

/-- C87: any other file name is refused. -/
theorem C87_other (bad : α → Bool) (read : String → List (String × MatVal α)) (fname : String) (masked : Bool)
    (h1 : ∀ stem, fname ≠ stem ++ ".mat") (h2 : ∀ stem, fname ≠ stem ++ ".npz") :
    loadbunch bad read fname masked = .error .valueError := by
  unfold loadbunch
  rw [if_neg]
  rw [suffix_iff, suffix_iff]
  rintro (⟨s, h⟩ | ⟨s, h⟩)
  · exact h1 s h
  · exact h2 s h

/-- A file with a hidden variable, a structure holding a string and a row of floats with a gap, and a scalar
(`none` plays NaN). -/
def sampleFile : List (String × MatVal (Option ℕ)) :=
  [("__header__", .str "MATLAB"),
   ("c", .struct [("name", .str "tide"), ("u", .arr ⟨[1, 3], 'f', "float64", [some 1, none, some 2]⟩)]),
   ("lat", .arr ⟨[1, 1], 'f', "float64", [some 50]⟩)]

example : (∃ stem, "a.mat" = stem ++ ".mat") ∧ (sampleFile.map Prod.fst).Nodup :=
  ⟨⟨"a", rfl⟩, by decide⟩

example : ∃ out, loadbunch Option.isNone (fun _ => sampleFile) "a.mat" = .ok out ∧
    ((Dict.get? out "c").bind fun v => LoadedAt v ["u"]) =
      some (.masked ⟨[3], 'f', "float64", [some 1, none, some 2]⟩ [false, true, false]) ∧
    Dict.get? out "lat" = some (.item (some 50)) := by
  refine ⟨_, rfl, ?_, ?_⟩
  · simp [sampleFile, structuredToBunch, LoadedAt, crunch, Dict.get?, Dict.set, NdArr.squeeze]
  · simp [sampleFile, structuredToBunch, crunch, Dict.get?, Dict.set, NdArr.squeeze]

end loading

/-! ### Showing what was loaded -/

section showing
variable {α : Type}

/-- Spec: following the keys `path` into the Bunch one finds `v`, which is not a Bunch. -/
inductive LeafAt : List (String × Loaded α) → List String → Loaded α → Prop
  | here {b k v} : (k, v) ∈ b → (∀ fs, v ≠ .bunch fs) → LeafAt b [k] v
  | there {b k fs path v} : (k, .bunch fs) ∈ b → LeafAt fs path v → LeafAt b (k :: path) v

/-- Spec: number of leaves. -/
def leafCount : List (String × Loaded α) → ℕ
  | [] => 0
  | (_, .bunch fs) :: rest => leafCount fs + leafCount rest
  | (_, _) :: rest => 1 + leafCount rest

/-- Spec: the name shown for a path, with the dot it begins with. -/
def dotted (path : List String) : String := String.join (path.map fun k => "." ++ k)

/-- Spec: all leaves with their paths. -/
def leaves (pre : List String) : List (String × Loaded α) → List (List String × Loaded α)
  | [] => []
  | (k, .bunch fs) :: rest => leaves (pre ++ [k]) fs ++ leaves pre rest
  | (k, v) :: rest => (pre ++ [k], v) :: leaves pre rest

theorem leaves_mem (pre : List String) (b : List (String × Loaded α)) (path : List String) (v : Loaded α) :
    (path, v) ∈ leaves pre b ↔ ∃ p, path = pre ++ p ∧ LeafAt b p v := by
  induction pre, b using leaves.induct generalizing path v with
  | case1 pre =>
    simp only [leaves, List.not_mem_nil, false_iff, not_exists, not_and]
    rintro p - h
    cases h <;> simp_all
  | case2 pre k fs rest ih1 ih2 =>
    simp only [leaves, List.mem_append, ih1, ih2]
    constructor
    · rintro (⟨p, rfl, h⟩ | ⟨p, rfl, h⟩)
      · exact ⟨k :: p, by simp, .there (by simp) h⟩
      · refine ⟨p, rfl, ?_⟩
        cases h with
        | here h1 h2 => exact .here (List.mem_cons_of_mem _ h1) h2
        | there h1 h2 => exact .there (List.mem_cons_of_mem _ h1) h2
    · rintro ⟨p, rfl, h⟩
      cases h with
      | here h1 h2 =>
        rcases List.mem_cons.mp h1 with e | h1
        · exact absurd (Prod.mk.inj e).2 (h2 fs)
        · exact .inr ⟨_, rfl, .here h1 h2⟩
      | there h1 h2 =>
        rcases List.mem_cons.mp h1 with e | h1
        · obtain ⟨rfl, e2⟩ := Prod.mk.inj e
          cases e2
          exact .inl ⟨_, by simp, h2⟩
        · exact .inr ⟨_, rfl, .there h1 h2⟩
  | case3 pre k w rest hw ih =>
    have hw' : ∀ fs, w ≠ .bunch fs := fun fs e => hw fs e
    rw [leaves.eq_3 _ _ _ _ hw, List.mem_cons, ih]
    constructor
    · rintro (e | ⟨p, rfl, h⟩)
      · obtain ⟨rfl, rfl⟩ := Prod.mk.inj e
        exact ⟨[k], rfl, .here (by simp) hw'⟩
      · refine ⟨p, rfl, ?_⟩
        cases h with
        | here h1 h2 => exact .here (List.mem_cons_of_mem _ h1) h2
        | there h1 h2 => exact .there (List.mem_cons_of_mem _ h1) h2
    · rintro ⟨p, rfl, h⟩
      cases h with
      | here h1 h2 =>
        rcases List.mem_cons.mp h1 with e | h1
        · obtain ⟨rfl, rfl⟩ := Prod.mk.inj e
          exact .inl rfl
        · exact .inr ⟨_, rfl, .here h1 h2⟩
      | there h1 h2 =>
        rcases List.mem_cons.mp h1 with e | h1
        · exact absurd (Prod.mk.inj e).2.symm (hw' _)
        · exact .inr ⟨_, rfl, .there h1 h2⟩

theorem leaves_length (pre : List String) (b : List (String × Loaded α)) : (leaves pre b).length = leafCount b := by
  induction pre, b using leaves.induct with
  | case1 pre => simp [leaves, leafCount]
  | case2 pre k fs rest ih1 ih2 => simp [leaves, leafCount, ih1, ih2]
  | case3 pre k w rest hw ih =>
    rw [leaves.eq_3 _ _ _ _ hw, leafCount.eq_3 _ _ _ hw, List.length_cons, ih, Nat.add_comm]

theorem dotted_snoc (pre : List String) (k : String) : dotted (pre ++ [k]) = dotted pre ++ "." ++ k := by
  simp [dotted, String.append_assoc]

theorem showElements_eq (describe : Loaded α → String) (pre : List String) (b : List (String × Loaded α)) :
    showElements describe (dotted pre) b = (leaves pre b).map fun pv => (dotted pv.1, showEntry describe pv.2) := by
  induction pre, b using leaves.induct with
  | case1 pre => simp [leaves, showElements]
  | case2 pre k fs rest ih1 ih2 => simp only [showElements, leaves, List.map_append, ← ih1, ← ih2, dotted_snoc]
  | case3 pre k w rest hw ih =>
    rw [leaves.eq_3 _ _ _ _ hw, showElements.eq_3 _ _ _ _ _ hw, List.map_cons, ← ih, dotted_snoc]

theorem dotted_drop (k : String) (path : List String) :
    String.ofList ((dotted (k :: path)).toList.drop 1) = k ++ dotted path := by
  apply String.toList_inj.mp
  simp [dotted]

/-- Spec: the entry shown for a leaf: a string of fewer than 50 characters as it is, a longer one by its length, anything
else by its description. -/
def shownEntry (describe : Loaded α → String) (v : Loaded α) (e : String) : Prop :=
  (∀ s, v = .str s → s.length < 50 → e = s) ∧
  (∀ s, v = .str s → 50 ≤ s.length → e = "string, " ++ toString s.length ++ " characters") ∧
  ((∀ s, v ≠ .str s) → e = describe v)

/-- C88: `showmatbunch(b)` prints one line for every item found in the Bunch and the Bunches inside it, the names joined
by dots, in the order of the names; a Bunch without items cannot be shown. -/
theorem C88_show (describe : Loaded α → String) (b : Bunch (Loaded α)) (hb : ∃ path v, LeafAt b path v) :
    ∃ (l : List (List String × Loaded α)) (entry : Loaded α → String) (w : ℕ),
      (∀ path v, (path, v) ∈ l ↔ LeafAt b path v) ∧ l.length = leafCount b ∧
      (l.Pairwise fun x y => dotted x.1 ≤ dotted y.1) ∧
      (∀ v, shownEntry describe v (entry v)) ∧
      IsMax (fun pv : List String × Loaded α => (dotted pv.1).length) l w ∧
      showmatbunch describe b = .ok (String.join (l.map fun pv =>
        match pv.1 with
        | [] => ""
        | k :: rest => (k ++ dotted rest) ++ blanks (min 40 w - (k ++ dotted rest).length) ++ " : " ++ entry pv.2
            ++ "\n")) := by
  set f : List String × Loaded α → String × String := fun pv => (dotted pv.1, showEntry describe pv.2) with hf
  set le : String × String → String × String → Bool := fun x y => decide (toLex x ≤ toLex y) with hle
  set l := (leaves [] b).mergeSort fun x y => le (f x) (f y) with hl
  have hperm : l.Perm (leaves [] b) := List.mergeSort_perm _ _
  have hmem : ∀ path v, (path, v) ∈ l ↔ LeafAt b path v := by
    intro path v
    rw [hperm.mem_iff, leaves_mem]
    simp
  have hne : l ≠ [] := by
    obtain ⟨path, v, h⟩ := hb
    exact List.ne_nil_of_mem ((hmem path v).mpr h)
  have hsort : sortElements (showElements describe "" b) = l.map f := by
    have : showElements describe "" b = (leaves [] b).map f := showElements_eq describe [] b
    rw [this, hl, List.map_mergeSort (s := le) (fun a _ b _ => rfl)]
    rfl
  obtain ⟨m, hm, hm1, hm2⟩ := pyMax_spec ((l.map f).map fun nv => nv.1.length) (by simpa using hne)
  refine ⟨l, showEntry describe, m, hmem, ?_, ?_, ?_, ?_, ?_⟩
  · rw [hperm.length_eq, leaves_length]
  · have := List.pairwise_mergeSort (le := fun x y => le (f x) (f y))
      (fun a b c h1 h2 => by
        simp only [hle, decide_eq_true_eq] at h1 h2 ⊢
        exact le_trans h1 h2)
      (fun a b => by
        simp only [hle, Bool.or_eq_true, decide_eq_true_eq]
        exact le_total _ _) (leaves [] b)
    refine List.Pairwise.imp ?_ this
    intro x y hxy
    simp only [hle, hf, decide_eq_true_eq, Prod.Lex.toLex_le_toLex] at hxy
    rcases hxy with h | h
    · exact h.le
    · exact h.1.le
  · intro v
    refine ⟨?_, ?_, ?_⟩
    · rintro s rfl h
      simp [showEntry, h]
    · rintro s rfl h
      simp only [showEntry, not_lt.mpr h, if_false]
      rfl
    · intro h
      cases v with
      | str s => exact absurd rfl (h s)
      | _ => rfl
  · rw [List.map_map] at hm1 hm2
    obtain ⟨x, hx, he⟩ := List.mem_map.mp hm1
    exact ⟨⟨x, hx, he⟩, fun y hy => hm2 _ (List.mem_map.mpr ⟨y, hy, rfl⟩)⟩
  · unfold showmatbunch
    simp only [hsort, hm, bind, Except.bind]
    rw [List.map_map]
    congr 2
    refine List.map_congr_left fun pv hpv => ?_
    obtain ⟨path, v⟩ := pv
    cases path with
    | nil => cases (hmem [] v).mp hpv
    | cons k rest => simp only [Function.comp, hf, dotted_drop]; rfl

/-- C88: a Bunch without any item, even if it holds empty Bunches, cannot be shown. -/
theorem C88_empty (describe : Loaded α → String) (b : Bunch (Loaded α)) (hb : ¬ ∃ path v, LeafAt b path v) :
    showmatbunch describe b = .error .valueError := by
  have : leaves [] b = [] := by
    rw [List.eq_nil_iff_forall_not_mem]
    rintro ⟨path, v⟩ h
    obtain ⟨p, -, hp⟩ := (leaves_mem [] b path v).mp h
    exact hb ⟨p, v, hp⟩
  have h2 : showElements describe "" b = [] := by
    have := showElements_eq describe [] b
    rw [‹leaves [] b = []›] at this
    exact this
  unfold showmatbunch
  rw [h2]
  simp only [sortElements, List.mergeSort_nil]
  rfl

example : LeafAt (α := ℕ) [("a", .bunch [("b", .str "x")]), ("c", .bunch [])] ["a", "b"] (.str "x") ∧
    ¬ ∃ path v, LeafAt (α := ℕ) [("c", .bunch [])] path v := by
  refine ⟨.there (fs := [("b", .str "x")]) (by simp) (.here (by simp) (by simp)), ?_⟩
  rintro ⟨path, v, h⟩
  cases h with
  | here h1 h2 => simp at h1; exact h2 _ h1.2
  | there h1 h2 =>
    simp at h1
    obtain ⟨-, rfl⟩ := h1
    cases h2 <;> simp_all

end showing

/-! ### Strings in loaded arrays -/

section unicode
variable {α : Type}

/-- Spec: the white space of Unicode as Python sees it: tab, line feed, vertical tab, form feed, carriage return, the four
information separators, space, next line, no-break space, Ogham space, the spaces from en quad to hair space, line and
paragraph separators, narrow no-break space, medium mathematical space, ideographic space. -/
def whiteSpace : List Char :=
  ['\x09', '\x0a', '\x0b', '\x0c', '\x0d', '\x1c', '\x1d', '\x1e', '\x1f', ' ', '\u0085', '\u00a0', '\u1680', '\u2000',
   '\u2001', '\u2002', '\u2003', '\u2004', '\u2005', '\u2006', '\u2007', '\u2008', '\u2009', '\u200a', '\u2028', '\u2029',
   '\u202f', '\u205f', '\u3000']

theorem isPySpace_iff (c : Char) : isPySpace c = true ↔ c ∈ whiteSpace := by
  have h : ∀ d : Char, c = d ↔ c.toNat = d.toNat := fun d => by
    constructor
    · rintro rfl; rfl
    · intro h
      rw [← Char.ofNat_toNat c, h, Char.ofNat_toNat]
  unfold isPySpace whiteSpace
  simp only [List.mem_cons, List.not_mem_nil, or_false, h]
  generalize c.toNat = n
  simp only [Bool.or_eq_true, Bool.and_eq_true, decide_eq_true_eq, beq_iff_eq, Char.reduceToNat]
  omega

/-- Spec: the value ends in white space. -/
def TrailingSpace (s : String) : Prop := ∃ pre c, s.toList = pre ++ [c] ∧ c ∈ whiteSpace

/-- Spec: `r` is `s` without the white space at its end. -/
def Stripped (s r : String) : Prop :=
  ¬ TrailingSpace r ∧ ∃ blank : List Char, (∀ c ∈ blank, c ∈ whiteSpace) ∧ s.toList = r.toList ++ blank

theorem rstrip_stripped (s : String) : Stripped s (rstrip s) := by
  constructor
  · rintro ⟨pre, c, h, hc⟩
    have h' : s.toList.rdropWhile isPySpace = pre ++ [c] := by simpa [rstrip] using h
    have hne : s.toList.rdropWhile isPySpace ≠ [] := by rw [h']; simp
    have := List.rdropWhile_last_not isPySpace s.toList hne
    simp only [h', List.getLast_append_singleton] at this
    exact this ((isPySpace_iff c).2 hc)
  · refine ⟨s.toList.rtakeWhile isPySpace, fun c hc => (isPySpace_iff c).1 (List.mem_rtakeWhile_imp hc), ?_⟩
    simp [rstrip, List.rdropWhile, List.rtakeWhile, ← List.reverse_append, List.takeWhile_append_dropWhile]

/-- Spec: relation between a value and what `convert_unicode_arrays` should make of it, apart from object arrays. -/
inductive Converted : UVal α → UVal α → Prop
  | strings {n : ℕ} {data out : List String} : List.Forall₂ Stripped data out →
      Converted (.uarr [n] data) (.oarr [data.length] (out.map .str))
  | grid {shape : List ℕ} {data : List String} : shape.length ≠ 1 → Converted (.uarr shape data) (.uarr shape data)
  | objects {n : ℕ} {data out : List (UVal α)} :
      List.Forall₂ (fun x y => (∀ sh s, x = .uarr sh [s] → y = .str s) ∧ ((∀ sh s, x ≠ .uarr sh [s]) → y = x)) data out →
      Converted (.oarr [n] data) (.oarr [n] out)
  | table {shape : List ℕ} {data : List (UVal α)} : 2 ≤ shape.length → Converted (.oarr shape data) (.oarr shape data)
  | dict {fields out : List (String × UVal α)} : fields.map Prod.fst = out.map Prod.fst →
      List.Forall₂ Converted (fields.map Prod.snd) (out.map Prod.snd) → Converted (.dict fields) (.dict out)
  | str (s : String) : Converted (.str s) (.str s)
  | other (x : α) : Converted (.other x) (.other x)

theorem unwrap_spec (x : UVal α) :
    (∀ sh s, x = .uarr sh [s] → unwrap x = .str s) ∧ ((∀ sh s, x ≠ .uarr sh [s]) → unwrap x = x) := by
  constructor
  · rintro sh s rfl
    rfl
  · intro h
    unfold unwrap
    split
    · exact absurd rfl (h _ _)
    · rfl

theorem mapM_forall₂ {A B : Type} (f : A → Except PyErr B) (R : A → B → Prop) (l : List A) (out : List B)
    (hR : ∀ a ∈ l, ∀ b, f a = .ok b → R a b) (h : l.mapM f = .ok out) : List.Forall₂ R l out := by
  induction l generalizing out with
  | nil =>
    rw [List.mapM_nil] at h
    cases h
    exact .nil
  | cons a l ih =>
    rw [List.mapM_cons] at h
    cases ha : f a with
    | error e => rw [ha] at h; cases h
    | ok b =>
      rw [ha] at h
      cases hl : l.mapM f with
      | error e => rw [hl] at h; cases h
      | ok bs =>
        rw [hl] at h
        cases h
        exact .cons (hR a (by simp) b ha) (ih bs (fun x hx => hR x (List.mem_cons_of_mem _ hx)) hl)

theorem forall₂_fst {A B : Type} {R : String × A → String × B → Prop} (hR : ∀ x y, R x y → x.1 = y.1)
    {l : List (String × A)} {m : List (String × B)} (h : List.Forall₂ R l m) : l.map Prod.fst = m.map Prod.fst := by
  induction h with
  | nil => rfl
  | cons h _ ih => rw [List.map_cons, List.map_cons, ih, hR _ _ h]

theorem convertUnicode_spec (v w : UVal α) (h : convertUnicode v = .ok w) : Converted v w := by
  induction v using convertUnicode.induct generalizing w with
  | case1 data => simp [convertUnicode] at h
  | case2 n data =>
    simp only [convertUnicode, Except.ok.injEq] at h
    subst h
    refine .objects ?_
    rw [List.forall₂_map_right_iff]
    exact List.forall₂_same.mpr fun x _ => unwrap_spec x
  | case3 shape data h1 h2 =>
    have hs : 2 ≤ shape.length := by
      match shape, h1, h2 with
      | [], h1, _ => exact absurd rfl h1
      | [n], _, h2 => exact absurd rfl (h2 n)
      | _ :: _ :: _, _, _ => simp
    rw [convertUnicode.eq_3 _ _ h1 h2] at h
    cases h
    exact .table hs
  | case4 n data =>
    simp only [convertUnicode, Except.ok.injEq] at h
    subst h
    have : (data.map fun s => (UVal.str (rstrip s) : UVal α)) = (data.map rstrip).map .str := by
      rw [List.map_map]; rfl
    rw [this]
    refine .strings ?_
    rw [List.forall₂_map_right_iff]
    exact List.forall₂_same.mpr fun x _ => rstrip_stripped x
  | case5 fields ih =>
    rw [convertUnicode] at h
    cases hm : fields.mapM fun kv => (convertUnicode kv.2).map fun v => (kv.1, v) with
    | error e => rw [hm] at h; cases h
    | ok out =>
      rw [hm] at h
      cases h
      have hf : List.Forall₂ (fun x y : String × UVal α => x.1 = y.1 ∧ Converted x.2 y.2) fields out := by
        refine mapM_forall₂ _ _ _ _ ?_ hm
        intro kv hkv b hb
        cases hc : convertUnicode kv.2 with
        | error e => rw [hc] at hb; cases hb
        | ok w =>
          rw [hc] at hb
          cases hb
          exact ⟨rfl, ih kv hkv w hc⟩
      refine .dict (forall₂_fst (fun _ _ h => h.1) hf) ?_
      rw [List.forall₂_map_left_iff, List.forall₂_map_right_iff]
      exact hf.imp fun _ _ h => h.2
  | case6 v h1 h2 h3 h4 h5 =>
    cases v with
    | str s => simp only [convertUnicode, Except.ok.injEq] at h; subst h; exact .str s
    | other x => simp only [convertUnicode, Except.ok.injEq] at h; subst h; exact .other x
    | dict fields => exact absurd rfl (h5 fields)
    | oarr shape data => exact absurd rfl (h3 shape data)
    | uarr shape data =>
      rw [convertUnicode.eq_6 _ h1 h2 h3 h4 h5] at h
      cases h
      refine .grid ?_
      intro hl
      match shape, hl with
      | [n], _ => exact h4 n data rfl

/-- C89, in part: `convert_unicode_arrays` keeps the keys in their order, strips the strings of every 1-D array of
strings, goes into nested dicts, replaces arrays of one string inside 1-D object arrays by the string and leaves
everything else alone. -/
theorem C89_convert_partial (b out : Dict (UVal α)) (h : convertUnicodeArrays b = .ok out) :
    out.keys = b.keys ∧ List.Forall₂ (fun x y => x.1 = y.1 ∧ Converted x.2 y.2) b out := by
  have hf : List.Forall₂ (fun x y => x.1 = y.1 ∧ Converted x.2 y.2) b out := by
    refine mapM_forall₂ _ _ _ _ ?_ h
    intro kv _ c hc
    cases hv : convertUnicode kv.2 with
    | error e => rw [hv] at hc; cases hc
    | ok w =>
      rw [hv] at hc
      cases hc
      exact ⟨rfl, convertUnicode_spec _ _ hv⟩
  exact ⟨(forall₂_fst (fun _ _ h => h.1) hf).symm, hf⟩

/-- C89, the documentation: "The strings have trailing whitespace removed". -/
def C89_full : Prop :=
  ∀ (b out : Dict (UVal Unit)), convertUnicodeArrays b = .ok out →
    ∀ k shape data s, (k, UVal.oarr shape data) ∈ out → UVal.str s ∈ data → ¬ TrailingSpace s

/-- The strings inside object arrays are not stripped. -/
theorem C89_false : ¬ C89_full := by
  intro h
  refine h [("name", .oarr [1] [.uarr [1] ["M2 "]])] [("name", .oarr [1] [.str "M2 "])] (by
    simp [convertUnicodeArrays, convertUnicode, unwrap, Except.map, pure, Except.pure]
    rfl) "name" [1] [.str "M2 "] "M2 "
    (by simp) (by simp) ⟨['M', '2'], ' ', rfl, by simp [whiteSpace]⟩

example : convertUnicodeArrays (α := ℕ) [("name", .uarr [2] ["M2  ", "S2"]), ("n", .other 3),
      ("d", .dict [("k", .uarr [1] ["x "])])]
    = .ok [("name", .oarr [2] [.str "M2", .str "S2"]), ("n", .other 3), ("d", .dict [("k", .oarr [1] [.str "x"])])] := by
  simp [convertUnicodeArrays, convertUnicode, Except.map, pure, Except.pure, bind, Except.bind]
  decide

end unicode

end Props
end UTide
