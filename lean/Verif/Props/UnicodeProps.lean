import Verif.Props.PrintProps

/-!
# Converting a loaded Bunch again (C89)
-/

namespace UTide
namespace Props
open Dict

variable {α : Type}

theorem unwrap_unwrap (v : UVal α) : unwrap (unwrap v) = unwrap v := by
  by_cases h : ∃ shape s, v = .uarr shape [s]
  · obtain ⟨shape, s, rfl⟩ := h
    rfl
  · have hv : unwrap v = v := by
      unfold unwrap
      split
      · rename_i shape s
        exact absurd ⟨shape, s, rfl⟩ h
      · rfl
    rw [hv, hv]

theorem mapM_ok_self {A : Type} (f : A → Except PyErr A) (l : List A) (h : ∀ a ∈ l, f a = .ok a) :
    l.mapM f = .ok l := by
  induction l with
  | nil => rfl
  | cons a l ih =>
    rw [List.mapM_cons, h a (by simp), ih fun b hb => h b (by simp [hb])]
    rfl

theorem fields_again (fields out : List (String × UVal α))
    (ih : ∀ kv ∈ fields, ∀ w, convertUnicode kv.2 = .ok w → convertUnicode w = .ok w)
    (h : (fields.mapM fun kv => (convertUnicode kv.2).map fun v => (kv.1, v)) = .ok out) :
    (out.mapM fun kv => (convertUnicode kv.2).map fun v => (kv.1, v)) = .ok out := by
  have hf : List.Forall₂ (fun _ y : String × UVal α => convertUnicode y.2 = .ok y.2) fields out := by
    refine mapM_forall₂ _ _ _ _ ?_ h
    intro kv hkv b hb
    cases hc : convertUnicode kv.2 with
    | error e => rw [hc] at hb; cases hb
    | ok w =>
      rw [hc] at hb
      cases hb
      exact ih kv hkv w hc
  refine mapM_ok_self _ _ ?_
  clear h ih
  induction hf with
  | nil => simp
  | cons h _ ih =>
    intro a ha
    rcases List.mem_cons.mp ha with rfl | ha
    · rw [h]; rfl
    · exact ih a ha

theorem convertUnicode_again (v w : UVal α) (h : convertUnicode v = .ok w) : convertUnicode w = .ok w := by
  induction v using convertUnicode.induct generalizing w with
  | case1 data => simp [convertUnicode] at h
  | case2 n data =>
    simp only [convertUnicode, Except.ok.injEq] at h
    subst h
    simp only [convertUnicode, List.map_map]
    congr 2
    exact List.map_congr_left fun x _ => unwrap_unwrap x
  | case3 shape data h1 h2 =>
    rw [convertUnicode.eq_3 _ _ h1 h2] at h
    cases h
    exact convertUnicode.eq_3 _ _ h1 h2
  | case4 n data =>
    simp only [convertUnicode, Except.ok.injEq] at h
    subst h
    simp only [convertUnicode, List.map_map]
    congr 2
  | case5 fields ih =>
    rw [convertUnicode] at h
    cases hm : fields.mapM fun kv => (convertUnicode kv.2).map fun v => (kv.1, v) with
    | error e => rw [hm] at h; cases h
    | ok out =>
      rw [hm] at h
      cases h
      rw [convertUnicode, fields_again fields out ih hm]
      rfl
  | case6 v h1 h2 h3 h4 h5 =>
    have hv : convertUnicode v = .ok v := by
      unfold convertUnicode
      split <;> simp_all
    rw [hv] at h
    cases h
    exact hv

/-- C89: what `convert_unicode_arrays` returns it returns unchanged when it is given it again. -/
theorem C89_again (b out : Dict (UVal α)) (h : convertUnicodeArrays b = .ok out) :
    convertUnicodeArrays out = .ok out :=
  fields_again b out (fun kv _ w hw => convertUnicode_again kv.2 w hw) h

example : convertUnicodeArrays (α := ℕ) [("name", .oarr [2] [.str "M2", .str "S2"])]
    = .ok [("name", .oarr [2] [.str "M2", .str "S2"])] := by
  refine C89_again [("name", .uarr [2] ["M2  ", "S2"])] _ ?_
  simp [convertUnicodeArrays, convertUnicode, Except.map, pure, Except.pure, bind, Except.bind]
  decide

end Props
end UTide
