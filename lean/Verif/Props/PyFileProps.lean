import Verif.Model.PyFile
import Verif.Lemmas.Selection
import Verif.Props.BunchBuild

/-!
# Reading variables from a Python file: C142
-/

namespace UTide
namespace Props
open Dict
variable {V : Type}

/-! ## Specification -/

/-- The text with four blanks at the start of each of its lines; `start` says whether a line is about to begin. -/
def indented : Bool → List Char → List Char
  | _, [] => []
  | start, c :: cs => (if start then [' ', ' ', ' ', ' '] else []) ++ c :: indented (c = '\n') cs

/-! ## Lemmas -/

theorem fileLines_indented (cs : List Char) :
    ((fileLines cs).map fun line => "    ".toList ++ line).flatten = indented true cs := by
  have key : ∀ cs, ((fileLines cs).map fun line => "    ".toList ++ line).flatten = indented true cs ∧
      (indented false cs = match fileLines cs with
        | [] => []
        | l :: ls => l ++ (ls.map fun line => "    ".toList ++ line).flatten) := by
    intro cs
    induction cs with
    | nil => exact ⟨rfl, rfl⟩
    | cons c cs ih =>
      obtain ⟨h1, h2⟩ := ih
      by_cases hc : c = '\n'
      · subst hc
        constructor
        · simp only [fileLines, if_true, List.map_cons, List.flatten_cons, h1, indented, decide_true]
          rfl
        · simp only [fileLines, if_true, indented, decide_true, ← h1]
          rfl
      · simp only [fileLines, if_neg hc, indented, decide_eq_false hc, if_true, Bool.false_eq_true, if_false]
        rw [h2]
        cases hl : fileLines cs with
        | nil => exact ⟨rfl, rfl⟩
        | cons l ls => exact ⟨rfl, rfl⟩
  exact (key cs).1

/-! ## C142 -/

/-- **C142**, the program: the file becomes the body of a function that returns its variables; nothing is changed but
that every line, also one inside a string literal, starts with four more blanks. -/
theorem C142_program (text : List Char) :
    pyfileText text = "def _temp_func():\n".toList ++ indented true text ++
      "\n    return(locals())\n_temp_out = _temp_func()\ndel(_temp_func)\n".toList := by
  unfold pyfileText
  rw [List.flatten_append, List.flatten_append, fileLines_indented]
  rfl

/-- **C142**, the effect: if the program gives the variables `d`, the Bunch has these values for them, keeps all other
entries, and its keys are the old ones followed by the new ones in the order of `d`. -/
theorem C142_effect (run : List Char → Except PyErr (Dict V)) (b b' : Bunch V) (file : Except PyErr (List Char))
    (h : b.fromPyfile run file = .ok b') :
    ∃ text d, file = .ok text ∧ run ("def _temp_func():\n".toList ++ indented true text ++
        "\n    return(locals())\n_temp_out = _temp_func()\ndel(_temp_func)\n".toList) = .ok d ∧
      (∀ k, b'.get? k = (lastGiven d k).or (b.get? k)) ∧
      (d.keys.Nodup → b'.keys = b.keys ++ d.keys.filter fun k => k ∉ b.keys) := by
  unfold Bunch.fromPyfile at h
  cases file with
  | error e => cases h
  | ok text =>
    simp only [bind, Except.bind, pure, Except.pure] at h
    cases hd : run (pyfileText text) with
    | error e => rw [hd] at h; cases h
    | ok d =>
      rw [hd] at h
      cases h
      refine ⟨text, d, rfl, (C142_program text) ▸ hd, fun k => ?_, fun hn => ?_⟩
      · rw [get?_update_last, get?_reverse_last]
      · rw [keys_update_firsts]
        congr 1
        have : ∀ l : List String, l.Nodup → firsts l = l := by
          intro l
          induction l with
          | nil => intro _; rfl
          | cons a l ih =>
            intro hl
            rw [List.nodup_cons] at hl
            unfold firsts
            rw [ih hl.2, List.filter_eq_self.2]
            intro x hx
            rw [bne_iff_ne]
            rintro rfl
            exact hl.1 hx
        rw [this _ hn]

/-- **C142**, failures: an exception in opening the file or in running the program is passed on, and there is no other. -/
theorem C142_raises (run : List Char → Except PyErr (Dict V)) (b : Bunch V) (file : Except PyErr (List Char)) (e : PyErr) :
    b.fromPyfile run file = .error e ↔ file = .error e ∨ ∃ text, file = .ok text ∧ run (pyfileText text) = .error e := by
  unfold Bunch.fromPyfile
  cases file with
  | error e' =>
    simp only [bind, Except.bind]
    constructor
    · intro h
      cases h
      exact .inl rfl
    · rintro (h | ⟨_, h, _⟩)
      · cases h
        rfl
      · cases h
  | ok text =>
    simp only [bind, Except.bind, pure, Except.pure]
    cases hd : run (pyfileText text) with
    | error e' =>
      constructor
      · intro h
        cases h
        exact .inr ⟨text, rfl, hd⟩
      · rintro (h | ⟨t, h, h'⟩)
        · cases h
        · cases h
          rw [hd] at h'
          cases h'
          rfl
    | ok d =>
      constructor
      · intro h
        cases h
      · rintro (h | ⟨t, h, h'⟩)
        · cases h
        · cases h
          rw [hd] at h'
          cases h'

/-! Non-vacuity. -/

/-- The continuation line of a string literal is indented as well. -/
example : String.ofList (pyfileText "a = 1\ns = '''x\ny'''\n".toList) =
    "def _temp_func():\n    a = 1\n    s = '''x\n    y'''\n\n    return(locals())\n_temp_out = _temp_func()\ndel(_temp_func)\n" := by
  decide +kernel

example : Bunch.fromPyfile (V := ℕ) (fun _ => .ok [("a", 1), ("c", 2)]) [("a", 7), ("b", 8)] (.ok "a = 1\nc = 2\n".toList) =
    .ok [("a", 1), ("b", 8), ("c", 2)] := by
  rfl

end Props
end UTide
