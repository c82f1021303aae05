import Verif.Model.Args
import Verif.Props.OutputExample

/-!
# Lists and tuples as arguments: C105
-/

namespace UTide.Props

noncomputable section

open Classical

/-! ## Specification -/

/-- A list or tuple. -/
def Arg.IsPlain {α : Type} : Arg α → Prop
  | .array _ => False
  | .plain _ => True

/-- **C105**, as documented ("t, u, v: array_like"): lists and tuples give the same as arrays of the same elements, in `solve`
and in `reconstruct`. -/
def C105_full : Prop :=
  (∀ (E : Env) (t : Arg TimeArg) (u : Arg Series) (v : Option (Arg Series)) (lat : Option ℝ) (opts : Dict PyVal),
    solveArgs E t u v lat opts = solve E t.elements u.elements (v.map Arg.elements) lat opts) ∧
  ∀ (E : Env) (t t' : Arg TimeArg) (c : Coef) (a : RecArgs), t.elements = t'.elements →
    reconstructArgs E t c a = reconstructArgs E t' c a

/-! ## Lemmas -/

theorem solve_shapes {E : Env} {t : TimeArg} {u : Series} {v : Option Series} {lat : Option ℝ} {opts : Dict PyVal} :
    solve E t u v lat opts = (do
      let _ ← getOpt opts v.isSome
      raiseIf lat.isNone .valueError
      raiseIf (t.shape != u.shape || t.shape.length != 1 || u.shape.length != 1) .valueError
      solve E t u v lat opts) := by
  rcases h1 : getOpt opts v.isSome with e | opt
  · simp only [solve, h1]; rfl
  · cases lat with
    | none => simp only [solve, h1, stagePrep, stageInit, slvInit]; rfl
    | some lat =>
      by_cases h2 : (t.shape != u.shape || t.shape.length != 1 || u.shape.length != 1) = true
      · simp only [solve, h1, stagePrep, stageInit, slvInit, checkShapes, raiseIf, h2, if_true]; rfl
      · simp only [raiseIf, h2]; rfl

/-! ## C105 -/

/-- **C105** (`_partial`: the documented property is `C105_full`; for `solve` it does not hold, `C105_false`). Arrays are
taken as they are; a list or tuple as `t` or `u` is an AttributeError as soon as options and latitude are in order, as `v` as
soon as the shapes of the others are; no call with a list or tuple returns. `reconstruct` takes lists like arrays: with at
most one axis (nested lists have more) it computes the series, with more it raises ValueError. -/
theorem C105_partial (E : Env) (t : Arg TimeArg) (u : Arg Series) (v : Option (Arg Series)) (lat : Option ℝ) (opts : Dict PyVal) :
    ((¬ Arg.IsPlain t ∧ ¬ Arg.IsPlain u ∧ ∀ w, v = some w → ¬ Arg.IsPlain w) →
      solveArgs E t u v lat opts = solve E t.elements u.elements (v.map Arg.elements) lat opts) ∧
    ((Arg.IsPlain t ∨ Arg.IsPlain u ∨ ∃ w, v = some w ∧ Arg.IsPlain w) →
      (∀ c, solveArgs E t u v lat opts ≠ .ok c) ∧
      ((∃ opt, getOpt opts v.isSome = .ok opt) → lat ≠ none →
        (Arg.IsPlain t ∨ Arg.IsPlain u ∨ (t.elements.shape = u.elements.shape ∧ t.elements.shape.length = 1)) →
        solveArgs E t u v lat opts = .error .attributeError)) ∧
    ∀ (c : Coef) (a : RecArgs),
      (∀ t' : Arg TimeArg, t.elements = t'.elements → reconstructArgs E t c a = reconstructArgs E t' c a) ∧
      (t.elements.shape.length ≤ 1 → reconstructArgs E t c a = reconstruct E t.elements.arr c a) ∧
      (2 ≤ t.elements.shape.length → reconstructArgs E t c a = .error .valueError) := by
  refine ⟨?_, fun hp => ?_, fun c a => ⟨fun t' h => by simp only [reconstructArgs, h], fun h => ?_, fun h => ?_⟩⟩
  · rintro ⟨ht, hu, hv⟩
    cases t with
    | plain t => exact absurd trivial ht
    | array t =>
      cases u with
      | plain u => exact absurd trivial hu
      | array u =>
        rcases v with _ | (v | v)
        · simp only [Arg.elements, Option.map_none]
          conv_rhs => rw [solve_shapes]
          rfl
        · simp only [Arg.elements, Option.map_some]
          conv_rhs => rw [solve_shapes]
          rfl
        · exact absurd trivial (hv _ rfl)
  · have key : ∀ opt, getOpt opts v.isSome = .ok opt → lat ≠ none →
        (Arg.IsPlain t ∨ Arg.IsPlain u ∨ (t.elements.shape = u.elements.shape ∧ t.elements.shape.length = 1)) →
        solveArgs E t u v lat opts = .error .attributeError := by
      intro opt ho hl hs
      obtain ⟨lat, rfl⟩ := Option.ne_none_iff_exists'.1 hl
      unfold solveArgs
      rw [ho]
      cases t with
      | plain t => rfl
      | array t =>
        cases u with
        | plain u => rfl
        | array u =>
          rcases hp with hp | hp | ⟨w, rfl, hw⟩
          · exact absurd hp id
          · exact absurd hp id
          · cases w with
            | array w => exact absurd hw id
            | plain w =>
              rcases hs with hs | hs | ⟨hs, hs'⟩
              · exact absurd hs id
              · exact absurd hs id
              · simp only [Arg.elements] at hs hs'
                simp only [Arg.withShape, withShape?, bind, Except.bind, raiseIf, Except.map, Option.isNone]
                rw [← hs]
                simp [hs']
    refine ⟨fun c hc => ?_, fun ⟨opt, ho⟩ => key opt ho⟩
    rcases ho : getOpt opts v.isSome with e | opt
    · unfold solveArgs at hc
      rw [ho] at hc
      cases hc
    · cases lat with
      | none =>
        unfold solveArgs at hc
        rw [ho] at hc
        cases hc
      | some lat =>
        by_cases hs : (Arg.IsPlain t ∨ Arg.IsPlain u ∨ (t.elements.shape = u.elements.shape ∧ t.elements.shape.length = 1))
        · rw [key opt ho (by simp) hs] at hc
          cases hc
        · push Not at hs
          obtain ⟨h1, h2, h3⟩ := hs
          cases t with
          | plain t => exact h1 trivial
          | array t =>
            cases u with
            | plain u => exact h2 trivial
            | array u =>
              simp only [Arg.elements] at h3
              have : (t.shape != u.shape || t.shape.length != 1 || u.shape.length != 1) = true := by
                by_cases e : t.shape = u.shape
                · have := h3 e
                  simp [this]
                · simp [e]
              unfold solveArgs at hc
              rw [ho] at hc
              simp only [Arg.withShape, bind, Except.bind, raiseIf, this, if_true, Option.isNone] at hc
              cases hc
  · have h1 : ((atleast1d t.elements).length != 1) = false := by
      unfold atleast1d
      split
      · rfl
      · rename_i k
        have := List.length_pos_iff.2 k
        simp; omega
    simp only [reconstructArgs, raiseIf, h1]
    rfl
  · have h1 : ((atleast1d t.elements).length != 1) = true := by
      unfold atleast1d
      rw [if_neg (by intro k; simp [k] at h)]
      simp; omega
    simp only [reconstructArgs, raiseIf, h1, if_true]
    rfl

/-- Three samples given as arrays are analysed; with `u` as a list of the same numbers the call is an AttributeError. -/
theorem list_refused : ∃ c, solve idealEnv dayT (daySeries 1 0 2) none (some 45) exOpts = .ok c ∧
    solveArgs idealEnv (.array dayT) (.plain (daySeries 1 0 2)) none (some 45) exOpts = .error .attributeError := by
  obtain ⟨c, hc, -⟩ := day_run 1 0 2 none (.inl rfl)
  exact ⟨c, hc, ((C105_partial idealEnv (.array dayT) (.plain (daySeries 1 0 2)) none (some 45) exOpts).2.1
    (.inr (.inl trivial))).2 ⟨_, exOpt_eq _⟩ (by simp) (.inr (.inl trivial))⟩

theorem C105_false : ¬ C105_full := by
  rintro ⟨h, -⟩
  obtain ⟨c, hc, he⟩ := list_refused
  have := (h idealEnv (.array dayT) (.plain (daySeries 1 0 2)) none (some 45) exOpts).symm.trans he
  simp only [Arg.elements, Option.map_none, hc] at this
  cases this

end

end UTide.Props
