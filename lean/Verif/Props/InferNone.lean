import Verif.Props.AxesProps
import Verif.Props.ReturnProps

/-!
# `infer="none"`
-/

namespace UTide.Props

noncomputable section

/-- **C74** with the string `'none'` for `infer`: accepted like `None`, in every combination with the other options. -/
theorem C74_infer_none (opts : Dict PyVal) (D : DocumentedRest opts) (is2D : Bool)
    (h : requested opts "infer" = some (.str "none")) : ∃ q, getOpt opts is2D = .ok q ∧ q.infer = .none := by
  obtain ⟨q, hq⟩ := documented_accepted opts D is2D _ .none h rfl
  have := (getOpt_requests opts D.nodup is2D q hq).infer _ h
  exact ⟨q, hq, (Except.ok.inj this).symm⟩

/-- **C14.** `infer='none'` is `infer=None`: the two calls have the same outcome. Any other string is refused. -/
theorem C14_none (E : Env) (t : TimeArg) (u : Series) (v : Option Series) (lat : Option ℝ) (opts opts' : Dict PyVal)
    (D : DocumentedRest opts) (D' : DocumentedRest opts')
    (heq : ∀ k, k ≠ "infer" → requested opts k = requested opts' k) (h : requested opts "infer" = some .none) :
    (requested opts' "infer" = some (.str "none") → solve E t u v lat opts' = solve E t u v lat opts) ∧
    ∀ s, s ≠ "none" → requested opts' "infer" = some (.str s) → ∀ c, solve E t u v lat opts' ≠ .ok c := by
  constructor
  · intro h'
    obtain ⟨q, hq⟩ := documented_accepted opts D v.isSome _ .none h rfl
    obtain ⟨q', hq', hi'⟩ := C74_infer_none opts' D' v.isSome h'
    have hi : q.infer = .none := (Except.ok.inj ((getOpt_requests opts D.nodup _ q hq).infer _ h)).symm
    have e := getOpt_infer opts opts' D.nodup D'.nodup _ _ heq q q' hq hq'
    have e1 : q.twodim = v.isSome := (getOpt_requests opts D.nodup _ q hq).twodim
    have e2 : q'.twodim = v.isSome := (getOpt_requests opts' D'.nodup _ q' hq').twodim
    have : q' = q := by
      rw [e, hi', e2, ← hi, ← e1]
    unfold solve
    rw [hq, hq', this]
  · intro s hs h' c hc
    unfold solve at hc
    rw [bind_eq_ok] at hc
    obtain ⟨q, hq, -⟩ := hc
    have := (getOpt_requests opts' D'.nodup _ q hq).infer _ h'
    have e : (PyVal.str s).eqStr "none" = .ok (s == "none") := rfl
    have h2 : validateInfer (.str s) v.isSome = .error .attributeError := by
      show ((PyVal.str s).eqStr "none" >>= fun b => if b = true then pure PyVal.none else throw .attributeError) = _
      rw [e, ok_bind, if_neg (by simpa using hs)]
      rfl
    rw [h2] at this
    cases this

/-- Non-vacuity: the example options with `infer` given as the string. -/
example : ∃ opts opts', DocumentedRest opts ∧ DocumentedRest opts' ∧ requested opts "infer" = some .none ∧
    requested opts' "infer" = some (.str "none") ∧ ∀ k, k ≠ "infer" → requested opts k = requested opts' k := by
  refine ⟨[("trend", .bool false), ("infer", .none)], [("trend", .bool false), ("infer", .str "none")], ?_, ?_, rfl, rfl, ?_⟩
  · exact ⟨by decide, by decide, ⟨_, rfl, by decide⟩, ⟨_, _, rfl, rfl⟩, ⟨_, _, rfl, rfl⟩, ⟨_, rfl⟩, ⟨_, _, rfl⟩, ⟨_, rfl⟩,
      ⟨_, rfl⟩, ⟨_, rfl⟩, ⟨_, rfl⟩, .inl rfl⟩
  · exact ⟨by decide, by decide, ⟨_, rfl, by decide⟩, ⟨_, _, rfl, rfl⟩, ⟨_, _, rfl, rfl⟩, ⟨_, rfl⟩, ⟨_, _, rfl⟩, ⟨_, rfl⟩,
      ⟨_, rfl⟩, ⟨_, rfl⟩, ⟨_, rfl⟩, .inl rfl⟩
  · intro k hk
    have e1 : ("infer" == k) = false := by simpa using Ne.symm hk
    unfold requested
    congr 1
    simp only [List.find?, e1]

end

end UTide.Props
