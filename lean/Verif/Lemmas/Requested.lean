import Verif.Lemmas.Order

/-!
# From requested option values to the options the code works with
-/

namespace UTide.Props

noncomputable section

open Dict

/-- What the options read by the code have to do with the requested ones. -/
structure Requests (opts : Dict PyVal) (is2D : Bool) (q : Opt) : Prop where
  twodim : q.twodim = is2D
  constit : ∀ x, requested opts "constit" = some x → q.cnstit = x
  infer : ∀ x, requested opts "infer" = some x → validateInfer x is2D = .ok q.infer
  order : ∀ x, requested opts "order_constit" = some x → validateOrderConstit x q.confInt = .ok q.ordercnstit
  epoch : ∀ x, requested opts "epoch" = some x → q.epoch = x
  rmin : ∀ r, requested opts "Rayleigh_min" = some (.num r) → q.rmin = r
  ols : ∀ x, requested opts "method" = some x → x.eqStr "ols" = .ok true → q.method = .ols
  robust : ∀ x, requested opts "method" = some x → x.eqStr "ols" = .ok false →
    ∃ b kw, requested opts "robust_kw" = some (.dict b kw) ∧ q.method = .robust kw
  trend : ∀ x, requested opts "trend" = some x → x.truthy = .ok (!q.notrend)
  white : ∀ x, requested opts "white" = some x → x.truthy = .ok q.white
  verbose : ∀ x, requested opts "verbose" = some x → x.truthy = .ok q.verbose
  conf : ∀ x, requested opts "conf_int" = some x → ConfChoice x q.confInt q.linci
  diagn : q.nodiagn = !q.confInt
  some : ∀ k, k ∈ ["constit", "order_constit", "conf_int", "method", "trend", "phase", "nodal", "infer",
    "Rayleigh_min", "robust_kw", "white", "verbose", "epoch"] → (requested opts k).isSome = true

theorem getOpt_requests (opts : Dict PyVal) (hnd : opts.keys.Nodup) (is2D : Bool) (q : Opt)
    (h : getOpt opts is2D = .ok q) : Requests opts is2D q := by
  obtain ⟨hk, c, oc, ci, me, tr, ph, no, inf, ray, rk, wh, ve, ep, h1, h2, h3, h4, h5, h6, h7, h8, h9, h10,
      h11, h12, h13, r1, r2, r3, r4, r5, r6, r7, r8, r9, r10, r11, r12, r13, r14, r15, r16⟩ := getOpt_ok opts hnd is2D q h
  have key : ∀ k (a x : PyVal), effective opts k = some a → requested opts k = some x → x = a := by
    intro k a x ha hx
    rw [requested_eq] at hx
    rw [ha] at hx
    exact (Option.some.inj hx).symm
  refine ⟨r1, ?_, ?_, ?_, ?_, ?_, ?_, ?_, ?_, ?_, ?_, ?_, r10, ?_⟩
  · intro x hx; rw [key _ _ _ h1 hx]; exact r2
  · intro x hx; rw [key _ _ _ h8 hx]; exact r3
  · intro x hx; rw [key _ _ _ h2 hx]; exact r4
  · intro x hx; rw [key _ _ _ h13 hx]; exact r5
  · intro r hx
    have := key _ _ _ h9 hx
    subst this
    rcases r16 with h | ⟨b, h, -⟩
    · exact (PyVal.num.inj h).symm
    · cases h
  · intro x hx ho
    have := key _ _ _ h4 hx
    subst this
    cases hm : q.method with
    | ols => rfl
    | robust kw => rw [hm] at r15; simp [ho] at r15
  · intro x hx ho
    have := key _ _ _ h4 hx
    subst this
    cases hm : q.method with
    | ols => rw [hm] at r15; simp [ho] at r15
    | robust kw =>
      rw [hm] at r15
      obtain ⟨-, b, hb⟩ := r15
      exact ⟨b, kw, by rw [requested_eq, h10, hb], rfl⟩
  · intro x hx; rw [key _ _ _ h5 hx]; exact r6
  · intro x hx; rw [key _ _ _ h11 hx]; exact r7
  · intro x hx; rw [key _ _ _ h12 hx]; exact r8
  · intro x hx; rw [key _ _ _ h3 hx]; exact r9
  · intro k hk
    simp only [List.mem_cons, List.not_mem_nil, or_false] at hk
    rcases hk with rfl | rfl | rfl | rfl | rfl | rfl | rfl | rfl | rfl | rfl | rfl | rfl | rfl <;>
      simp only [requested_eq, h1, h2, h3, h4, h5, h6, h7, h8, h9, h10, h11, h12, h13, Option.isSome_some]

end

end UTide.Props
