import Verif.Lemmas.Accept
import Verif.Props.TextbookProps

/-!
# Documented options are accepted (C74), and sound calls return (C75)
-/

namespace UTide.Props

open UTide Dict

noncomputable section

/-! ## Specification -/

/-- Every option other than `infer` has one of its documented values. -/
structure DocumentedRest (opts : Dict PyVal) : Prop where
  nodup : opts.keys.Nodup
  names : ∀ k ∈ opts.keys, documentedDefault k ≠ none
  conf : ∃ s, requested opts "conf_int" = some (.str s) ∧ s ∈ ["linear", "MC", "none"]
  nodal : ∃ x m, requested opts "nodal" = some x ∧ nodalMode x = some m
  phase : ∃ x m, requested opts "phase" = some x ∧ phaseMode x = some m
  method : ∃ s, requested opts "method" = some (.str s)
  robust : ∃ b kw, requested opts "robust_kw" = some (.dict b kw)
  trend : ∃ b, requested opts "trend" = some (.bool b)
  white : ∃ b, requested opts "white" = some (.bool b)
  verbose : ∃ b, requested opts "verbose" = some (.bool b)
  rayleigh : ∃ r, requested opts "Rayleigh_min" = some (.num r)
  order : requested opts "order_constit" = some .none ∨ requested opts "order_constit" = some (.str "PE") ∨
    requested opts "order_constit" = some (.str "frequency") ∨
    (requested opts "order_constit" = some (.str "SNR") ∧ requested opts "conf_int" ≠ some (.str "none")) ∨
    ∃ k l, requested opts "order_constit" = some (.seq k l)

/-- Every option has one of its documented values; `infer` is not used. -/
structure Documented (opts : Dict PyVal) : Prop extends DocumentedRest opts where
  infer : requested opts "infer" = some .none

/-! ## C74 -/

/-- Documented values pass option processing, with any `infer` that passes its own check. -/
theorem documented_accepted (opts : Dict PyVal) (D : DocumentedRest opts) (is2D : Bool) (i i' : PyVal)
    (hi : requested opts "infer" = some i) (hv : validateInfer i is2D = .ok i') : ∃ q, getOpt opts is2D = .ok q := by
  have hk' : ∀ k ∈ opts.keys, k ∈ defaultOpts.keys := fun k hk1 => by
    have := D.names k hk1; rwa [documentedDefault_eq, Ne, get?_eq_none_iff, not_not] at this
  have hs : ¬ (Dict.mem opts "strict" || Dict.mem opts "self") = true := by
    rw [Bool.or_eq_true, mem_iff, mem_iff]
    rintro (h | h)
    · exact absurd (hk' _ h) (by decide)
    · exact absurd (hk' _ h) (by decide)
  obtain ⟨c, oc, ci, me, tr, ph, no, inf, mc, ray, rk, wh, ve, ep, h1, h2, h3, h4, h5, h6, h7, h8, h9, h10, h11, h12,
    h13, h14, heq⟩ := processOpts_chain opts D.nodup is2D hs hk'
  obtain ⟨-, -, ⟨s, c1, c2⟩, ⟨x, mn, n1, n2⟩, ⟨y, mp, p1, p2⟩, ⟨ms, m1⟩, ⟨b, kw, r1⟩, ⟨bt, t1⟩, ⟨bw, w1⟩, ⟨bv, v1⟩,
    ⟨r, ra⟩, hor⟩ := D
  have hinf := hi
  simp only [requested_eq] at c1 n1 p1 m1 r1 t1 w1 v1 ra hinf hor
  rw [h3] at c1 hor; rw [h7] at n1; rw [h6] at p1; rw [h4] at m1; rw [h11] at r1; rw [h5] at t1; rw [h12] at w1
  rw [h13] at v1; rw [h10] at ra; rw [h8] at hinf; rw [h2] at hor
  obtain rfl := Option.some.inj c1
  obtain rfl := Option.some.inj n1
  obtain rfl := Option.some.inj p1
  obtain rfl := Option.some.inj m1
  obtain rfl := Option.some.inj r1
  obtain rfl := Option.some.inj t1
  obtain rfl := Option.some.inj w1
  obtain rfl := Option.some.inj v1
  obtain rfl := Option.some.inj ra
  obtain rfl := Option.some.inj hinf
  have hA : ∃ A, confAssign (.str s) = .ok A := by
    simp only [List.mem_cons, List.not_mem_nil, or_false] at c2
    rcases c2 with rfl | rfl | rfl <;> exact ⟨_, rfl⟩
  have hN : ∃ N, nodalAssign no = .ok N := by
    unfold nodalMode at n2
    split at n2 <;> first | exact ⟨_, rfl⟩ | cases n2
  have hP : ∃ P, phaseAssign ph = .ok P := by
    unfold phaseMode at p2
    split at p2 <;> first | exact ⟨_, rfl⟩ | cases p2
  have hO : ∃ oc', validateOrderConstit oc (!(s == "none")) = .ok oc' := by
    rcases hor with h | h | h | ⟨h, h'⟩ | ⟨k, l, h⟩ <;> obtain rfl := Option.some.inj h
    · exact ⟨_, rfl⟩
    · exact ⟨.str "PE", by simp [validateOrderConstit]⟩
    · exact ⟨.str "frequency", by simp [validateOrderConstit]⟩
    · refine ⟨.str "SNR", ?_⟩
      have : s ≠ "none" := fun e => h' (by rw [e])
      simp [validateOrderConstit, this]
    · exact ⟨_, rfl⟩
  obtain ⟨A, hA⟩ := hA
  obtain ⟨N, hN⟩ := hN
  obtain ⟨P, hP⟩ := hP
  obtain ⟨oc', hO⟩ := hO
  obtain ⟨o, q, ho, hq⟩ := readOpt_total is2D c oc' (.str s) (.str ms) (.bool bt) ph no i' mc (.dict b kw) (.bool bw)
    (.bool bv) ep A N P bt bw bv (ms == "ols") r hA hN hP rfl rfl rfl rfl (.inr ⟨b, kw, rfl⟩)
  refine ⟨q, ?_⟩
  unfold getOpt
  rw [heq]
  have e2 : (PyVal.str s).eqStr "none" = .ok (s == "none") := rfl
  rw [hv, ok_bind, e2, ok_bind, hO, ok_bind, ho, ok_bind, hq]

/-- **C74.** Documented values pass option processing, in every combination. -/
theorem C74_accepted (opts : Dict PyVal) (D : Documented opts) (is2D : Bool) : ∃ q, getOpt opts is2D = .ok q :=
  documented_accepted opts D.toDocumentedRest is2D .none .none D.infer rfl

/-! ## C75 -/

/-- A call of `solve` by ordinary least squares without confidence intervals and inference, with all arguments as
documented. -/
structure SoundCall (E : Env) (t : TimeArg) (u : Series) (v : Option Series) (la : ℝ) (opts : Dict PyVal) : Prop where
  options : Documented opts
  ols : requested opts "method" = some (.str "ols")
  noConf : requested opts "conf_int" = some (.str "none")
  order : requested opts "order_constit" = some .none ∨ requested opts "order_constit" = some (.str "PE") ∨
    requested opts "order_constit" = some (.str "frequency")
  constit : requested opts "constit" = some (.str "auto") ∨ ∃ k ns, k ≠ SeqKind.ndarray ∧ ns ≠ [] ∧
    requested opts "constit" = some (.seq k (ns.map .str)) ∧ ∀ n ∈ ns, n ∈ constitNames
  shapes : GoodShapes t u v
  ht : t.WF
  hu : u.WF
  hv : ∀ w, v = some w → w.WF
  times : ∃ ep tn, requested opts "epoch" = some ep ∧ normalizeTime E.dt64 t.arr ep = .ok tn ∧
    usable tn u.data (v.map Series.data) ≠ []
  latitude : (-90 ≤ la ∧ la ≤ 90 ∧ la ≠ 0) ∨ requested opts "nodal" = some (.bool false)
  length : requested opts "trend" = some (.bool true) → ∀ L, RecordLength E t u v opts L → L ≠ 0

/-- **C75.** Such a call returns a result, whatever the data and whatever the numerical routines do. -/
theorem C75_returns (E : Env) (t : TimeArg) (u : Series) (v : Option Series) (la : ℝ) (opts : Dict PyVal)
    (S : SoundCall E t u v la opts) : ∃ c, solve E t u v (some la) opts = .ok c := by
  obtain ⟨q, hq⟩ := C74_accepted opts S.options v.isSome
  have hr := getOpt_requests _ S.options.nodup _ _ hq
  obtain ⟨ep, tn, hep, htn, hne⟩ := S.times
  have hepq := hr.epoch ep hep
  have hci : q.confInt = false := by
    have := hr.conf _ S.noConf
    generalize q.confInt = x, q.linci = y at this
    cases this with
    | linear h => simp [PyVal.eqStr] at h
    | mc _ h => simp [PyVal.eqStr] at h
    | none => rfl
  have hdg : q.nodiagn = true := by rw [hr.diagn, hci]; rfl
  have hinf : readInfer q.infer = .ok none := by
    rw [← Except.ok.inj (hr.infer _ S.options.infer)]; rfl
  obtain ⟨constit, hc, hk⟩ : ∃ constit, readConstit q.cnstit = .ok constit ∧ KnownConstit q.flags constit := by
    rcases S.constit with h | ⟨k, ns, h1, h2, h3, h4⟩
    · rw [hr.constit _ h]
      exact ⟨.auto, rfl, trivial⟩
    · rw [hr.constit _ h3]
      exact ⟨_, readConstit_list k h1 ns, h4, .inl h2⟩
  obtain ⟨o, ho, hoo⟩ : ∃ o, readOrder q.ordercnstit = .ok o ∧ (o = .PE ∨ o = .frequency) := by
    rcases S.order with h | h | h
    · rw [← Except.ok.inj (hr.order _ h)]; exact ⟨.PE, rfl, .inl rfl⟩
    · have : q.ordercnstit = .str "PE" := by
        have h1 := hr.order _ h
        unfold validateOrderConstit at h1
        rw [hci] at h1
        exact (Except.ok.inj h1).symm
      rw [this]; exact ⟨.PE, rfl, .inl rfl⟩
    · have : q.ordercnstit = .str "frequency" := by
        have h1 := hr.order _ h
        unfold validateOrderConstit at h1
        rw [hci] at h1
        exact (Except.ok.inj h1).symm
      rw [this]; exact ⟨.frequency, rfl, .inr rfl⟩
  refine solve_total E t u v la opts q tn constit o hq (hr.ols _ S.ols rfl) hci hdg hinf hc hk ho hoo S.shapes S.ht S.hu
    S.hv (by rw [hepq]; exact htn) hne (fun k => ?_) fun htr ed hed => ?_
  · rcases S.latitude with ⟨h1, h2, h3⟩ | h
    · exact C43_defined_partial q.flags la h1 h2 h3 k
    · have hm := (C20_modes opts S.options.nodup _ q hq).1 .off (by rw [h]; rfl)
      have : q.flags.nodsatnone = true := by
        unfold flagMode at hm
        split at hm <;> simp_all
      simp [nodalSingular, this]
  · obtain ⟨bt, hbt⟩ := S.options.trend
    have hb : bt = true := by
      have := hr.trend _ hbt
      rw [htr] at this
      simpa [PyVal.truthy] using this
    subst hb
    refine S.length hbt _ ⟨ep, tn, hep, htn, ?_⟩
    have hlen : SameLength tn u.data (v.map Series.data) :=
      InitOk.same (E := E) (opt := q) (lat := some la) (la := la) ⟨rfl, S.shapes, by rw [hepq]; exact htn, hed⟩
        S.ht S.hu S.hv
    obtain ⟨-, -, -, -, h5⟩ := editData_usable tn _ _ hlen _ hed
    obtain ⟨-, -, h6, -⟩ := timeStats_ok _ _ _ _ _ _ h5
    exact ptp_range _ _ h6

/-! ## Examples -/

/-- Two constituents, all corrections, no trend and no intervals. -/
def plainOpts : Dict PyVal := [("constit", .seq .list [.str "M2", .str "S2"]), ("conf_int", .str "none"),
  ("trend", .bool false), ("epoch", .str "python")]

theorem plain_documented : Documented plainOpts where
  nodup := by decide
  names := by decide
  conf := ⟨"none", rfl, by decide⟩
  nodal := ⟨_, .exact, rfl, rfl⟩
  phase := ⟨_, .exact, rfl, rfl⟩
  method := ⟨_, rfl⟩
  robust := ⟨_, _, rfl⟩
  trend := ⟨_, rfl⟩
  white := ⟨_, rfl⟩
  verbose := ⟨_, rfl⟩
  rayleigh := ⟨_, rfl⟩
  infer := rfl
  order := .inl rfl

theorem plain_sound : SoundCall idealEnv dayT dayU none 45 plainOpts where
  options := plain_documented
  ols := rfl
  noConf := rfl
  order := .inl rfl
  constit := .inr ⟨.list, ["M2", "S2"], by simp, by simp, rfl, M2S2_known⟩
  shapes := ⟨rfl, rfl, by simp⟩
  ht := dayReady.ht
  hu := dayReady.hu
  hv := dayReady.hv
  times := ⟨_, [.fin 0, .fin 0.5, .fin 1], rfl, by
    show (Except.ok (List.map _ _) : Except PyErr (List Fl)) = _
    congr 1, by simp [usable, goodSamples, Fl.toReal?, Cell.value?, dayU]⟩
  latitude := .inl ⟨by norm_num, by norm_num, by norm_num⟩
  length := fun h => absurd (Option.some.inj (show some (PyVal.bool false) = some (.bool true) from h)) (by simp)

/-- The call returns, and its harmonics are the exact ones. -/
example : ∃ c, solve idealEnv dayT dayU none (some 45) plainOpts = .ok c ∧ c.name.length = 2 ∧
    ∀ τ, harmonic c "M2" τ = textbook .exact .exact c.reftime 45 τ 47 := by
  obtain ⟨c, hc⟩ := C75_returns _ _ _ _ _ _ plain_sound
  have hp := (C17_honoured idealEnv dayT dayU none (some 45) plainOpts dayReady plain_documented.nodup .list (by simp)
    ["M2", "S2"] rfl rfl _ rfl c hc).1 (.inl rfl)
  have hlat : c.lat = 45 := by
    obtain ⟨opt, p, tn, constit, m, W, rf, full, o, ind, F⟩ := solve_facts dayReady hc
    have h1 : c.lat = p.lat := by rw [F.solved.result]; exact F.solved.head.lat
    rw [h1]; exact (Option.some.inj F.prep.init.hlat).symm
  refine ⟨c, hc, by rw [hp.length_eq]; rfl, fun τ => ?_⟩
  obtain ⟨i, hi⟩ := List.getElem?_of_mem (hp.mem_iff.2 (show "M2" ∈ ["M2", "S2"] by simp))
  have := (C20_harmonics idealEnv dayT dayU none (some 45) plainOpts plain_documented.nodup c hc .exact .exact rfl rfl
    (.inl (by rw [hlat]; norm_num)) i "M2" hi (by decide) τ).1
  rw [this, hlat]
  congr 1

end

end UTide.Props
