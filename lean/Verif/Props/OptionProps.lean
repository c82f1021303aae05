import Verif.Lemmas.Options

/-!
# Properties of option processing: C14, C19, C20, C21, C22
-/

namespace UTide.Props
open UTide Dict

/-! ## Specification, written from the documentation of `solve` -/

/-- The documented options of `solve` with their documented defaults (docstring and `_solve.py` 132-190). -/
def documentedDefault : String → Option PyVal
  | "constit" => some (.str "auto")
  | "order_constit" => some .none
  | "conf_int" => some (.str "linear")
  | "method" => some (.str "ols")
  | "trend" => some (.bool true)
  | "phase" => some (.str "Greenwich")
  | "nodal" => some (.bool true)
  | "infer" => some .none
  | "MC_n" => some (.num 200)
  | "Rayleigh_min" => some (.num 1)
  | "robust_kw" => some (.dict false [("weight_function", .str "cauchy")])
  | "white" => some (.bool false)
  | "verbose" => some (.bool true)
  | "epoch" => some .none
  | _ => none

/-- The value the caller asked for: the keyword if given, else the documented default. -/
def requested (opts : Dict PyVal) (k : String) : Option PyVal :=
  match opts.find? (fun p => p.1 == k) with
  | some p => some p.2
  | none => documentedDefault k

/-- `v == s` in Python, for a string `s`: the string itself, or a one-element array holding it. -/
def IsStr (v : PyVal) (s : String) : Prop := v = .str s ∨ v = .seq .ndarray [.str s]

/-! ## Helper lemmas -/

theorem documentedDefault_eq (k : String) : documentedDefault k = get? defaultOpts k := by
  unfold documentedDefault
  split <;> simp_all [defaultOpts, get?_cons, get?, eq_comm]

theorem find?_eq (opts : Dict PyVal) (k : String) :
    (opts.find? (fun p => p.1 == k)).map Prod.snd = get? opts k := by
  induction opts with
  | nil => simp [get?]
  | cons p d ih =>
    obtain ⟨a, b⟩ := p
    rw [List.find?_cons, get?_cons]
    by_cases h : a = k
    · simp [h]
    · simp [beq_false_of_ne h, ih, h]

theorem requested_eq (opts : Dict PyVal) (k : String) : requested opts k = effective opts k := by
  unfold requested effective
  rw [← find?_eq, documentedDefault_eq]
  cases opts.find? (fun p => p.1 == k) <;> simp

theorem eqStr_iff (v : PyVal) (s : String) : v.eqStr s = .ok true ↔ IsStr v s := by
  unfold IsStr
  cases v with
  | str x => simp [PyVal.eqStr]
  | seq k xs =>
    cases k with
    | ndarray =>
      match xs with
      | [] => simp [PyVal.eqStr]
      | [x] => cases x <;> simp [PyVal.eqStr]
      | x :: y :: l => simp [PyVal.eqStr]
    | _ => simp [PyVal.eqStr]
  | _ => simp [PyVal.eqStr]

theorem eqStr_error (v : PyVal) (s : String) (e : PyErr) (h : v.eqStr s = .error e) : e = .valueError := by
  cases v with
  | seq k xs =>
    cases k with
    | ndarray =>
      match xs with
      | [] => simpa [PyVal.eqStr] using h.symm
      | [x] => cases x <;> simp [PyVal.eqStr] at h
      | x :: y :: l => simpa [PyVal.eqStr] using h.symm
    | _ => simp [PyVal.eqStr] at h
  | _ => simp [PyVal.eqStr] at h

theorem truthy_error (v : PyVal) (e : PyErr) (h : v.truthy = .error e) : e = .valueError ∨ e = .unmodelled := by
  cases v with
  | seq k xs =>
    cases k with
    | ndarray =>
      match xs with
      | [] => left; simpa [PyVal.truthy] using h.symm
      | [x] => cases x <;> simp [PyVal.truthy] at h <;> simp [← h]
      | x :: y :: l => left; simpa [PyVal.truthy] using h.symm
    | _ => simp [PyVal.truthy] at h
  | _ => simp [PyVal.truthy] at h

theorem len_error (v : PyVal) (e : PyErr) (h : v.len = .error e) : e = .typeError := by
  cases v <;> simp [PyVal.len] at h <;> exact h.symm

theorem attr_error (v : PyVal) (k : String) (hk : k ≠ "t_mpl") (e : PyErr) (h : v.attr k = .error e) :
    e = .attributeError ∨ e = .unmodelled := by
  cases v with
  | dict b kv =>
    cases b
    · left; simpa [PyVal.attr] using h.symm
    · simp only [PyVal.attr, Bunch.getattr, hk, if_false] at h
      split at h
      · simp at h
      · right; simpa using h.symm
      · rename_i e' heq
        simp at h
        split at heq
        · simp at heq
        · split at heq <;> simp at heq
          left; rw [← h, ← heq]
  | _ => left; simpa [PyVal.attr] using h.symm

theorem confAssign_error (ci : PyVal) (e : PyErr) (h : confAssign ci = .error e) : e = .valueError := by
  unfold confAssign at h
  simp only [bind_eq_error] at h
  rcases h with h | ⟨b, -, h⟩
  · exact eqStr_error _ _ _ h
  · split at h
    · simp [pure_eq_ok] at h
    · simp only [bind_eq_error] at h
      rcases h with h | ⟨b, -, h⟩
      · exact eqStr_error _ _ _ h
      · split at h
        · simp [pure_eq_ok] at h
        · simp only [bind_eq_error] at h
          rcases h with h | ⟨b, -, h⟩
          · exact eqStr_error _ _ _ h
          · split at h
            · simp [pure_eq_ok] at h
            · simpa [throw_eq_error] using h.symm

theorem validateInfer_error (inf : PyVal) (is2D : Bool) (e : PyErr) (h : validateInfer inf is2D = .error e) :
    e ≠ .keyError := by
  cases inf with
  | none => simp [validateInfer] at h
  | dict b kv =>
    have key : ∀ k, k ≠ "t_mpl" → ∀ e, (PyVal.dict b kv).attr k = .error e → e ≠ .keyError := by
      intro k hk e he
      rcases attr_error _ k hk e he with rfl | rfl <;> decide
    have key2 : ∀ v : PyVal, ∀ e, v.len = .error e → e ≠ .keyError := by
      intro v e he; rw [len_error v e he]; decide
    have key3 : ∀ (b : Bool) (e e' : PyErr), raiseIf b e' = .error e → e' ≠ .keyError → e ≠ .keyError := by
      intro b e e' h; cases b <;> simp [raiseIf] at h; simp [h]
    unfold validateInfer validateInferDict at h
    simp only [bind_eq_error] at h
    rcases h with h | ⟨_, -, h⟩
    · exact key3 _ _ _ h (by decide)
    rcases h with h | ⟨_, -, h⟩
    · exact key _ (by decide) _ h
    rcases h with h | ⟨_, -, h⟩
    · exact key2 _ _ h
    rcases h with h | ⟨_, -, h⟩
    · exact key _ (by decide) _ h
    rcases h with h | ⟨_, -, h⟩
    · exact key2 _ _ h
    rcases h with h | ⟨_, -, h⟩
    · exact key3 _ _ _ h (by decide)
    rcases h with h | ⟨_, -, h⟩
    · exact key _ (by decide) _ h
    rcases h with h | ⟨_, -, h⟩
    · exact key2 _ _ h
    rcases h with h | ⟨_, -, h⟩
    · exact key3 _ _ _ h (by decide)
    rcases h with h | ⟨_, -, h⟩
    · exact key _ (by decide) _ h
    rcases h with h | ⟨_, -, h⟩
    · exact key2 _ _ h
    rcases h with h | ⟨_, -, h⟩
    · exact key3 _ _ _ h (by decide)
    simp [pure_eq_ok] at h
  | _ =>
    simp only [validateInfer, bind_eq_error] at h
    rcases h with h | ⟨b, -, h⟩
    · rw [eqStr_error _ _ _ h]; decide
    · cases b <;> simp [throw_eq_error, pure_eq_ok] at h; rw [← h]; decide

theorem validateOrder_error (oc : PyVal) (snr : Bool) (e : PyErr) (h : validateOrderConstit oc snr = .error e) :
    e = .valueError := by
  unfold validateOrderConstit at h
  cases oc <;> simp at h <;> try exact h.symm
  split at h <;> simp at h; exact h.symm

theorem nodalAssign_error (v : PyVal) (e : PyErr) (h : nodalAssign v = .error e) : e = .valueError ∨ e = .unmodelled := by
  unfold nodalAssign at h
  simp only [bind_eq_error] at h
  rcases h with h | ⟨b, -, h⟩
  · exact .inl (eqStr_error _ _ _ h)
  · split at h
    · simp [pure_eq_ok] at h
    · simp only [bind_eq_error] at h
      rcases h with h | ⟨b, -, h⟩
      · exact truthy_error _ _ h
      · split at h <;> simp [pure_eq_ok] at h

theorem phaseAssign_error (v : PyVal) (e : PyErr) (h : phaseAssign v = .error e) : e = .valueError := by
  unfold phaseAssign at h
  simp only [bind_eq_error] at h
  rcases h with h | ⟨b, -, h⟩
  · exact eqStr_error _ _ _ h
  · split at h
    · simp [pure_eq_ok] at h
    · simp only [bind_eq_error] at h
      rcases h with h | ⟨b, -, h⟩
      · exact eqStr_error _ _ _ h
      · split at h <;> simp [pure_eq_ok] at h

theorem translateOpts_error (c oc ci me tr ph no inf mc ray rk wh ve ep : PyVal) (e : PyErr)
    (h : translateOpts (mkNew c oc ci me tr ph no inf mc ray rk wh ve ep) = .error e) :
    (confAssign ci = .error e) ∨ (∃ A, confAssign ci = .ok A) ∧ (e = .valueError ∨ e = .unmodelled) := by
  obtain ⟨e1, e2, e3, e4, e5, e6, e7, e8, e9, e10, e11⟩ :=
    optAttr_mkNew c oc ci me tr ph no inf mc ray rk wh ve ep
  unfold translateOpts at h
  simp only [e1, e2, e3, e4, e5, e6, e7, e8, e9, e10, e11, ok_bind] at h
  simp only [bind_eq_error] at h
  rcases h with h | ⟨A, hA, h⟩
  · exact .inl h
  refine .inr ⟨⟨A, hA⟩, ?_⟩
  rcases h with h | ⟨_, -, h⟩
  · exact truthy_error _ _ h
  rcases h with h | ⟨_, -, h⟩
  · exact nodalAssign_error _ _ h
  rcases h with h | ⟨_, -, h⟩
  · exact .inl (phaseAssign_error _ _ h)
  · simp [pure_eq_ok] at h

theorem processOpts_chain' (opts : Dict PyVal) (hnd : opts.keys.Nodup) (is2D : Bool)
    (hk : ∀ k ∈ opts.keys, k ∈ defaultOpts.keys) :
    ∃ c oc ci me tr ph no inf mc ray rk wh ve ep,
      effective opts "constit" = some c ∧ effective opts "order_constit" = some oc ∧
      effective opts "conf_int" = some ci ∧ effective opts "infer" = some inf ∧
      processOpts opts is2D = (do
        let inf' ← validateInfer inf is2D
        let isn ← ci.eqStr "none"
        let oc' ← validateOrderConstit oc (!isn)
        translateOpts (mkNew c oc' ci me tr ph no inf' mc ray rk wh ve ep)) := by
  have hs : ¬ (Dict.mem opts "strict" || Dict.mem opts "self") = true := by
    rw [Bool.or_eq_true, mem_iff, mem_iff]
    rintro (h | h)
    · exact absurd (hk _ h) (by decide)
    · exact absurd (hk _ h) (by decide)
  obtain ⟨c, oc, ci, me, tr, ph, no, inf, mc, ray, rk, wh, ve, ep, h1, h2, h3, h4, h5, h6, h7, h8, h9, h10,
      h11, h12, h13, h14, h⟩ := processOpts_chain opts hnd is2D hs hk
  exact ⟨c, oc, ci, me, tr, ph, no, inf, mc, ray, rk, wh, ve, ep, h1, h2, h3, h8, h⟩

/-! ## C19 -/

/-- C19: option processing raises KeyError exactly when some keyword is not a documented option name; the two
names `strict` and `self`, which collide with parameters of `Bunch.update_values`, give TypeError. -/
theorem C19_unknown_option (opts : Dict PyVal) (hnd : opts.keys.Nodup) (is2D : Bool) :
    (processOpts opts is2D = .error .keyError ↔
      "strict" ∉ opts.keys ∧ "self" ∉ opts.keys ∧ ∃ k ∈ opts.keys, documentedDefault k = none) ∧
    ("strict" ∈ opts.keys ∨ "self" ∈ opts.keys → processOpts opts is2D = .error .typeError) := by
  have hdoc : ∀ k, documentedDefault k = none ↔ k ∉ defaultOpts.keys := fun k => by
    rw [documentedDefault_eq, get?_eq_none_iff]
  have hs : (Dict.mem opts "strict" || Dict.mem opts "self") = true ↔
      ("strict" ∈ opts.keys ∨ "self" ∈ opts.keys) := by
    rw [Bool.or_eq_true, mem_iff, mem_iff]
  constructor
  · by_cases hu : ∃ k ∈ opts.keys, documentedDefault k = none
    · by_cases h : ("strict" ∈ opts.keys ∨ "self" ∈ opts.keys)
      · have : processOpts opts is2D = .error .typeError := by
          unfold processOpts processOptsW; rw [if_pos (hs.2 h)]
        rw [this]; simp; tauto
      · have : processOpts opts is2D = .error .keyError := by
          unfold processOpts processOptsW
          rw [if_neg (fun h' => h (hs.1 h'))]
          have := ((updateValues_default opts hnd).1 .keyError).2 ⟨rfl, by simpa [hdoc] using hu⟩
          dsimp only
          rw [this]
        simp [this]; push Not at h; exact ⟨h.1, h.2, hu⟩
    · refine ⟨fun h => ?_, fun h => absurd h.2.2 hu⟩
      exfalso
      have hk : ∀ k ∈ opts.keys, k ∈ defaultOpts.keys := by
        intro k hk; by_contra hc; exact hu ⟨k, hk, (hdoc k).2 hc⟩
      obtain ⟨c, oc, ci, me, tr, ph, no, inf, mc, ray, rk, wh, ve, ep, -, -, -, -, heq⟩ :=
        processOpts_chain' opts hnd is2D hk
      rw [heq] at h
      simp only [bind_eq_error] at h
      rcases h with h | ⟨_, -, h⟩
      · exact validateInfer_error _ _ _ h rfl
      rcases h with h | ⟨_, -, h⟩
      · exact absurd (eqStr_error _ _ _ h) (by decide)
      rcases h with h | ⟨_, -, h⟩
      · exact absurd (validateOrder_error _ _ _ h) (by decide)
      rcases translateOpts_error _ _ _ _ _ _ _ _ _ _ _ _ _ _ _ h with h | ⟨-, h | h⟩
      · exact absurd (confAssign_error _ _ h) (by decide)
      · exact absurd h (by decide)
      · exact absurd h (by decide)
  · intro h
    unfold processOpts processOptsW; rw [if_pos (hs.2 h)]

/-- C19: when option processing succeeds every documented option has the value the caller gave or else its
documented default, as seen by the rest of the code. -/
theorem C19_values (opts : Dict PyVal) (hnd : opts.keys.Nodup) (is2D : Bool) (q : Opt)
    (h : getOpt opts is2D = .ok q) :
    (∀ k ∈ opts.keys, documentedDefault k ≠ none) ∧
    requested opts "constit" = some q.cnstit ∧
    requested opts "epoch" = some q.epoch ∧
    (∃ v, requested opts "trend" = some v ∧ v.truthy = .ok (!q.notrend)) ∧
    (∃ v, requested opts "white" = some v ∧ v.truthy = .ok q.white) ∧
    (∃ v, requested opts "verbose" = some v ∧ v.truthy = .ok q.verbose) ∧
    (∃ v, requested opts "Rayleigh_min" = some v ∧ ∀ x, v = .num x → q.rmin = x) ∧
    (∃ v, requested opts "method" = some v ∧
      (IsStr v "ols" ↔ match q.method with | .ols => True | .robust _ => False)) ∧
    (∀ kw, q.method = .robust kw → ∃ b, requested opts "robust_kw" = some (.dict b kw)) := by
  obtain ⟨hk, c, oc, ci, me, tr, ph, no, inf, ray, rk, wh, ve, ep, h1, h2, h3, h4, h5, h6, h7, h8, h9, h10,
      h11, h12, h13, r1, r2, r3, r4, r5, r6, r7, r8, r9, r10, r11, r12, r13, r14, r15, r16⟩ := getOpt_ok opts hnd is2D q h
  simp only [requested_eq, h1, h5, h13, h11, h12, h9, h4, h10]
  refine ⟨?_, by rw [r2], by rw [r5], ⟨_, rfl, r6⟩, ⟨_, rfl, r7⟩, ⟨_, rfl, r8⟩, ⟨_, rfl, ?_⟩, ⟨_, rfl, ?_⟩, ?_⟩
  · intro k hk'; rw [documentedDefault_eq, Ne, get?_eq_none_iff, not_not]; exact hk k hk'
  · rintro x rfl; rcases r16 with h | ⟨b, h, -⟩
    · simpa using h.symm
    · simp at h
  · rw [← eqStr_iff]
    generalize q.method = m at r15
    cases m with
    | ols => simpa using r15
    | robust kw => simp [r15.1]
  · intro kw hkw
    rw [hkw] at r15
    obtain ⟨b, hb⟩ := r15.2
    exact ⟨b, by rw [hb]⟩

example : processOpts [("nodel", .bool false)] false = .error .keyError := by
  refine (C19_unknown_option _ (by simp [keys]) false).1.2 ?_
  simp [keys, documentedDefault]

/-! ## C20 -/

/-- Whether a correction is applied at every sample time, not at all, or at the reference time only. -/
inductive Mode | exact | off | atReference
  deriving DecidableEq

/-- The documented values of `nodal`. -/
def nodalMode : PyVal → Option Mode
  | .bool true => some .exact
  | .bool false => some .off
  | .str "linear_time" => some .atReference
  | _ => none

/-- The documented values of `phase`. -/
def phaseMode : PyVal → Option Mode
  | .str "Greenwich" => some .exact
  | .str "raw" => some .off
  | .str "linear_time" => some .atReference
  | _ => none

/-- How the numerical code (`harmonics.py` 58-80) reads a pair of flags (lint, none). -/
def flagMode (lint none : Bool) : Option Mode :=
  match lint, none with
  | false, false => some .exact
  | true, false => some .atReference
  | false, true => some .off
  | true, true => Option.none

/-- C20: the two options select the two correction modes, each independently of the other and of every other
option. -/
theorem C20_modes (opts : Dict PyVal) (hnd : opts.keys.Nodup) (is2D : Bool) (q : Opt)
    (h : getOpt opts is2D = .ok q) :
    (∀ m, (requested opts "nodal").bind nodalMode = some m → flagMode q.flags.nodsatlint q.flags.nodsatnone = some m) ∧
    (∀ m, (requested opts "phase").bind phaseMode = some m → flagMode q.flags.gwchlint q.flags.gwchnone = some m) := by
  obtain ⟨hk, c, oc, ci, me, tr, ph, no, inf, ray, rk, wh, ve, ep, h1, h2, h3, h4, h5, h6, h7, h8, h9, h10,
      h11, h12, h13, r1, r2, r3, r4, r5, r6, r7, r8, r9, r10, r11, r12, r13, r14, r15, r16⟩ := getOpt_ok opts hnd is2D q h
  simp only [requested_eq, h6, h7, Option.bind_some]
  constructor
  · intro m hm
    unfold nodalMode at hm
    split at hm <;> simp [PyVal.eqStr, PyVal.truthy] at hm r11 r12 <;> subst hm <;>
      simp_all [flagMode]
  · intro m hm
    unfold phaseMode at hm
    split at hm <;> simp [PyVal.eqStr] at hm r13 r14 <;> subst hm <;>
      simp_all [flagMode]

example : ∃ q, getOpt [("nodal", .str "linear_time"), ("phase", .str "raw")] false = .ok q ∧
    flagMode q.flags.nodsatlint q.flags.nodsatnone = some .atReference ∧
    flagMode q.flags.gwchlint q.flags.gwchnone = some .off := by
  refine ⟨_, rfl, rfl, rfl⟩

/-! ## C21 -/

/-- C21: a `conf_int` other than the three documented strings is a ValueError. -/
theorem C21_conf_int (opts : Dict PyVal) (hnd : opts.keys.Nodup) (is2D : Bool) (ci inf inf' : PyVal)
    (hk : ∀ k ∈ opts.keys, documentedDefault k ≠ none)
    (hinf : requested opts "infer" = some inf) (hv : validateInfer inf is2D = .ok inf')
    (hci : requested opts "conf_int" = some ci)
    (hbad : ¬ IsStr ci "linear" ∧ ¬ IsStr ci "MC" ∧ ¬ IsStr ci "none") :
    processOpts opts is2D = .error .valueError := by
  have hk' : ∀ k ∈ opts.keys, k ∈ defaultOpts.keys := fun k hk1 => by
    have := hk k hk1; rwa [documentedDefault_eq, Ne, get?_eq_none_iff, not_not] at this
  obtain ⟨c, oc, ci', me, tr, ph, no, infx, mc, ray, rk, wh, ve, ep, h1, h2, h3, h4, heq⟩ :=
    processOpts_chain' opts hnd is2D hk'
  rw [requested_eq] at hinf hci
  rw [h3] at hci; rw [h4] at hinf
  obtain rfl : ci' = ci := by simpa using hci
  obtain rfl : infx = inf := by simpa using hinf
  rw [heq, hv, ok_bind]
  simp only [← eqStr_iff] at hbad
  cases hn : ci'.eqStr "none" with
  | error e => rw [eqStr_error _ _ _ hn]; rfl
  | ok b =>
    rw [ok_bind]
    cases ho : validateOrderConstit oc !b with
    | error e => rw [validateOrder_error _ _ _ ho]; rfl
    | ok oc' =>
      rw [ok_bind]
      cases ht : translateOpts (mkNew c oc' ci' me tr ph no inf' mc ray rk wh ve ep) with
      | ok o =>
        obtain ⟨A, N, P, t, hA, -⟩ := translateOpts_ok _ _ _ _ _ _ _ _ _ _ _ _ _ _ _ ht
        rcases (confAssign_ok _ _ hA).2 with h | h | h
        · exact absurd h.1 hbad.1
        · exact absurd h.2.1 hbad.2.1
        · exact absurd h.2.2.1 hbad.2.2
      | error e =>
        rcases translateOpts_error _ _ _ _ _ _ _ _ _ _ _ _ _ _ _ ht with h | ⟨⟨A, hA⟩, -⟩
        · rw [confAssign_error _ _ h]
        · rcases (confAssign_ok _ _ hA).2 with h | h | h
          · exact absurd h.1 hbad.1
          · exact absurd h.2.1 hbad.2.1
          · exact absurd h.2.2.1 hbad.2.2

/-- C21: what becomes of `order_constit`. `none?` says whether `conf_int='none'`. -/
theorem C21_order_constit (opts : Dict PyVal) (hnd : opts.keys.Nodup) (is2D : Bool) (oc ci inf inf' : PyVal)
    (hk : ∀ k ∈ opts.keys, documentedDefault k ≠ none)
    (hinf : requested opts "infer" = some inf) (hv : validateInfer inf is2D = .ok inf')
    (hci : requested opts "conf_int" = some ci) (hoc : requested opts "order_constit" = some oc) :
    (∀ s, oc = .str s → s ≠ "PE" → s ≠ "frequency" → (s ≠ "SNR" ∨ ci = .str "none") →
      processOpts opts is2D = .error .valueError) ∧
    (∀ q, getOpt opts is2D = .ok q →
      (oc = .none → q.ordercnstit = .str "PE") ∧ (oc ≠ .none → q.ordercnstit = oc)) := by
  have hk' : ∀ k ∈ opts.keys, k ∈ defaultOpts.keys := fun k hk1 => by
    have := hk k hk1; rwa [documentedDefault_eq, Ne, get?_eq_none_iff, not_not] at this
  obtain ⟨c, oc', ci', me, tr, ph, no, infx, mc, ray, rk, wh, ve, ep, h1, h2, h3, h4, heq⟩ :=
    processOpts_chain' opts hnd is2D hk'
  rw [requested_eq] at hinf hci hoc
  constructor
  · rw [h3] at hci; rw [h4] at hinf; rw [h2] at hoc
    obtain rfl : ci' = ci := by simpa using hci
    obtain rfl : infx = inf := by simpa using hinf
    obtain rfl : oc' = oc := by simpa using hoc
    rintro s rfl hs1 hs2 hs3
    rw [heq, hv, ok_bind]
    cases hn : ci'.eqStr "none" with
    | error e => rw [eqStr_error _ _ _ hn]; rfl
    | ok b =>
      rw [ok_bind]
      have : validateOrderConstit (.str s) (!b) = .error .valueError := by
        rcases hs3 with h | rfl
        · cases b <;> simp [validateOrderConstit, hs1, hs2, h]
        · have : b = true := by simpa [PyVal.eqStr] using hn.symm
          subst this
          simp [validateOrderConstit, hs1, hs2]
      rw [this]; rfl
  · intro q hq
    obtain ⟨hk, c, oc2, ci, me, tr, ph, no, inf, ray, rk, wh, ve, ep, g1, g2, g3, g4, g5, g6, g7, g8, g9, g10,
      g11, g12, g13, r1, r2, r3, r4, r5, r6, r7, r8, r9, r10, r11, r12, r13, r14, r15, r16⟩ := getOpt_ok opts hnd is2D q hq
    obtain rfl : oc2 = oc := by rw [g2] at hoc; simpa using hoc
    constructor
    · rintro rfl; simpa [validateOrderConstit] using r4.symm
    · intro hne
      unfold validateOrderConstit at r4
      cases oc2 <;> simp at r4 <;> try exact r4.symm
      · simp at hne
      · split at r4 <;> simp at r4; exact r4.symm

example : processOpts [("order_constit", .str "SNR"), ("conf_int", .str "none")] false = .error .valueError := rfl
example : processOpts [("conf_int", .str "bootstrap")] true = .error .valueError := rfl

/-! ## C14 -/

/-- A complete specification: the four documented keys hold sequences, there are as many reference names as
inferred names, and ratios and offsets come one per inferred name (two for vector series). -/
def WellFormedInfer (kv : Dict PyVal) (is2D : Bool) : Prop :=
  ∃ ki kr ka kp names refs ratios offsets,
    get? kv "inferred_names" = some (.seq ki names) ∧ get? kv "reference_names" = some (.seq kr refs) ∧
    get? kv "amp_ratios" = some (.seq ka ratios) ∧ get? kv "phase_offsets" = some (.seq kp offsets) ∧
    refs.length = names.length ∧
    ratios.length = (if is2D then 2 else 1) * names.length ∧ offsets.length = (if is2D then 2 else 1) * names.length

/-- Full statement of C14 (false of the code, see `C14_false`): a well-formed specification is accepted whether it
is a dict or a Bunch, and every other one is a ValueError. -/
def C14_full : Prop := ∀ (isBunch is2D : Bool) (kv : Dict PyVal),
    (WellFormedInfer kv is2D → ∃ v, validateInfer (.dict isBunch kv) is2D = .ok v) ∧
    (¬ WellFormedInfer kv is2D → validateInfer (.dict isBunch kv) is2D = .error .valueError)

theorem attr_bunch (kv : Dict PyVal) (k : String) (hk : k ≠ "t_mpl") (hc : k ∉ Bunch.classAttrs) :
    (PyVal.dict true kv).attr k = optAttr kv k := by
  simp only [PyVal.attr, Bunch.getattr, hk, hc, if_false, optAttr]
  cases get? kv k <;> rfl

/-- C14 fails for plain dictionaries: whatever they contain they are refused (AttributeError unless keys are
missing), because the validation reads `infer.inferred_names` as an attribute (_solve.py 95). -/
theorem C14_plain_dict_refused (kv : Dict PyVal) (is2D : Bool) :
    validateInfer (.dict false kv) is2D = .error .attributeError ∨
    validateInfer (.dict false kv) is2D = .error .typeError := by
  unfold validateInfer validateInferDict
  dsimp only
  cases properSubset (Dict.keys kv) requiredKeys
  · left; rfl
  · right; rfl

/-- C14, negation. -/
theorem C14_false : ¬ C14_full := by
  intro h
  obtain ⟨v, hv⟩ := (h false false
    [("inferred_names", .seq .list [.str "P1"]), ("reference_names", .seq .list [.str "K1"]),
     ("amp_ratios", .seq .list [.num (1 / 3)]), ("phase_offsets", .seq .list [.num 0])]).1
    ⟨.list, .list, .list, .list, [.str "P1"], [.str "K1"], [.num (1 / 3)], [.num 0], rfl, rfl, rfl, rfl, rfl, rfl, rfl⟩
  rcases C14_plain_dict_refused _ false with h' | h' <;> rw [h'] at hv <;> cases hv

/-- C14 also fails for a Bunch with missing keys: it is refused, but with TypeError (only documented keys present)
or otherwise, not with ValueError. -/
theorem C14_missing_key (kv : Dict PyVal) (is2D : Bool) (hmiss : ∃ k ∈ requiredKeys, k ∉ kv.keys) :
    (∀ v, validateInfer (.dict true kv) is2D ≠ .ok v) ∧
    ((∀ k ∈ kv.keys, k ∈ requiredKeys) → validateInfer (.dict true kv) is2D = .error .typeError) := by
  constructor
  · intro v hv
    unfold validateInfer validateInferDict at hv
    dsimp only at hv
    simp only [bind_eq_ok] at hv
    obtain ⟨_, -, a1, h1, _, -, a2, h2, _, -, _, -, a3, h3, _, -, _, -, a4, h4, -⟩ := hv
    rw [attr_bunch _ _ (by decide) (by decide)] at h1 h2 h3 h4
    have : ∀ k a, optAttr kv k = .ok a → k ∈ kv.keys := by
      intro k a h; rw [← get?_isSome_iff]; unfold optAttr at h; cases hg : get? kv k <;> simp_all
    obtain ⟨k, hk, hk'⟩ := hmiss
    simp only [requiredKeys, List.mem_cons, List.not_mem_nil, or_false] at hk
    rcases hk with rfl | rfl | rfl | rfl
    · exact hk' (this _ _ h1)
    · exact hk' (this _ _ h2)
    · exact hk' (this _ _ h3)
    · exact hk' (this _ _ h4)
  · intro hsub
    have : properSubset kv.keys requiredKeys = true := by
      unfold properSubset
      rw [Bool.and_eq_true]
      refine ⟨by simpa using hsub, ?_⟩
      rw [List.any_eq_true]
      obtain ⟨k, hk, hk'⟩ := hmiss
      exact ⟨k, hk, by simpa using hk'⟩
    unfold validateInfer validateInferDict
    dsimp only
    rw [this]; rfl

/-- C14, the part that holds: for a Bunch whose four documented entries are sequences, acceptance is exactly
well-formedness, and anything else is a ValueError. Missing from the full statement: plain dictionaries, and
the exception class for missing keys (see the theorems above). -/
theorem C14_validation_partial (kv : Dict PyVal) (is2D : Bool)
    (hseq : ∀ k ∈ requiredKeys, ∃ kd xs, get? kv k = some (.seq kd xs)) :
    (WellFormedInfer kv is2D →
      validateInfer (.dict true kv) is2D =
        .ok (.dict true (if "approximate" ∈ kv.keys then kv else Dict.set kv "approximate" (.bool false)))) ∧
    (¬ WellFormedInfer kv is2D → validateInfer (.dict true kv) is2D = .error .valueError) := by
  obtain ⟨k1, x1, h1⟩ := hseq "inferred_names" (by simp [requiredKeys])
  obtain ⟨k2, x2, h2⟩ := hseq "reference_names" (by simp [requiredKeys])
  obtain ⟨k3, x3, h3⟩ := hseq "amp_ratios" (by simp [requiredKeys])
  obtain ⟨k4, x4, h4⟩ := hseq "phase_offsets" (by simp [requiredKeys])
  have hps : properSubset (Dict.keys kv) requiredKeys = false := by
    have : ∀ k ∈ requiredKeys, k ∈ Dict.keys kv := by
      intro k hk; rw [← get?_isSome_iff]; obtain ⟨_, _, h⟩ := hseq k hk; simp [h]
    unfold properSubset
    rw [Bool.and_eq_false_iff]; right
    simpa using this
  have hW : WellFormedInfer kv is2D ↔ (x2.length = x1.length ∧ x3.length = (if is2D then 2 * x1.length else x1.length)
      ∧ x4.length = (if is2D then 2 * x1.length else x1.length)) := by
    have e : (if is2D = true then 2 * x1.length else x1.length) = (if is2D = true then 2 else 1) * x1.length := by
      cases is2D <;> simp
    rw [e]
    constructor
    · rintro ⟨_, _, _, _, a, b, c, d, e1, e2, e3, e4, l1, l2, l3⟩
      rw [h1] at e1; rw [h2] at e2; rw [h3] at e3; rw [h4] at e4
      simp only [Option.some.injEq, PyVal.seq.injEq] at e1 e2 e3 e4
      obtain ⟨-, rfl⟩ := e1; obtain ⟨-, rfl⟩ := e2; obtain ⟨-, rfl⟩ := e3; obtain ⟨-, rfl⟩ := e4
      exact ⟨l1, l2, l3⟩
    · rintro ⟨l1, l2, l3⟩
      exact ⟨k1, k2, k3, k4, x1, x2, x3, x4, h1, h2, h3, h4, l1, l2, l3⟩
  rw [hW]
  have hv : validateInfer (.dict true kv) is2D = (do
      raiseIf (x2.length != x1.length) .valueError
      raiseIf (x3.length != (if is2D then 2 * x1.length else x1.length)) .valueError
      raiseIf (x4.length != (if is2D then 2 * x1.length else x1.length)) .valueError
      return .dict true (if Dict.mem kv "approximate" then kv else Dict.set kv "approximate" (.bool false))) := by
    unfold validateInfer validateInferDict
    dsimp only
    rw [hps]
    simp only [attr_bunch kv "inferred_names" (by decide) (by decide),
      attr_bunch kv "reference_names" (by decide) (by decide), attr_bunch kv "amp_ratios" (by decide) (by decide),
      attr_bunch kv "phase_offsets" (by decide) (by decide)]
    simp only [raiseIf, Bool.false_eq_true, if_false, ok_bind, optAttr, h1, h2, h3, h4, PyVal.len]
  rw [hv]
  constructor
  · rintro ⟨l1, l2, l3⟩
    simp only [l1, l2, l3, raiseIf, bne_self_eq_false, Bool.false_eq_true, if_false, ok_bind, pure_eq_ok, mem_iff]
  · intro hno
    by_cases l1 : x2.length = x1.length
    · by_cases l2 : x3.length = (if is2D then 2 * x1.length else x1.length)
      · by_cases l3 : x4.length = (if is2D then 2 * x1.length else x1.length)
        · exact absurd ⟨l1, l2, l3⟩ hno
        · have : (x4.length != (if is2D then 2 * x1.length else x1.length)) = true := by simpa using l3
          rw [l1, l2, this]; simp [raiseIf, ok_bind]
      · have : (x3.length != (if is2D then 2 * x1.length else x1.length)) = true := by simpa using l2
        rw [l1, this]; simp [raiseIf, ok_bind, error_bind]
    · have : (x2.length != x1.length) = true := by simpa using l1
      rw [this]; simp [raiseIf, error_bind]

/-- C14: a refused specification makes the whole call fail with the same exception before anything else
is looked at. -/
theorem C14_refused_before_computation (opts : Dict PyVal) (hnd : opts.keys.Nodup) (is2D : Bool) (inf : PyVal)
    (e : PyErr) (hk : ∀ k ∈ opts.keys, documentedDefault k ≠ none)
    (hinf : requested opts "infer" = some inf) (hv : validateInfer inf is2D = .error e) :
    getOpt opts is2D = .error e := by
  have hk' : ∀ k ∈ opts.keys, k ∈ defaultOpts.keys := fun k hk1 => by
    have := hk k hk1; rwa [documentedDefault_eq, Ne, get?_eq_none_iff, not_not] at this
  obtain ⟨c, oc, ci', me, tr, ph, no, infx, mc, ray, rk, wh, ve, ep, h1, h2, h3, h4, heq⟩ :=
    processOpts_chain' opts hnd is2D hk'
  rw [requested_eq, h4] at hinf
  obtain rfl : infx = inf := by simpa using hinf
  unfold getOpt
  rw [heq, hv]
  rfl

example : WellFormedInfer
    [("inferred_names", .seq .list [.str "P1", .str "K2"]), ("reference_names", .seq .list [.str "K1", .str "S2"]),
     ("amp_ratios", .seq .list [.num (1/3), .num (1/4)]), ("phase_offsets", .seq .list [.num 0, .num 10])] false :=
  ⟨.list, .list, .list, .list, [.str "P1", .str "K2"], [.str "K1", .str "S2"], [.num (1/3), .num (1/4)],
    [.num 0, .num 10], rfl, rfl, rfl, rfl, rfl, rfl, rfl⟩

/-! ## C22 -/

/-- A call of `solve` in a session: its keywords, whether v is given, and whether it passes the session's one
shared `infer` object. -/
structure Call where
  opts : Dict PyVal
  is2D : Bool
  shared : Bool

/-- The keywords as Python sees them when the shared object currently has the value `x`. -/
def Call.withShared (c : Call) (x : PyVal) : Dict PyVal := if c.shared then Dict.set c.opts "infer" x else c.opts

/-- A session: the results of the calls in order, and the final state of the module and of the shared object. -/
def session : World → List Call → List (Except PyErr (Bunch PyVal)) × World
  | w, [] => ([], w)
  | w, c :: cs =>
    let r := processOptsW w (c.withShared w.callerInfer) c.is2D
    let w' : World := ⟨r.1.defaults, if c.shared then r.1.callerInfer else w.callerInfer⟩
    let rest := session w' cs
    (r.2 :: rest.1, rest.2)

/-- The shared object after validation: unchanged or with `approximate = False` added. -/
def Touched (x y : PyVal) : Prop :=
  y = x ∨ ∃ b kv, x = .dict b kv ∧ "approximate" ∉ Dict.keys kv ∧ y = .dict b (Dict.set kv "approximate" (.bool false))


theorem validateInfer_ok_touched (x y : PyVal) (d : Bool) (h : validateInfer x d = .ok y) :
    match x with
    | .dict _ _ => Touched x y
    | _ => True := by
  cases x <;> try trivial
  rename_i b kv
  unfold validateInfer validateInferDict at h
  simp only [bind_eq_ok, pure_eq_ok, Except.ok.injEq] at h
  obtain ⟨_, -, _, -, _, -, _, -, _, -, _, -, _, -, _, -, _, -, _, -, _, -, _, -, h⟩ := h
  by_cases hm : Dict.mem kv "approximate" = true
  · rw [if_pos hm] at h; exact .inl h.symm
  · rw [if_neg hm] at h
    rw [mem_iff] at hm
    exact .inr ⟨b, kv, rfl, hm, h.symm⟩

/-- Validation treats an accepted object and the same object with `approximate = False` added alike. -/
theorem validateInfer_added (b : Bool) (kv : Dict PyVal) (d d' : Bool) (y : PyVal)
    (hacc : validateInfer (.dict b kv) d = .ok y) (hna : "approximate" ∉ kv.keys) :
    validateInfer (.dict b (Dict.set kv "approximate" (.bool false))) d' = validateInfer (.dict b kv) d' := by
  cases b
  · rcases C14_plain_dict_refused kv d with h | h <;> rw [h] at hacc <;> cases hacc
  have hget : ∀ k, k ≠ "approximate" → optAttr (Dict.set kv "approximate" (.bool false)) k = optAttr kv k := by
    intro k hk; unfold optAttr; rw [get?_set, if_neg (Ne.symm hk)]
  have hreq : ∀ k ∈ requiredKeys, k ∈ kv.keys := by
    intro k hk
    by_contra hc
    exact (C14_missing_key kv d ⟨k, hk, hc⟩).1 y hacc
  have hps : ∀ kv' : Dict PyVal, (∀ k ∈ requiredKeys, k ∈ kv'.keys) → properSubset kv'.keys requiredKeys = false := by
    intro kv' h
    unfold properSubset
    rw [Bool.and_eq_false_iff]; right; simpa using h
  have h2 : ∀ k ∈ requiredKeys, k ∈ (Dict.set kv "approximate" (.bool false)).keys := by
    intro k hk; rw [keys_set, if_neg hna]; simp [hreq k hk]
  have hm1 : Dict.mem (Dict.set kv "approximate" (.bool false)) "approximate" = true := by
    rw [mem_iff, keys_set, if_neg hna]; simp
  have hm2 : Dict.mem kv "approximate" = false := by rw [← Bool.not_eq_true, mem_iff]; exact hna
  unfold validateInfer validateInferDict
  dsimp only
  rw [hps _ hreq, hps _ h2]
  simp only [attr_bunch _ "inferred_names" (by decide) (by decide),
      attr_bunch _ "reference_names" (by decide) (by decide), attr_bunch _ "amp_ratios" (by decide) (by decide),
      attr_bunch _ "phase_offsets" (by decide) (by decide), hget _ (show "inferred_names" ≠ "approximate" by decide),
      hget _ (show "reference_names" ≠ "approximate" by decide), hget _ (show "amp_ratios" ≠ "approximate" by decide),
      hget _ (show "phase_offsets" ≠ "approximate" by decide), hm1, hm2, Bool.false_eq_true, if_true, if_false]

theorem processOptsW_state (w : World) (opts : Dict PyVal) (d : Bool) :
    (processOptsW w opts d).1.defaults = w.defaults ∧
    (processOptsW w opts d).2 = (processOptsW ⟨w.defaults, .none⟩ opts d).2 := by
  unfold processOptsW
  split_ifs with hs
  · exact ⟨rfl, rfl⟩
  · dsimp only
    cases hu : Bunch.updateValues (Bunch.mk [w.defaults] []) [] opts (strict := true) with
    | error e => exact ⟨rfl, rfl⟩
    | ok b =>
      dsimp only
      cases optAttr b "infer" with
      | error e => exact ⟨rfl, rfl⟩
      | ok inf =>
        dsimp only
        cases validateInfer inf d with
        | error e => exact ⟨rfl, rfl⟩
        | ok inf' => dsimp only; exact ⟨by cases inf <;> rfl, rfl⟩

theorem processOpts_eq_W (w : World) (hw : w.defaults = defaultOpts) (opts : Dict PyVal) (d : Bool) :
    (processOptsW w opts d).2 = processOpts opts d := by
  unfold processOpts
  rw [(processOptsW_state w opts d).2, (processOptsW_state ⟨defaultOpts, _⟩ opts d).2, hw]

theorem set_keys_nodup (opts : Dict PyVal) (h : opts.keys.Nodup) (x : PyVal) : (Dict.set opts "infer" x).keys.Nodup :=
  keys_set_nodup _ _ _ h

/-- The result of option processing depends on the `infer` object only through its validation. -/
theorem processOpts_infer_congr (opts : Dict PyVal) (hnd : opts.keys.Nodup) (x x' : PyVal) (d : Bool)
    (hv : validateInfer x d = validateInfer x' d) :
    processOpts (Dict.set opts "infer" x) d = processOpts (Dict.set opts "infer" x') d := by
  have hmem : ∀ k, k ∈ (Dict.set opts "infer" x).keys ↔ k ∈ (Dict.set opts "infer" x').keys := by
    intro k; rw [keys_set, keys_set]
  have hmem' : ∀ k, Dict.mem (Dict.set opts "infer" x) k = Dict.mem (Dict.set opts "infer" x') k := by
    intro k; rw [Bool.eq_iff_iff, mem_iff, mem_iff]; exact hmem k
  by_cases hs : (Dict.mem (Dict.set opts "infer" x) "strict" || Dict.mem (Dict.set opts "infer" x) "self") = true
  · have h1 : processOpts (Dict.set opts "infer" x) d = .error .typeError := by
      unfold processOpts processOptsW; rw [if_pos hs]
    have h2 : processOpts (Dict.set opts "infer" x') d = .error .typeError := by
      unfold processOpts processOptsW; rw [hmem', hmem'] at hs; rw [if_pos hs]
    rw [h1, h2]
  have hs' := hs
  rw [hmem', hmem'] at hs'
  by_cases hk : ∀ k ∈ (Dict.set opts "infer" x).keys, k ∈ defaultOpts.keys
  · have hk' : ∀ k ∈ (Dict.set opts "infer" x').keys, k ∈ defaultOpts.keys := fun k h => hk k ((hmem k).2 h)
    obtain ⟨c, oc, ci, me, tr, ph, no, inf, mc, ray, rk, wh, ve, ep, h1, h2, h3, h4, h5, h6, h7, h8, h9, h10,
      h11, h12, h13, h14, heq⟩ := processOpts_chain _ (set_keys_nodup opts hnd x) d hs hk
    obtain ⟨c', oc', ci', me', tr', ph', no', inf', mc', ray', rk', wh', ve', ep', g1, g2, g3, g4, g5, g6, g7, g8,
      g9, g10, g11, g12, g13, g14, heq'⟩ := processOpts_chain _ (set_keys_nodup opts hnd x') d hs' hk'
    have heff : ∀ k, "infer" ≠ k → effective (Dict.set opts "infer" x) k = effective (Dict.set opts "infer" x') k := by
      intro k hk; unfold effective; rw [get?_set, get?_set, if_neg hk, if_neg hk]
    have hi : ∀ z, effective (Dict.set opts "infer" z) "infer" = some z := by
      intro z; unfold effective; rw [get?_set, if_pos rfl]; rfl
    have fin : ∀ k a b, "infer" ≠ k → effective (Dict.set opts "infer" x) k = some a →
        effective (Dict.set opts "infer" x') k = some b → a = b := by
      intro k a b hk ha hb; rw [heff k hk, hb] at ha; simpa using ha.symm
    obtain rfl := fin _ _ _ (by decide) h1 g1
    obtain rfl := fin _ _ _ (by decide) h2 g2
    obtain rfl := fin _ _ _ (by decide) h3 g3
    obtain rfl := fin _ _ _ (by decide) h4 g4
    obtain rfl := fin _ _ _ (by decide) h5 g5
    obtain rfl := fin _ _ _ (by decide) h6 g6
    obtain rfl := fin _ _ _ (by decide) h7 g7
    obtain rfl := fin _ _ _ (by decide) h9 g9
    obtain rfl := fin _ _ _ (by decide) h10 g10
    obtain rfl := fin _ _ _ (by decide) h11 g11
    obtain rfl := fin _ _ _ (by decide) h12 g12
    obtain rfl := fin _ _ _ (by decide) h13 g13
    obtain rfl := fin _ _ _ (by decide) h14 g14
    rw [hi] at h8 g8
    simp only [Option.some.injEq] at h8 g8
    rw [heq, heq', ← h8, ← g8, hv]
  · push Not at hk
    have hk' : ∃ k ∈ (Dict.set opts "infer" x').keys, k ∉ defaultOpts.keys := by
      obtain ⟨k, h1, h2⟩ := hk; exact ⟨k, (hmem k).1 h1, h2⟩
    rw [processOpts_unknown _ (set_keys_nodup opts hnd x) d hs hk,
      processOpts_unknown _ (set_keys_nodup opts hnd x') d hs' hk']

/-- What one call does to the shared object. -/
theorem processOptsW_shared (w : World) (hw : w.defaults = defaultOpts) (opts : Dict PyVal) (hnd : opts.keys.Nodup)
    (d : Bool) :
    (processOptsW w (Dict.set opts "infer" w.callerInfer) d).1.callerInfer = w.callerInfer ∨
    ∃ b kv, w.callerInfer = .dict b kv ∧
      validateInfer w.callerInfer d = .ok (processOptsW w (Dict.set opts "infer" w.callerInfer) d).1.callerInfer := by
  by_cases hs : (Dict.mem (Dict.set opts "infer" w.callerInfer) "strict" ||
      Dict.mem (Dict.set opts "infer" w.callerInfer) "self") = true
  · left; unfold processOptsW; rw [if_pos hs]
  cases hu : Bunch.updateValues (Bunch.mk [w.defaults] []) [] (Dict.set opts "infer" w.callerInfer) (strict := true) with
  | error e => left; unfold processOptsW; rw [if_neg hs, hu]
  | ok b =>
    have hu' := hu
    rw [hw] at hu'
    obtain ⟨c, oc, ci, me, tr, ph, no, inf, mc, ray, rk, wh, ve, ep, hb, h1, h2, h3, h4, h5, h6, h7, h8, h9, h10,
      h11, h12, h13, h14⟩ := (updateValues_default _ (set_keys_nodup opts hnd w.callerInfer)).2 b hu'
    have hi : optAttr b "infer" = .ok inf := by
      rw [hb]; exact (optAttr_mkNew c oc ci me tr ph no inf mc ray rk wh ve ep).2.2.2.2.2.2.1
    have hinf : inf = w.callerInfer := by
      unfold effective at h8; rw [get?_set, if_pos rfl] at h8; simpa using h8.symm
    have := (processOptsW_known w _ d b inf hs hu hi).2.2
    rw [this, hinf]
    cases hx : w.callerInfer with
    | dict bb kv =>
      cases hv : validateInfer (.dict bb kv) d with
      | error e => left; simp [inferAfter, hv]
      | ok y => right; exact ⟨bb, kv, rfl, by simp [inferAfter, hv]⟩
    | _ => left; rfl

/-- C22: in every sequence of calls each call gives the result it would give as the first call of a fresh session,
the default table is never changed, and a shared `infer` object is at most given `approximate = False`. -/
theorem C22_calls_independent (calls : List Call) (hnd : ∀ c ∈ calls, c.opts.keys.Nodup) (x : PyVal) :
    (session ⟨defaultOpts, x⟩ calls).1 = calls.map (fun c => processOpts (c.withShared x) c.is2D) ∧
    (session ⟨defaultOpts, x⟩ calls).2.defaults = defaultOpts ∧
    Touched x (session ⟨defaultOpts, x⟩ calls).2.callerInfer := by
  -- invariant on the shared object
  have gen : ∀ (calls : List Call), (∀ c ∈ calls, c.opts.keys.Nodup) → ∀ w : World, w.defaults = defaultOpts →
      (w.callerInfer = x ∨ ∃ b kv d y, x = .dict b kv ∧ validateInfer x d = .ok y ∧ "approximate" ∉ Dict.keys kv ∧
        w.callerInfer = .dict b (Dict.set kv "approximate" (.bool false))) →
      (session w calls).1 = calls.map (fun c => processOpts (c.withShared x) c.is2D) ∧
      (session w calls).2.defaults = defaultOpts ∧ Touched x (session w calls).2.callerInfer := by
    intro calls
    induction calls with
    | nil =>
      intro _ w hw hx
      refine ⟨rfl, hw, ?_⟩
      rcases hx with h | ⟨b, kv, d, y, h1, h2, h3, h4⟩
      · exact .inl h
      · exact .inr ⟨b, kv, h1, h3, h4⟩
    | cons c cs ih =>
      intro hnd w hw hx
      have hc := hnd c (by simp)
      have hval : ∀ d, validateInfer w.callerInfer d = validateInfer x d := by
        intro d
        rcases hx with h | ⟨b, kv, d', y, h1, h2, h3, h4⟩
        · rw [h]
        · rw [h4, h1]; rw [h1] at h2; exact validateInfer_added b kv d' d y h2 h3
      have hres : (processOptsW w (c.withShared w.callerInfer) c.is2D).2 = processOpts (c.withShared x) c.is2D := by
        rw [processOpts_eq_W w hw]
        unfold Call.withShared
        cases c.shared
        · rfl
        · exact processOpts_infer_congr _ hc _ _ _ (hval _)
      have hdef : (processOptsW w (c.withShared w.callerInfer) c.is2D).1.defaults = defaultOpts := by
        rw [(processOptsW_state _ _ _).1, hw]
      have hstep := ih (fun c' hc' => hnd c' (by simp [hc']))
        ⟨(processOptsW w (c.withShared w.callerInfer) c.is2D).1.defaults,
          if c.shared then (processOptsW w (c.withShared w.callerInfer) c.is2D).1.callerInfer else w.callerInfer⟩ hdef (by
            dsimp only
            cases hsh : c.shared with
            | false => simpa using hx
            | true =>
              simp only [if_true]
              unfold Call.withShared
              rw [hsh]
              simp only [if_true]
              rcases processOptsW_shared w hw c.opts hc c.is2D with h | ⟨b, kv, h1, h2⟩
              · rw [h]; exact hx
              · rw [hval] at h2
                have hxd : ∃ b' kv', x = .dict b' kv' := by
                  rcases hx with h | ⟨b', kv', d', y, h1', -⟩
                  · exact ⟨b, kv, by rw [← h, h1]⟩
                  · exact ⟨b', kv', h1'⟩
                obtain ⟨b', kv', rfl⟩ := hxd
                have ht := validateInfer_ok_touched _ _ _ h2
                dsimp only at ht
                rcases ht with ht | ⟨b2, kv2, e1, e2, e3⟩
                · exact .inl ht
                · exact .inr ⟨b2, kv2, c.is2D, _, e1, h2, e2, e3⟩)
      refine ⟨?_, hstep.2.1, hstep.2.2⟩
      simp only [session, List.map_cons, hres]
      rw [hstep.1]
  exact gen calls hnd ⟨defaultOpts, x⟩ rfl (.inl rfl)

/-- A shared Bunch really is modified by a call. -/
example :
    let kv : Dict PyVal := [("inferred_names", .seq .list [.str "P1"]), ("reference_names", .seq .list [.str "K1"]),
      ("amp_ratios", .seq .list [.num (1/3)]), ("phase_offsets", .seq .list [.num 0])]
    (session ⟨defaultOpts, .dict true kv⟩ [⟨[], false, true⟩, ⟨[("nodal", .bool false)], false, true⟩]).2.callerInfer
      = .dict true (kv ++ [("approximate", .bool false)]) := rfl

end UTide.Props
