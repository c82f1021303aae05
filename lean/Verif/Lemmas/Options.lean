import Verif.Model.Options
import Verif.Props.BunchProps

/-! Lemmas about option processing. -/

namespace UTide
open Dict

theorem bind_eq_ok {α β : Type} (x : Except PyErr α) (f : α → Except PyErr β) (b : β) :
    (x >>= f) = .ok b ↔ ∃ a, x = .ok a ∧ f a = .ok b := by
  cases x <;> simp [bind, Except.bind]

theorem bind_eq_error {α β : Type} (x : Except PyErr α) (f : α → Except PyErr β) (e : PyErr) :
    (x >>= f) = .error e ↔ x = .error e ∨ ∃ a, x = .ok a ∧ f a = .error e := by
  cases x <;> simp [bind, Except.bind]

theorem pure_eq_ok {α : Type} (a : α) : (pure a : Except PyErr α) = .ok a := rfl

theorem throw_eq_error {α : Type} (e : PyErr) : (throw e : Except PyErr α) = .error e := rfl

theorem ok_bind {α β : Type} (a : α) (f : α → Except PyErr β) : ((.ok a : Except PyErr α) >>= f) = f a := rfl

theorem error_bind {α β : Type} (e : PyErr) (f : α → Except PyErr β) :
    ((.error e : Except PyErr α) >>= f) = .error e := rfl

/-- The value `solve` uses for option `k`: the caller's, else the default. -/
def effective (opts : Dict PyVal) (k : String) : Option PyVal := (get? opts k).or (get? defaultOpts k)

/-- A fully populated option Bunch, keys in the order of `default_opts`. -/
def mkNew (c oc ci me tr ph no inf mc ray rk wh ve ep : PyVal) : Bunch PyVal :=
  [("constit", c), ("order_constit", oc), ("conf_int", ci), ("method", me), ("trend", tr), ("phase", ph),
   ("nodal", no), ("infer", inf), ("MC_n", mc), ("Rayleigh_min", ray), ("robust_kw", rk), ("white", wh),
   ("verbose", ve), ("epoch", ep)]

theorem dict_of_keys {V : Type} (d : Dict V) (k : String) (ks : List String) (h : d.keys = k :: ks) :
    ∃ v d', d = (k, v) :: d' ∧ Dict.keys d' = ks := by
  cases d with
  | nil => simp [keys] at h
  | cons p d =>
    obtain ⟨a, b⟩ := p
    simp only [keys, List.map_cons, List.cons.injEq] at h
    obtain ⟨rfl, h⟩ := h
    exact ⟨b, d, rfl, h⟩

theorem dict_of_keys_nil {V : Type} (d : Dict V) (h : d.keys = []) : d = [] := by
  cases d with
  | nil => rfl
  | cons p d => simp [keys] at h

theorem mk_default : Bunch.mk [defaultOpts] [] = defaultOpts := by
  unfold Bunch.mk defaultOpts
  simp [Dict.update, Dict.set]

/-- Everything `update_values` can do to the defaults. -/
theorem updateValues_default (opts : Dict PyVal) (hnd : opts.keys.Nodup) :
    (∀ e, Bunch.updateValues (Bunch.mk [defaultOpts] []) [] opts (strict := true) = .error e ↔
      e = .keyError ∧ ∃ k ∈ opts.keys, k ∉ defaultOpts.keys) ∧
    (∀ b, Bunch.updateValues (Bunch.mk [defaultOpts] []) [] opts (strict := true) = .ok b →
      ∃ c oc ci me tr ph no inf mc ray rk wh ve ep,
        b = mkNew c oc ci me tr ph no inf mc ray rk wh ve ep ∧
        effective opts "constit" = some c ∧ effective opts "order_constit" = some oc ∧
        effective opts "conf_int" = some ci ∧ effective opts "method" = some me ∧
        effective opts "trend" = some tr ∧ effective opts "phase" = some ph ∧
        effective opts "nodal" = some no ∧ effective opts "infer" = some inf ∧
        effective opts "MC_n" = some mc ∧ effective opts "Rayleigh_min" = some ray ∧
        effective opts "robust_kw" = some rk ∧ effective opts "white" = some wh ∧
        effective opts "verbose" = some ve ∧ effective opts "epoch" = some ep) := by
  rw [mk_default]
  refine ⟨fun e => ?_, fun b hb => ?_⟩
  · rw [Props.C64_update_values_strict]; simp
  · obtain ⟨hk, hv⟩ := (Props.C64_update_values_effect defaultOpts [] opts true (by simp) hnd).2 b hb
    have hk0 := hk
    obtain ⟨c, b1, e1, hk⟩ := dict_of_keys _ _ _ hk
    obtain ⟨oc, b2, e2, hk⟩ := dict_of_keys _ _ _ hk
    obtain ⟨ci, b3, e3, hk⟩ := dict_of_keys _ _ _ hk
    obtain ⟨me, b4, e4, hk⟩ := dict_of_keys _ _ _ hk
    obtain ⟨tr, b5, e5, hk⟩ := dict_of_keys _ _ _ hk
    obtain ⟨ph, b6, e6, hk⟩ := dict_of_keys _ _ _ hk
    obtain ⟨no, b7, e7, hk⟩ := dict_of_keys _ _ _ hk
    obtain ⟨inf, b8, e8, hk⟩ := dict_of_keys _ _ _ hk
    obtain ⟨mc, b9, e9, hk⟩ := dict_of_keys _ _ _ hk
    obtain ⟨ray, b10, e10, hk⟩ := dict_of_keys _ _ _ hk
    obtain ⟨rk, b11, e11, hk⟩ := dict_of_keys _ _ _ hk
    obtain ⟨wh, b12, e12, hk⟩ := dict_of_keys _ _ _ hk
    obtain ⟨ve, b13, e13, hk⟩ := dict_of_keys _ _ _ hk
    obtain ⟨ep, b14, e14, hk⟩ := dict_of_keys _ _ _ hk
    have e15 := dict_of_keys_nil _ hk
    subst e15 e14 e13 e12 e11 e10 e9 e8 e7 e6 e5 e4 e3 e2 e1
    refine ⟨c, oc, ci, me, tr, ph, no, inf, mc, ray, rk, wh, ve, ep, rfl, ?_⟩
    have hoff : ∀ k, k ∈ defaultOpts.keys → effective opts k = get? (mkNew c oc ci me tr ph no inf mc ray rk wh ve ep) k := by
      intro k hk'
      rw [show get? (mkNew c oc ci me tr ph no inf mc ray rk wh ve ep) k = _ from hv k, if_pos hk']
      simp [Props.offered, effective]
    refine ⟨?_, ?_, ?_, ?_, ?_, ?_, ?_, ?_, ?_, ?_, ?_, ?_, ?_, ?_⟩ <;>
      (rw [hoff _ (by decide)]; rfl)

theorem optAttr_mkNew (c oc ci me tr ph no inf mc ray rk wh ve ep : PyVal) :
   let b := mkNew c oc ci me tr ph no inf mc ray rk wh ve ep
   optAttr b "constit" = .ok c ∧ optAttr b "order_constit" = .ok oc ∧ optAttr b "conf_int" = .ok ci ∧
   optAttr b "trend" = .ok tr ∧ optAttr b "phase" = .ok ph ∧ optAttr b "nodal" = .ok no ∧
   optAttr b "infer" = .ok inf ∧ optAttr b "Rayleigh_min" = .ok ray ∧ optAttr b "white" = .ok wh ∧
   optAttr b "verbose" = .ok ve ∧ optAttr b "epoch" = .ok ep := by
  simp [optAttr, mkNew, get?_cons]

theorem confAssign_ok (ci : PyVal) (A : List (String × PyVal)) (h : confAssign ci = .ok A) :
    (∀ k, k ≠ "linci" → k ≠ "conf_int" → k ≠ "nodiagn" → get? A.reverse k = none) ∧
    ((ci.eqStr "linear" = .ok true ∧ A = [("linci", .bool true)]) ∨
     (ci.eqStr "linear" = .ok false ∧ ci.eqStr "MC" = .ok true ∧ A = [("linci", .bool false)]) ∨
     (ci.eqStr "linear" = .ok false ∧ ci.eqStr "MC" = .ok false ∧ ci.eqStr "none" = .ok true ∧
        A = [("conf_int", .bool false), ("nodiagn", .num 1)])) := by
  have : ((ci.eqStr "linear" = .ok true ∧ A = [("linci", .bool true)]) ∨
     (ci.eqStr "linear" = .ok false ∧ ci.eqStr "MC" = .ok true ∧ A = [("linci", .bool false)]) ∨
     (ci.eqStr "linear" = .ok false ∧ ci.eqStr "MC" = .ok false ∧ ci.eqStr "none" = .ok true ∧
        A = [("conf_int", .bool false), ("nodiagn", .num 1)])) := by
    unfold confAssign at h
    simp only [bind_eq_ok] at h
    obtain ⟨b1, h1, h⟩ := h
    cases b1
    · simp only [Bool.false_eq_true, if_false, bind_eq_ok] at h
      obtain ⟨b2, h2, h⟩ := h
      cases b2
      · simp only [Bool.false_eq_true, if_false, bind_eq_ok] at h
        obtain ⟨b3, h3, h⟩ := h
        cases b3
        · simp [throw_eq_error] at h
        · simp [pure_eq_ok] at h; simp [*]
      · simp [pure_eq_ok] at h; simp [*]
    · simp [pure_eq_ok] at h; simp [*]
  refine ⟨fun k h1 h2 h3 => ?_, this⟩
  rcases this with ⟨-, rfl⟩ | ⟨-, -, rfl⟩ | ⟨-, -, -, rfl⟩ <;>
    simp [get?_cons, h1.symm, h2.symm, h3.symm, get?]

theorem nodalAssign_ok (no : PyVal) (A : List (String × PyVal)) (h : nodalAssign no = .ok A) :
    (∀ k, k ≠ "nodsatlint" → k ≠ "nodsatnone" → get? A.reverse k = none) ∧
    ((no.eqStr "linear_time" = .ok true ∧ A = [("nodsatlint", .bool true)]) ∨
     (no.eqStr "linear_time" = .ok false ∧ no.truthy = .ok false ∧ A = [("nodsatnone", .bool true)]) ∨
     (no.eqStr "linear_time" = .ok false ∧ no.truthy = .ok true ∧ A = [])) := by
  have : ((no.eqStr "linear_time" = .ok true ∧ A = [("nodsatlint", .bool true)]) ∨
     (no.eqStr "linear_time" = .ok false ∧ no.truthy = .ok false ∧ A = [("nodsatnone", .bool true)]) ∨
     (no.eqStr "linear_time" = .ok false ∧ no.truthy = .ok true ∧ A = [])) := by
    unfold nodalAssign at h
    simp only [bind_eq_ok] at h
    obtain ⟨b1, h1, h⟩ := h
    cases b1
    · simp only [Bool.false_eq_true, if_false, bind_eq_ok] at h
      obtain ⟨b2, h2, h⟩ := h
      cases b2 <;> simp [pure_eq_ok] at h <;> simp [*]
    · simp [pure_eq_ok] at h; simp [*]
  refine ⟨fun k h1 h2 => ?_, this⟩
  rcases this with ⟨-, rfl⟩ | ⟨-, -, rfl⟩ | ⟨-, -, rfl⟩ <;>
    simp [get?_cons, h1.symm, h2.symm, get?]

theorem phaseAssign_ok (ph : PyVal) (A : List (String × PyVal)) (h : phaseAssign ph = .ok A) :
    (∀ k, k ≠ "gwchlint" → k ≠ "gwchnone" → get? A.reverse k = none) ∧
    ((ph.eqStr "linear_time" = .ok true ∧ A = [("gwchlint", .bool true)]) ∨
     (ph.eqStr "linear_time" = .ok false ∧ ph.eqStr "raw" = .ok true ∧ A = [("gwchnone", .bool true)]) ∨
     (ph.eqStr "linear_time" = .ok false ∧ ph.eqStr "raw" = .ok false ∧ A = [])) := by
  have : ((ph.eqStr "linear_time" = .ok true ∧ A = [("gwchlint", .bool true)]) ∨
     (ph.eqStr "linear_time" = .ok false ∧ ph.eqStr "raw" = .ok true ∧ A = [("gwchnone", .bool true)]) ∨
     (ph.eqStr "linear_time" = .ok false ∧ ph.eqStr "raw" = .ok false ∧ A = [])) := by
    unfold phaseAssign at h
    simp only [bind_eq_ok] at h
    obtain ⟨b1, h1, h⟩ := h
    cases b1
    · simp only [Bool.false_eq_true, if_false, bind_eq_ok] at h
      obtain ⟨b2, h2, h⟩ := h
      cases b2 <;> simp [pure_eq_ok] at h <;> simp [*]
    · simp [pure_eq_ok] at h; simp [*]
  refine ⟨fun k h1 h2 => ?_, this⟩
  rcases this with ⟨-, rfl⟩ | ⟨-, -, rfl⟩ | ⟨-, -, rfl⟩ <;>
    simp [get?_cons, h1.symm, h2.symm, get?]

/-- The fixed (non-conditional) assignments of `_translate_opts`. -/
theorem translateOpts_ok (c oc ci me tr ph no inf mc ray rk wh ve ep : PyVal) (o : Bunch PyVal)
    (h : translateOpts (mkNew c oc ci me tr ph no inf mc ray rk wh ve ep) = .ok o) :
    ∃ A N P trend, confAssign ci = .ok A ∧ nodalAssign no = .ok N ∧ phaseAssign ph = .ok P ∧
      tr.truthy = .ok trend ∧ o = Dict.update []
    ([("cnstit", c), ("ordercnstit", oc), ("infer", inf), ("conf_int", .bool true)]
     ++ A
     ++ [("notrend", .bool (!trend)), ("nodesatlint", .bool false), ("nodesatnone", .bool false),
         ("gwchlint", .bool false), ("gwchnone", .bool false)]
     ++ N ++ P
     ++ [("rmin", ray), ("white", wh),
       ("newopts", .dict true (mkNew c oc ci me tr ph no inf mc ray rk wh ve ep)), ("RunTimeDisp", ve),
         ("epoch", ep)]) := by
  obtain ⟨e1, e2, e3, e4, e5, e6, e7, e8, e9, e10, e11⟩ :=
    optAttr_mkNew c oc ci me tr ph no inf mc ray rk wh ve ep
  unfold translateOpts at h
  simp only [e1, e2, e3, e4, e5, e6, e7, e8, e9, e10, e11, ok_bind] at h
  simp only [bind_eq_ok, pure_eq_ok, Except.ok.injEq] at h
  obtain ⟨A, hA, t, ht, N, hN, P, hP, h⟩ := h
  exact ⟨A, N, P, t, hA, hN, hP, ht, h.symm⟩

theorem slvinitDefaults_nodup : (Dict.keys slvinitDefaults).Nodup := by decide

theorem get?_slvinit (b : Bool) (o : Bunch PyVal) (ho : o.keys.Nodup) (k : String) :
    get? (slvinitOpts b o) k =
      (get? o k).or ((get? slvinitDefaults k).or (get? [("twodim", .bool b)] k)) := by
  unfold slvinitOpts
  rw [get?_update _ _ ho, get?_update _ _ slvinitDefaults_nodup]

/-- The decided value of the `conf_int` option. -/
inductive ConfChoice (ci : PyVal) : Bool → Bool → Prop
  | linear : ci.eqStr "linear" = .ok true → ConfChoice ci true true
  | mc : ci.eqStr "linear" = .ok false → ci.eqStr "MC" = .ok true → ConfChoice ci true false
  | none : ci.eqStr "linear" = .ok false → ci.eqStr "MC" = .ok false → ci.eqStr "none" = .ok true →
      ConfChoice ci false false

theorem readOpt_ok (is2D : Bool) (c oc ci me tr ph no inf mc ray rk wh ve ep : PyVal) (o : Bunch PyVal)
    (h : translateOpts (mkNew c oc ci me tr ph no inf mc ray rk wh ve ep) = .ok o) (q : Opt)
    (hr : readOpt (slvinitOpts is2D o) = .ok q) :
    q.twodim = is2D ∧ q.cnstit = c ∧ q.infer = inf ∧ q.ordercnstit = oc ∧ q.epoch = ep ∧
    tr.truthy = .ok (!q.notrend) ∧ wh.truthy = .ok q.white ∧ ve.truthy = .ok q.verbose ∧
    ConfChoice ci q.confInt q.linci ∧ q.nodiagn = !q.confInt ∧
    no.eqStr "linear_time" = .ok q.flags.nodsatlint ∧
    (if q.flags.nodsatlint then q.flags.nodsatnone = false else no.truthy = .ok (!q.flags.nodsatnone)) ∧
    ph.eqStr "linear_time" = .ok q.flags.gwchlint ∧
    (if q.flags.gwchlint then q.flags.gwchnone = false else ph.eqStr "raw" = .ok q.flags.gwchnone) ∧
    (match q.method with
      | .ols => me.eqStr "ols" = .ok true
      | .robust kw => me.eqStr "ols" = .ok false ∧ ∃ b, rk = .dict b kw) ∧
    (ray = .num q.rmin ∨ ∃ b, ray = .bool b ∧ q.rmin = if b then 1 else 0) := by
  obtain ⟨A, N, P, t, hA, hN, hP, ht, ho⟩ := translateOpts_ok _ _ _ _ _ _ _ _ _ _ _ _ _ _ _ h
  obtain ⟨a0, hA⟩ := confAssign_ok _ _ hA
  obtain ⟨n0, hN⟩ := nodalAssign_ok _ _ hN
  obtain ⟨p0, hP⟩ := phaseAssign_ok _ _ hP
  have hnd : o.keys.Nodup := by rw [ho]; exact keys_update_nodup _ _ (by simp [keys])
  have key : ∀ k, get? o k = _ := fun k => by rw [ho, get?_update_last]
  have E : ∀ k, get? (slvinitOpts is2D o) k = _ := fun k => by
    rw [get?_slvinit _ _ hnd, key k]
  have Etw := E "twodim"
  have Ecn := E "cnstit"
  have Ein := E "infer"
  have Eor := E "ordercnstit"
  have Eep := E "epoch"
  have Ent := E "notrend"
  have Ewh := E "white"
  have Ert := E "RunTimeDisp"
  have Enl := E "nodsatlint"
  have Enn := E "nodsatnone"
  have Egl := E "gwchlint"
  have Egn := E "gwchnone"
  have Eci := E "conf_int"
  have Eli := E "linci"
  have End := E "nodiagn"
  have Eno := E "newopts"
  have Erm := E "rmin"
  clear E
  simp [slvinitDefaults, get?_cons, get?, a0, n0, p0, get?_append] at Etw Ecn Ein Eor Eep Ent Ewh Ert Enl Enn Egl Egn Eci Eli End Eno Erm
  unfold readOpt optTruthy at hr
  simp only [bind_eq_ok, pure_eq_ok, Except.ok.injEq] at hr
  simp only [Dict.get] at hr
  simp only [Etw, Ecn, Ein, Eor, Eep, Ent, Ewh, Ert, Enl, Enn, Egl, Egn, Eci, Eli, End, Eno, Erm] at hr
  clear key ho a0 n0 p0 Etw Ecn Ein Eor Eep Ent Ewh Ert Enl Enn Egl Egn Eci Eli End Eno Erm
  simp only [Except.ok.injEq, exists_eq_left'] at hr
  obtain ⟨nl, hnl, nn, hnn, gl, hgl, gn, hgn, m, hm, isO, hO, me', hme, rm, hrm, tw, htw, nt, hnt, cf, hcf, li, hli,
    w, hw, nd, hndg, ve', hve, rfl⟩ := hr
  have hattr : (PyVal.dict true (mkNew c oc ci me tr ph no inf mc ray rk wh ve ep)).attr "method" = .ok me ∧
      (PyVal.dict true (mkNew c oc ci me tr ph no inf mc ray rk wh ve ep)).attr "robust_kw" = .ok rk := by
    constructor <;> rfl
  rw [hattr.1] at hm
  rw [hattr.2, ok_bind] at hme
  obtain rfl : me = m := by simpa using hm
  simp only [PyVal.truthy, Except.ok.injEq] at htw hnt
  refine ⟨htw.symm, rfl, rfl, rfl, rfl, ?_, hw, hve, ?_, ?_, ?_, ?_, ?_, ?_, ?_, ?_⟩
  · simp [← hnt, ht]
  · rcases hA with ⟨h1, rfl⟩ | ⟨h1, h2, rfl⟩ | ⟨h1, h2, h3, rfl⟩ <;>
      simp [get?_cons, get?, PyVal.truthy] at hcf hli <;> subst hcf hli
    · exact .linear h1
    · exact .mc h1 h2
    · exact .none h1 h2 h3
  · rcases hA with ⟨h1, rfl⟩ | ⟨h1, h2, rfl⟩ | ⟨h1, h2, h3, rfl⟩ <;>
      simp [get?_cons, get?, PyVal.truthy] at hcf hndg <;> subst hcf hndg <;> rfl
  · rcases hN with ⟨h1, rfl⟩ | ⟨h1, h2, rfl⟩ | ⟨h1, h2, rfl⟩ <;>
      simp [get?_cons, get?, PyVal.truthy] at hnl hnn <;> subst hnl <;> simp_all
  · rcases hN with ⟨h1, rfl⟩ | ⟨h1, h2, rfl⟩ | ⟨h1, h2, rfl⟩ <;>
      simp [get?_cons, get?, PyVal.truthy] at hnl hnn <;> subst hnl hnn <;> simp_all
  · rcases hP with ⟨h1, rfl⟩ | ⟨h1, h2, rfl⟩ | ⟨h1, h2, rfl⟩ <;>
      simp [get?_cons, get?, PyVal.truthy] at hgl hgn <;> subst hgl <;> simp_all
  · rcases hP with ⟨h1, rfl⟩ | ⟨h1, h2, rfl⟩ | ⟨h1, h2, rfl⟩ <;>
      simp [get?_cons, get?, PyVal.truthy] at hgl hgn <;> subst hgl hgn <;> simp_all
  · cases isO
    · cases rk <;> simp [throw_eq_error] at hme
      subst hme
      exact ⟨hO, _, rfl⟩
    · simp at hme; subst hme; exact hO
  · cases ray <;> simp [throw_eq_error] at hrm
    · right; exact ⟨_, rfl, hrm.symm⟩
    · left; rw [hrm]

theorem eqStr_excl (v : PyVal) (s s' : String) (b : Bool) (hne : s ≠ s') (h1 : v.eqStr s = .ok true)
    (h2 : v.eqStr s' = .ok b) : b = false := by
  have key : ∀ x : String, (x == s) = true → (x == s') = b → b = false := by
    intro x h1 h2
    obtain rfl : x = s := by simpa using h1
    rw [← h2]; simpa using hne
  cases v with
  | str x => simp only [PyVal.eqStr, Except.ok.injEq] at h1 h2; exact key x h1 h2
  | seq k xs =>
    cases k with
    | ndarray =>
      match xs with
      | [] => simp [PyVal.eqStr] at h1
      | [x] =>
        cases x with
        | str x => simp only [PyVal.eqStr, Except.ok.injEq] at h1 h2; exact key x h1 h2
        | _ => simp [PyVal.eqStr] at h1
      | x :: y :: l => simp [PyVal.eqStr] at h1
    | _ => simp [PyVal.eqStr] at h1
  | _ => simp [PyVal.eqStr] at h1

theorem set_infer_mkNew (c oc ci me tr ph no inf mc ray rk wh ve ep x : PyVal) :
    Dict.set (mkNew c oc ci me tr ph no inf mc ray rk wh ve ep) "infer" x =
      mkNew c oc ci me tr ph no x mc ray rk wh ve ep := by
  simp [mkNew, Dict.set]

theorem set_order_mkNew (c oc ci me tr ph no inf mc ray rk wh ve ep x : PyVal) :
    Dict.set (mkNew c oc ci me tr ph no inf mc ray rk wh ve ep) "order_constit" x =
      mkNew c x ci me tr ph no inf mc ray rk wh ve ep := by
  simp [mkNew, Dict.set]

/-- The caller's `infer` object after the call. -/
def inferAfter (inf : PyVal) (is2D : Bool) (old : PyVal) : PyVal :=
  match inf with
  | .dict b kv => (match validateInfer (.dict b kv) is2D with | .ok i => i | .error _ => old)
  | _ => old

theorem processOptsW_known (w : World) (opts : Dict PyVal) (is2D : Bool) (b : Bunch PyVal) (inf : PyVal)
    (hs : ¬ (Dict.mem opts "strict" || Dict.mem opts "self") = true)
    (hu : Bunch.updateValues (Bunch.mk [w.defaults] []) [] opts (strict := true) = .ok b)
    (hi : optAttr b "infer" = .ok inf) :
    (processOptsW w opts is2D).2 = (validateInfer inf is2D >>= fun inf' => (do
      let ci ← optAttr (Dict.set b "infer" inf') "conf_int"
      let isn ← ci.eqStr "none"
      let oc ← optAttr (Dict.set b "infer" inf') "order_constit"
      let oc' ← validateOrderConstit oc (!isn)
      translateOpts (Dict.set (Dict.set b "infer" inf') "order_constit" oc'))) ∧
    (processOptsW w opts is2D).1.defaults = w.defaults ∧
    (processOptsW w opts is2D).1.callerInfer =
      inferAfter inf is2D w.callerInfer := by
  unfold processOptsW
  rw [if_neg hs, hu]
  simp only [hi]
  cases hv : validateInfer inf is2D with
  | error e => cases inf <;> simp_all [inferAfter, error_bind]
  | ok inf' => cases inf <;> simp_all [inferAfter, ok_bind]

theorem processOpts_unknown (opts : Dict PyVal) (hnd : opts.keys.Nodup) (is2D : Bool)
    (hs : ¬ (Dict.mem opts "strict" || Dict.mem opts "self") = true)
    (hu : ∃ k ∈ opts.keys, k ∉ defaultOpts.keys) : processOpts opts is2D = .error .keyError := by
  have := ((updateValues_default opts hnd).1 .keyError).2 ⟨rfl, hu⟩
  unfold processOpts
  generalize (Dict.get? opts "infer").getD .none = x
  unfold processOptsW
  rw [if_neg hs]
  dsimp only
  rw [this]

/-- Option processing of acceptable keywords is a chain of four checks. -/
theorem processOpts_chain (opts : Dict PyVal) (hnd : opts.keys.Nodup) (is2D : Bool)
    (hs : ¬ (Dict.mem opts "strict" || Dict.mem opts "self") = true)
    (hk : ∀ k ∈ opts.keys, k ∈ defaultOpts.keys) :
    ∃ c oc ci me tr ph no inf mc ray rk wh ve ep,
      effective opts "constit" = some c ∧ effective opts "order_constit" = some oc ∧
      effective opts "conf_int" = some ci ∧ effective opts "method" = some me ∧
      effective opts "trend" = some tr ∧ effective opts "phase" = some ph ∧
      effective opts "nodal" = some no ∧ effective opts "infer" = some inf ∧
      effective opts "MC_n" = some mc ∧ effective opts "Rayleigh_min" = some ray ∧
      effective opts "robust_kw" = some rk ∧ effective opts "white" = some wh ∧
      effective opts "verbose" = some ve ∧ effective opts "epoch" = some ep ∧
      processOpts opts is2D = (do
        let inf' ← validateInfer inf is2D
        let isn ← ci.eqStr "none"
        let oc' ← validateOrderConstit oc (!isn)
        translateOpts (mkNew c oc' ci me tr ph no inf' mc ray rk wh ve ep)) := by
  obtain ⟨hE, hV⟩ := updateValues_default opts hnd
  cases hu : Bunch.updateValues (Bunch.mk [defaultOpts] []) [] opts (strict := true) with
  | error e =>
    obtain ⟨-, k, h1, h2⟩ := (hE e).1 hu
    exact absurd (hk k h1) h2
  | ok b =>
    obtain ⟨c, oc, ci, me, tr, ph, no, inf, mc, ray, rk, wh, ve, ep, hb, h1, h2, h3, h4, h5, h6, h7, h8, h9, h10,
      h11, h12, h13, h14⟩ := hV b hu
    refine ⟨c, oc, ci, me, tr, ph, no, inf, mc, ray, rk, wh, ve, ep, h1, h2, h3, h4, h5, h6, h7, h8, h9, h10,
      h11, h12, h13, h14, ?_⟩
    have hi : optAttr b "infer" = .ok inf := by
      rw [hb]; exact (optAttr_mkNew c oc ci me tr ph no inf mc ray rk wh ve ep).2.2.2.2.2.2.1
    unfold processOpts
    rw [(processOptsW_known _ opts is2D b inf hs hu hi).1, hb]
    have hat1 := fun inf' => (optAttr_mkNew c oc ci me tr ph no inf' mc ray rk wh ve ep).2.1
    have hat2 := fun inf' => (optAttr_mkNew c oc ci me tr ph no inf' mc ray rk wh ve ep).2.2.1
    simp only [set_infer_mkNew, hat1, hat2, ok_bind, set_order_mkNew]

/-- What a successful run of the whole option handling means. -/
theorem getOpt_ok (opts : Dict PyVal) (hnd : opts.keys.Nodup) (is2D : Bool) (q : Opt)
    (h : getOpt opts is2D = .ok q) :
    (∀ k ∈ opts.keys, k ∈ defaultOpts.keys) ∧
    ∃ c oc ci me tr ph no inf ray rk wh ve ep,
      effective opts "constit" = some c ∧ effective opts "order_constit" = some oc ∧
      effective opts "conf_int" = some ci ∧ effective opts "method" = some me ∧
      effective opts "trend" = some tr ∧ effective opts "phase" = some ph ∧
      effective opts "nodal" = some no ∧ effective opts "infer" = some inf ∧
      effective opts "Rayleigh_min" = some ray ∧
      effective opts "robust_kw" = some rk ∧ effective opts "white" = some wh ∧
      effective opts "verbose" = some ve ∧ effective opts "epoch" = some ep ∧
      q.twodim = is2D ∧ q.cnstit = c ∧ validateInfer inf is2D = .ok q.infer ∧
      validateOrderConstit oc q.confInt = .ok q.ordercnstit ∧ q.epoch = ep ∧
      tr.truthy = .ok (!q.notrend) ∧ wh.truthy = .ok q.white ∧ ve.truthy = .ok q.verbose ∧
      ConfChoice ci q.confInt q.linci ∧ q.nodiagn = !q.confInt ∧
      no.eqStr "linear_time" = .ok q.flags.nodsatlint ∧
      (if q.flags.nodsatlint then q.flags.nodsatnone = false else no.truthy = .ok (!q.flags.nodsatnone)) ∧
      ph.eqStr "linear_time" = .ok q.flags.gwchlint ∧
      (if q.flags.gwchlint then q.flags.gwchnone = false else ph.eqStr "raw" = .ok q.flags.gwchnone) ∧
      (match q.method with
        | .ols => me.eqStr "ols" = .ok true
        | .robust kw => me.eqStr "ols" = .ok false ∧ ∃ b, rk = .dict b kw) ∧
      (ray = .num q.rmin ∨ ∃ b, ray = .bool b ∧ q.rmin = if b then 1 else 0) := by
  have hs : ¬ (Dict.mem opts "strict" || Dict.mem opts "self") = true := by
    intro hs
    unfold getOpt processOpts processOptsW at h
    rw [if_pos hs] at h
    simp [error_bind] at h
  have hk : ∀ k ∈ opts.keys, k ∈ defaultOpts.keys := by
    by_contra hcon
    push Not at hcon
    unfold getOpt at h
    rw [processOpts_unknown opts hnd is2D hs hcon] at h
    simp [error_bind] at h
  refine ⟨hk, ?_⟩
  obtain ⟨c, oc, ci, me, tr, ph, no, inf, mc, ray, rk, wh, ve, ep, h1, h2, h3, h4, h5, h6, h7, h8, h9, h10,
      h11, h12, h13, h14, heq⟩ := processOpts_chain opts hnd is2D hs hk
  refine ⟨c, oc, ci, me, tr, ph, no, inf, ray, rk, wh, ve, ep, h1, h2, h3, h4, h5, h6, h7, h8, h10,
        h11, h12, h13, h14, ?_⟩
  unfold getOpt at h
  rw [heq] at h
  simp only [bind_eq_ok] at h
  obtain ⟨compat, ⟨inf', hv, isn, hisn, oc', hoc, htr⟩, hr⟩ := h
  obtain ⟨r1, r2, r3, r4, r5, r6, r7, r8, r9, r10, r11, r12, r13, r14, r15, r16⟩ :=
    readOpt_ok is2D c oc' ci me tr ph no inf' mc ray rk wh ve ep compat htr q hr
  have hci : q.confInt = !isn := by
    have hex : ∀ s s' : String, s ≠ s' → ci.eqStr s = .ok true → ci.eqStr s' = .ok isn → isn = false :=
      fun s s' hne h1 h2 => eqStr_excl ci s s' isn hne h1 h2
    generalize hx : q.confInt = x, q.linci = y at r9
    cases r9 with
    | linear h => simp [hex _ _ (by decide) h hisn]
    | mc _ h => simp [hex _ _ (by decide) h hisn]
    | none _ _ h => rw [h] at hisn; simp at hisn; simp [← hisn]
  refine ⟨r1, r2, by rw [r3, hv], ?_, r5, r6, r7, r8, r9, r10, r11, r12, r13, r14, r15, r16⟩
  rw [r4, hci, hoc]

end UTide
