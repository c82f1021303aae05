import Verif.Lemmas.Options

/-!
# Option values that are accepted
-/

namespace UTide

open Dict

theorem readOpt_total (is2D : Bool) (c oc ci me tr ph no inf mc rk wh ve ep : PyVal)
    (A N P : List (String × PyVal)) (t w vb isO : Bool) (r : ℚ) (hA : confAssign ci = .ok A)
    (hN : nodalAssign no = .ok N) (hP : phaseAssign ph = .ok P) (ht : tr.truthy = .ok t) (hw : wh.truthy = .ok w)
    (hv : ve.truthy = .ok vb) (hme : me.eqStr "ols" = .ok isO) (hrk : isO = true ∨ ∃ b kw, rk = .dict b kw) :
    ∃ o q, translateOpts (mkNew c oc ci me tr ph no inf mc (.num r) rk wh ve ep) = .ok o ∧
      readOpt (slvinitOpts is2D o) = .ok q := by
  obtain ⟨o, ho⟩ : ∃ o, translateOpts (mkNew c oc ci me tr ph no inf mc (.num r) rk wh ve ep) = .ok o := by
    obtain ⟨e1, e2, e3, e4, e5, e6, e7, e8, e9, e10, e11⟩ :=
      optAttr_mkNew c oc ci me tr ph no inf mc (.num r) rk wh ve ep
    unfold translateOpts
    simp only [e1, e2, e3, e4, e5, e6, e7, e8, e9, e10, e11, ok_bind, hA, hN, hP, ht]
    exact ⟨_, rfl⟩
  refine ⟨o, ?_⟩
  suffices ∃ q, readOpt (slvinitOpts is2D o) = .ok q by
    obtain ⟨q, hq⟩ := this; exact ⟨q, ho, hq⟩
  obtain ⟨A', N', P', t', hA', hN', hP', ht', ho⟩ := translateOpts_ok _ _ _ _ _ _ _ _ _ _ _ _ _ _ _ ho
  rw [hA] at hA'; rw [hN] at hN'; rw [hP] at hP'; rw [ht] at ht'
  obtain rfl := Except.ok.inj hA'
  obtain rfl := Except.ok.inj hN'
  obtain rfl := Except.ok.inj hP'
  obtain rfl := Except.ok.inj ht'
  obtain ⟨a0, hA⟩ := confAssign_ok _ _ hA
  obtain ⟨n0, hN⟩ := nodalAssign_ok _ _ hN
  obtain ⟨p0, hP⟩ := phaseAssign_ok _ _ hP
  have hnd : o.keys.Nodup := by rw [ho]; exact keys_update_nodup _ _ (by simp [keys])
  have key : ∀ k, get? o k = _ := fun k => by rw [ho, get?_update_last]
  have E : ∀ k, get? (slvinitOpts is2D o) k = _ := fun k => by
    rw [get?_slvinit _ _ hnd, key k]
  have Etw := E "twodim"
  have Ecn := E "cnstit"
  have Ein := E "infer"
  have Eor := E "ordercnstit"
  have Eep := E "epoch"
  have Ent := E "notrend"
  have Ewh := E "white"
  have Ert := E "RunTimeDisp"
  have Enl := E "nodsatlint"
  have Enn := E "nodsatnone"
  have Egl := E "gwchlint"
  have Egn := E "gwchnone"
  have Eci := E "conf_int"
  have Eli := E "linci"
  have End := E "nodiagn"
  have Eno := E "newopts"
  have Erm := E "rmin"
  clear E
  simp [slvinitDefaults, get?_cons, get?, a0, n0, p0, get?_append] at Etw Ecn Ein Eor Eep Ent Ewh Ert Enl Enn Egl Egn Eci Eli End Eno Erm
  obtain ⟨nl, hnl⟩ : ∃ x, get? (slvinitOpts is2D o) "nodsatlint" = some (.bool x) ∨
      get? (slvinitOpts is2D o) "nodsatlint" = some (.num 0) := by
    rw [Enl]; rcases hN with ⟨-, rfl⟩ | ⟨-, -, rfl⟩ | ⟨-, -, rfl⟩ <;> simp [get?_cons, get?]
  obtain ⟨nn, hnn⟩ : ∃ x, get? (slvinitOpts is2D o) "nodsatnone" = some (.bool x) ∨
      get? (slvinitOpts is2D o) "nodsatnone" = some (.num 0) := by
    rw [Enn]; rcases hN with ⟨-, rfl⟩ | ⟨-, -, rfl⟩ | ⟨-, -, rfl⟩ <;> simp [get?_cons, get?]
  obtain ⟨gl, hgl⟩ : ∃ x, get? (slvinitOpts is2D o) "gwchlint" = some (.bool x) ∨
      get? (slvinitOpts is2D o) "gwchlint" = some (.num 0) := by
    rw [Egl]; rcases hP with ⟨-, rfl⟩ | ⟨-, -, rfl⟩ | ⟨-, -, rfl⟩ <;> simp [get?_cons, get?]
  obtain ⟨gn, hgn⟩ : ∃ x, get? (slvinitOpts is2D o) "gwchnone" = some (.bool x) ∨
      get? (slvinitOpts is2D o) "gwchnone" = some (.num 0) := by
    rw [Egn]; rcases hP with ⟨-, rfl⟩ | ⟨-, -, rfl⟩ | ⟨-, -, rfl⟩ <;> simp [get?_cons, get?]
  obtain ⟨cf, hcf⟩ : ∃ x, get? (slvinitOpts is2D o) "conf_int" = some (.bool x) ∨
      get? (slvinitOpts is2D o) "conf_int" = some (.num 0) := by
    rw [Eci]; rcases hA with ⟨-, rfl⟩ | ⟨-, -, rfl⟩ | ⟨-, -, -, rfl⟩ <;> simp [get?_cons, get?]
  obtain ⟨li, hli⟩ : ∃ x, get? (slvinitOpts is2D o) "linci" = some (.bool x) ∨
      get? (slvinitOpts is2D o) "linci" = some (.num 0) := by
    rw [Eli]; rcases hA with ⟨-, rfl⟩ | ⟨-, -, rfl⟩ | ⟨-, -, -, rfl⟩ <;> simp [get?_cons, get?]
  obtain ⟨nd, hdg⟩ : ∃ x : ℚ, get? (slvinitOpts is2D o) "nodiagn" = some (.num x) := by
    rw [End]; rcases hA with ⟨-, rfl⟩ | ⟨-, -, rfl⟩ | ⟨-, -, -, rfl⟩ <;> simp [get?_cons, get?]
  have T : ∀ k : String, (∃ x, get? (slvinitOpts is2D o) k = some (.bool x) ∨
      get? (slvinitOpts is2D o) k = some (.num 0)) → ∃ b, optTruthy (slvinitOpts is2D o) k = .ok b := by
    rintro k ⟨x, hx | hx⟩
    · exact ⟨x, by unfold optTruthy Dict.get; rw [hx]; rfl⟩
    · exact ⟨_, by unfold optTruthy Dict.get; rw [hx]; rfl⟩
  obtain ⟨b1, B1⟩ := T _ ⟨nl, hnl⟩
  obtain ⟨b2, B2⟩ := T _ ⟨nn, hnn⟩
  obtain ⟨b3, B3⟩ := T _ ⟨gl, hgl⟩
  obtain ⟨b4, B4⟩ := T _ ⟨gn, hgn⟩
  obtain ⟨b5, B5⟩ := T _ ⟨cf, hcf⟩
  obtain ⟨b6, B6⟩ := T _ ⟨li, hli⟩
  obtain ⟨b7, B7⟩ : ∃ b, optTruthy (slvinitOpts is2D o) "nodiagn" = .ok b :=
    ⟨_, by unfold optTruthy Dict.get; rw [hdg]; rfl⟩
  have B8 : optTruthy (slvinitOpts is2D o) "twodim" = .ok is2D := by unfold optTruthy Dict.get; rw [Etw]; rfl
  have B9 : optTruthy (slvinitOpts is2D o) "notrend" = .ok (!t) := by unfold optTruthy Dict.get; rw [Ent]; rfl
  have B10 : optTruthy (slvinitOpts is2D o) "white" = .ok w := by
    unfold optTruthy Dict.get; rw [Ewh]; exact hw
  have B11 : optTruthy (slvinitOpts is2D o) "RunTimeDisp" = .ok vb := by
    unfold optTruthy Dict.get; rw [Ert]; exact hv
  have G : ∀ k x, get? (slvinitOpts is2D o) k = some x → Dict.get (slvinitOpts is2D o) k = .ok x := by
    intro k x hx; unfold Dict.get; rw [hx]
  have hattr : (PyVal.dict true (mkNew c oc ci me tr ph no inf mc (.num r) rk wh ve ep)).attr "method" = .ok me ∧
      (PyVal.dict true (mkNew c oc ci me tr ph no inf mc (.num r) rk wh ve ep)).attr "robust_kw" = .ok rk := by
    constructor <;> rfl
  unfold readOpt
  simp only [B1, B2, B3, B4, B5, B6, B7, B8, B9, B10, B11, G _ _ Eno, G _ _ Ecn, G _ _ Ein, G _ _ Eor, G _ _ Eep,
    G _ _ Erm, hattr.1, hattr.2, hme, ok_bind]
  cases isO with
  | true => exact ⟨_, rfl⟩
  | false =>
    rcases hrk with h | ⟨b, kw, rfl⟩
    · cases h
    · exact ⟨_, rfl⟩

end UTide
