import Verif.Lemmas.Result
import Verif.Lemmas.Median
import Verif.Props.ResultProps
import Verif.Props.ConfProps

/-!
# Confidence intervals in the result of `solve`: C53, C54; rescaling with the residual spectrum: C51, C52
-/

namespace UTide.Props

noncomputable section

open Classical

/-! ## C53 -/

/-- A number that is not negative (infinity counts), or NaN. -/
def NonNegOrNan : Fl → Prop
  | .fin x => 0 ≤ x
  | .nan => True
  | .pinf => True
  | .ninf => False

theorem NonNegOrNan.scaleInf {x : ℝ} (h : 0 ≤ x) : NonNegOrNan (Fl.scaleInf x true) := by
  unfold Fl.scaleInf
  by_cases h0 : x = 0
  · rw [if_pos h0]; trivial
  · rw [if_neg h0, if_pos (by simpa using lt_of_le_of_ne h (Ne.symm h0))]; trivial

theorem NonNegOrNan.add {a b : Fl} (ha : NonNegOrNan a) (hb : NonNegOrNan b) : NonNegOrNan (a + b) := by
  cases a <;> cases b <;> first | trivial | exact ha.elim | exact hb.elim | exact add_nonneg ha hb

theorem NonNegOrNan.mul {a b : Fl} (ha : NonNegOrNan a) (hb : NonNegOrNan b) : NonNegOrNan (a * b) := by
  cases a <;> cases b <;> first
    | trivial | exact ha.elim | exact hb.elim | exact mul_nonneg ha hb | exact NonNegOrNan.scaleInf ha
    | exact NonNegOrNan.scaleInf hb

theorem NonNegOrNan.sqrt (a : Fl) : NonNegOrNan a.sqrt := by
  cases a with
  | fin x =>
    show NonNegOrNan (if x < 0 then .nan else .fin (Real.sqrt x))
    split
    · trivial
    · exact Real.sqrt_nonneg x
  | _ => trivial

theorem NonNegOrNan.fin {x : ℝ} (h : 0 ≤ x) : NonNegOrNan (.fin x) := h

theorem NonNegOrNan.addJ {a b : Fl} (ha : NonNegOrNan a) (hb : NonNegOrNan b) :
    NonNegOrNan (addJ a b).1 ∧ NonNegOrNan (addJ a b).2 := by
  refine ⟨?_, hb⟩
  exact ha.add ((NonNegOrNan.fin le_rfl).mul hb)

/-- All four. -/
def Linci.NN (s : Linci) : Prop := NonNegOrNan s.sMaj ∧ NonNegOrNan s.sMin ∧ NonNegOrNan s.sG ∧ NonNegOrNan s.sTheta
def Ci1.NN (s : Ci1) : Prop := NonNegOrNan s.maj ∧ NonNegOrNan s.min ∧ NonNegOrNan s.theta ∧ NonNegOrNan s.g

theorem utLinci_nn (Xu Yu Xv Yv : ℝ) (sXu sYu sXv sYv : Fl) : Linci.NN (utLinci Xu Yu Xv Yv sXu sYu sXv sYv) := by
  have hd : NonNegOrNan (.fin (180 / Real.pi)) := div_nonneg (by norm_num) Real.pi_pos.le
  have hs : ∀ d1 d2 d3 d4 s1 s2 s3 s4, NonNegOrNan (linSum d1 d2 d3 d4 s1 s2 s3 s4) := fun _ _ _ _ _ _ _ _ =>
    NonNegOrNan.sqrt _
  unfold utLinci
  dsimp only
  split
  · exact ⟨hs _ _ _ _ _ _ _ _, NonNegOrNan.fin le_rfl, hd.mul (hs _ _ _ _ _ _ _ _), NonNegOrNan.fin le_rfl⟩
  · exact ⟨((hs _ _ _ _ _ _ _ _).addJ (hs _ _ _ _ _ _ _ _)).1, hs _ _ _ _ _ _ _ _,
      ((hd.mul (hs _ _ _ _ _ _ _ _)).addJ (hd.mul (hs _ _ _ _ _ _ _ _))).1, hd.mul (hs _ _ _ _ _ _ _ _)⟩

theorem linear1_nn (P : Option Fl) (Xu Yu vXu vYu : ℝ) : Ci1.NN (linear1 P Xu Yu vXu vYu).1 := by
  have k : NonNegOrNan (.fin 1.96) := by show (0 : ℝ) ≤ 1.96; norm_num
  unfold linear1
  dsimp only
  obtain ⟨h1, h2, h3, h4⟩ := utLinci_nn Xu Yu 0 0 _ _ (.fin 0) (.fin 0)
  exact ⟨k.mul h1, NonNegOrNan.fin le_rfl, NonNegOrNan.fin le_rfl, k.mul h3⟩

theorem linear2_nn (P : Option Fl) (Xu Yu Xv Yv vXu vYu vXv vYv : ℝ) :
    Ci1.NN (linear2 P Xu Yu Xv Yv vXu vYu vXv vYv).1 := by
  have k : NonNegOrNan (.fin 1.96) := by show (0 : ℝ) ≤ 1.96; norm_num
  unfold linear2 utLinci2
  dsimp only
  obtain ⟨h1, h2, h3, h4⟩ := utLinci_nn Xu Yu Xv Yv _ _ _ _
  exact ⟨k.mul h1, k.mul h2, k.mul h4, k.mul h3⟩

theorem inferOne_nn (td : Bool) (v : Vars) (Xu Yu Xv Yv : ℝ) (q : InfCon) :
    Ci1.NN (inferOne td v Xu Yu Xv Yv q) := by
  have k : NonNegOrNan (.fin 1.96) := by show (0 : ℝ) ≤ 1.96; norm_num
  unfold inferOne utLinci2
  dsimp only
  cases td
  · rw [if_neg (by simp)]
    obtain ⟨h1, h2, h3, h4⟩ := utLinci_nn Xu Yu 0 0 _ _ (.fin 0) (.fin 0)
    exact ⟨k.mul h1, NonNegOrNan.fin le_rfl, NonNegOrNan.fin le_rfl, k.mul h3⟩
  · rw [if_pos rfl]
    obtain ⟨h1, h2, h3, h4⟩ := utLinci_nn Xu Yu Xv Yv _ _ _ _
    exact ⟨k.mul h1, k.mul h2, k.mul h4, k.mul h3⟩

theorem madCi_nonneg (x : List ℝ) : 0 ≤ madCi x := by
  unfold madCi
  refine div_nonneg (mul_nonneg (by norm_num) (median_nonneg _ ?_)) (by norm_num)
  intro y hy
  rw [List.mem_map] at hy
  obtain ⟨a, -, rfl⟩ := hy
  exact abs_nonneg _

theorem angleCi_nn (a : ℝ) (x : List ℝ) (r : Fl) (h : angleCi a x = .ok r) : NonNegOrNan r := by
  unfold angleCi at h
  simp only [bind_eq_ok, pure_eq_ok, Except.ok.injEq] at h
  obtain ⟨_, -, y, -, rfl⟩ := h
  exact madCi_nonneg y

theorem monteCarlo1_nn (N : Num) (c : ℕ) (P : Option Fl) (Xu Yu g : ℝ) (H : Matrix (Fin 2) (Fin 2) ℂ) (vXu vYu : ℝ)
    (r : Ci1) (h : monteCarlo1 N c P Xu Yu g H vXu vYu = .ok r) : Ci1.NN r := by
  unfold monteCarlo1 at h
  simp only [bind_eq_ok, pure_eq_ok, Except.ok.injEq] at h
  obtain ⟨M, -, gci, hg, rfl⟩ := h
  exact ⟨madCi_nonneg _, NonNegOrNan.fin le_rfl, NonNegOrNan.fin le_rfl, angleCi_nn _ _ _ hg⟩

theorem monteCarlo2_nn (N : Num) (c : ℕ) (P : Option (Fl × Fl × Fl)) (Xu Yu Xv Yv g theta : ℝ)
    (G H : Matrix (Fin 2) (Fin 2) ℂ) (r : Ci1) (h : monteCarlo2 N c P Xu Yu Xv Yv g theta G H = .ok r) :
    Ci1.NN r := by
  unfold monteCarlo2 at h
  simp only [bind_eq_ok, pure_eq_ok, Except.ok.injEq] at h
  obtain ⟨M, -, tci, ht, gci, hg, rfl⟩ := h
  exact ⟨madCi_nonneg _, madCi_nonneg _, angleCi_nn _ _ _ ht, angleCi_nn _ _ _ hg⟩

theorem ciOne_nn (N : Num) (i : ConfIn) (pw : Option Power)
    (GH : Matrix (Fin i.nm) (Fin i.nm) ℂ × Matrix (Fin i.nm) (Fin i.nm) ℂ) (nc c : ℕ) (r : Ci1 × Vars)
    (h : ciOne N i pw GH nc c = .ok r) : Ci1.NN r.1 := by
  unfold ciOne at h
  simp only [bind_eq_ok] at h
  obtain ⟨G, -, H, -, Xu, -, Yu, -, g, -, pu, -, h⟩ := h
  split at h
  · simp only [bind_eq_ok] at h
    obtain ⟨Xv, -, Yv, -, pv, -, h⟩ := h
    split at h
    · simp only [pure_eq_ok, Except.ok.injEq] at h
      subst h; exact linear2_nn _ _ _ _ _ _ _ _ _
    · simp only [bind_eq_ok, pure_eq_ok, Except.ok.injEq] at h
      obtain ⟨th, -, puv, -, q, hq, rfl⟩ := h
      exact monteCarlo2_nn _ _ _ _ _ _ _ _ _ _ _ _ hq
  · split at h
    · simp only [pure_eq_ok, Except.ok.injEq] at h
      subst h; exact linear1_nn _ _ _ _ _
    · simp only [bind_eq_ok, pure_eq_ok, Except.ok.injEq] at h
      obtain ⟨q, hq, rfl⟩ := h
      exact monteCarlo1_nn _ _ _ _ _ _ _ _ _ _ hq

theorem inferCi_nn (i : ConfIn) (vars : List Vars) (l : List Ci1) (h : inferCi i vars = .ok l) : ∀ r ∈ l, Ci1.NN r := by
  unfold inferCi at h
  split at h
  · split at h
    · simp only [bind_eq_ok, pure_eq_ok, Except.ok.injEq] at h
      obtain ⟨ll, hl, rfl⟩ := h
      intro r hr
      rw [List.mem_flatten] at hr
      obtain ⟨x, hx, hrx⟩ := hr
      obtain ⟨rk, -, hrk⟩ := mapM_mem' _ _ _ hl x hx
      unfold inferRef at hrk
      simp only [bind_eq_ok] at hrk
      obtain ⟨_, -, _, -, _, -, hrk⟩ := hrk
      split at hrk
      · simp only [bind_eq_ok, pure_eq_ok, Except.ok.injEq] at hrk
        obtain ⟨_, -, _, -, rfl⟩ := hrk
        rw [List.mem_map] at hrx
        obtain ⟨q, -, rfl⟩ := hrx
        exact inferOne_nn _ _ _ _ _ _ _
      · simp only [pure_eq_ok, Except.ok.injEq] at hrk
        subst hrk
        rw [List.mem_map] at hrx
        obtain ⟨q, -, rfl⟩ := hrx
        exact inferOne_nn _ _ _ _ _ _ _
    · simp at h
  · have := Except.ok.inj h
    subst this
    intro r hr; cases hr

/-- The arrays `A_ci`, `g_ci` or `Lsmaj_ci`, `Lsmin_ci`, `theta_ci`, `g_ci`. -/
def ciArrays : CiArr → List (List Fl)
  | .one A g => [A, g]
  | .two a b c d => [a, b, c, d]

theorem confidence_nn (N : Num) (i : ConfIn) (ci : CiArr) (h : confidence N i = .ok ci) :
    ∀ a ∈ ciArrays ci, ∀ x ∈ a, NonNegOrNan x := by
  unfold confidence at h
  simp only [bind_eq_ok, pure_eq_ok, Except.ok.injEq] at h
  obtain ⟨pw, -, GH, -, rows, hrows, inf, hinf, rfl⟩ := h
  have key : ∀ r ∈ rows.map Prod.fst ++ inf, Ci1.NN r := by
    intro r hr
    rw [List.mem_append] at hr
    rcases hr with hr | hr
    · rw [List.mem_map] at hr
      obtain ⟨q, hq, rfl⟩ := hr
      obtain ⟨c, -, hc⟩ := mapM_mem' _ _ _ hrows q hq
      exact ciOne_nn _ _ _ _ _ _ _ hc
    · exact inferCi_nn _ _ _ hinf r hr
  generalize rows.map Prod.fst ++ inf = l at key
  intro a ha x hx
  generalize i.twodim = td at ha
  cases td
  · change a ∈ [l.map Ci1.maj, l.map Ci1.g] at ha
    simp only [List.mem_cons, List.not_mem_nil, or_false] at ha
    rcases ha with rfl | rfl
    all_goals
      rw [List.mem_map] at hx
      obtain ⟨r, hr, rfl⟩ := hx
      obtain ⟨h1, h2, h3, h4⟩ := key r hr
      assumption
  · change a ∈ [l.map Ci1.maj, l.map Ci1.min, l.map Ci1.theta, l.map Ci1.g] at ha
    simp only [List.mem_cons, List.not_mem_nil, or_false] at ha
    rcases ha with rfl | rfl | rfl | rfl
    all_goals
      rw [List.mem_map] at hx
      obtain ⟨r, hr, rfl⟩ := hx
      obtain ⟨h1, h2, h3, h4⟩ := key r hr
      assumption

theorem eqStr_unique {x : PyVal} {a b : String} (ha : x.eqStr a = .ok true) (hb : x.eqStr b = .ok true)
    (h : a ≠ b) : False := by
  unfold PyVal.eqStr at ha hb
  split at ha
  · simp only [Except.ok.injEq, beq_iff_eq] at ha hb
    exact h (ha.symm.trans hb)
  · split at ha
    · simp only [Except.ok.injEq, beq_iff_eq] at ha hb
      exact h (ha.symm.trans hb)
    · simp at ha
  · simp at ha
  · simp at ha

/-- **C53.** The arrays of confidence intervals have one entry per constituent in the result, inferred ones
included; there are two of them for a scalar and four for a vector series; every entry that is a number is not
negative. They are there if and only if `conf_int` asks for them. -/
theorem C53_ci (E : Env) (t : TimeArg) (u : Series) (v : Option Series) (lat : Option ℝ) (opts : Dict PyVal)
    (hnd : opts.keys.Nodup) (R : Ready E t u v) (c : Coef) (h : solve E t u v lat opts = .ok c) :
    (c.ci = none ↔ ∃ x, requested opts "conf_int" = some x ∧ x.eqStr "none" = .ok true) ∧
    ∀ ci, c.ci = some ci → (ciArrays ci).length = (if v.isSome then 4 else 2) ∧
      ∀ a ∈ ciArrays ci, a.length = c.name.length ∧ ∀ x ∈ a, NonNegOrNan x := by
  obtain ⟨opt, p, tn, constit, m, W, rf, full, o, ind, F⟩ := solve_facts R h
  have hopt : p.opt = opt := F.prep.hopt
  have hq := getOpt_requests opts hnd _ _ F.hopt
  have hci : c.ci = full.ci.map (CiArr.permute ind) := by rw [F.solved.result]; rfl
  have hname : c.name = gather full.name ind := by rw [F.solved.result]; rfl
  have hnl : full.name.length = p.sel.lind.length := F.len.name
  obtain ⟨x, hx⟩ := Option.isSome_iff_exists.1 (hq.some "conf_int" (by simp))
  have hch := hq.conf x hx
  rw [hci]
  constructor
  · rw [Option.map_eq_none_iff]
    rcases F.solved.ci with ⟨h1, h2⟩ | ⟨h1, ci, -, h2⟩
    · rw [hopt] at h1
      rw [h1] at hch
      refine ⟨fun _ => ⟨x, hx, ?_⟩, fun _ => h2⟩
      generalize opt.linci = b at hch
      cases hch with
      | none _ _ h => exact h
    · rw [hopt] at h1
      rw [h1] at hch
      refine ⟨fun h => by (rw [h2] at h; cases h), ?_⟩
      rintro ⟨y, hy, hn⟩
      rw [hx] at hy
      cases hy
      exfalso
      generalize opt.linci = b at hch
      cases hch with
      | linear h => exact eqStr_unique hn h (by decide)
      | mc _ h => exact eqStr_unique hn h (by decide)
  · intro ci hc
    rw [Option.map_eq_some_iff] at hc
    obtain ⟨ci0, h0, rfl⟩ := hc
    have hlen := F.solved.ciLen F.prep F.mlen ci0 h0
    have hnn : ∀ a ∈ ciArrays ci0, ∀ x ∈ a, NonNegOrNan x := by
      rcases F.solved.ci with ⟨-, h2⟩ | ⟨-, ci, hc, h2⟩
      · rw [h2] at h0; cases h0
      · rw [h2] at h0; cases h0; exact confidence_nn _ _ _ hc
    have htd : (ciArrays ci0).length = if v.isSome then 4 else 2 := by
      rcases F.solved.ci with ⟨-, h2⟩ | ⟨-, ci, hc, h2⟩
      · rw [h2] at h0; cases h0
      · rw [h2] at h0; cases h0
        unfold confidence at hc
        simp only [bind_eq_ok, pure_eq_ok, Except.ok.injEq] at hc
        obtain ⟨pw, -, GH, -, rows, hrows, inf, hinf, rfl⟩ := hc
        have : (confIn p m W).twodim = v.isSome := by
          show p.opt.twodim = _
          rw [hopt]; exact hq.twodim
        rw [this]
        cases v.isSome <;> rfl
    have hg : ∀ l : List Fl, l.length = p.sel.lind.length → (gather l ind).length = c.name.length := by
      intro l hl
      rw [hname, gather_length _ _ (by rw [hl]; exact F.lt), gather_length _ _ (by rw [hnl]; exact F.lt)]
    cases ci0 with
    | one A g =>
      refine ⟨htd, ?_⟩
      intro a ha
      simp only [CiArr.permute, ciArrays, List.mem_cons, List.not_mem_nil, or_false] at ha
      rcases ha with rfl | rfl
      · exact ⟨hg _ hlen.1, fun x hx => hnn A (by simp [ciArrays]) x (gather_mem _ _ _ hx)⟩
      · exact ⟨hg _ hlen.2, fun x hx => hnn g (by simp [ciArrays]) x (gather_mem _ _ _ hx)⟩
    | two a b d e =>
      refine ⟨htd, ?_⟩
      intro y ha
      simp only [CiArr.permute, ciArrays, List.mem_cons, List.not_mem_nil, or_false] at ha
      rcases ha with rfl | rfl | rfl | rfl
      · exact ⟨hg _ hlen.1, fun x hx => hnn a (by simp [ciArrays]) x (gather_mem _ _ _ hx)⟩
      · exact ⟨hg _ hlen.2.1, fun x hx => hnn b (by simp [ciArrays]) x (gather_mem _ _ _ hx)⟩
      · exact ⟨hg _ hlen.2.2.1, fun x hx => hnn d (by simp [ciArrays]) x (gather_mem _ _ _ hx)⟩
      · exact ⟨hg _ hlen.2.2.2, fun x hx => hnn e (by simp [ciArrays]) x (gather_mem _ _ _ hx)⟩

/-! ## C54 -/

theorem getIdx_ok {α : Type} (l : List α) (i : ℕ) (a : α) : getIdx l i = .ok a ↔ l[i]? = some a := by
  unfold getIdx
  cases l[i]? <;> simp

theorem getIdx_lt {α : Type} (l : List α) (i : ℕ) (h : i < l.length) : getIdx l i = .ok l[i] :=
  (getIdx_ok _ _ _).2 (List.getElem?_eq_getElem h)

/-- The step that reads the request for inference. -/
theorem infer_some (kv : Dict PyVal) (b is2D : Bool) (q : PyVal) (r : Option InferSpec)
    (hv : validateInfer (.dict b kv) is2D = .ok q) (hr : readInfer q = .ok r) : r.isSome = true := by
  unfold validateInfer validateInferDict at hv
  simp only [bind_eq_ok, pure_eq_ok, Except.ok.injEq] at hv
  obtain ⟨_, -, _, -, _, -, _, -, _, -, _, -, _, -, _, -, _, -, _, -, _, -, _, -, rfl⟩ := hv
  unfold readInfer at hr
  simp only [bind_eq_ok, pure_eq_ok, Except.ok.injEq] at hr
  obtain ⟨_, -, _, -, _, -, _, -, _, -, _, -, _, -, _, -, _, -, _, -, rfl⟩ := hr
  rfl

/-- **C54.** No result is ever returned for Monte-Carlo intervals together with inference. -/
theorem C54_refused (E : Env) (t : TimeArg) (u : Series) (v : Option Series) (lat : Option ℝ) (opts : Dict PyVal)
    (hnd : opts.keys.Nodup) (x : PyVal) (hx : requested opts "conf_int" = some x) (hmc : x.eqStr "MC" = .ok true)
    (b : Bool) (kv : Dict PyVal) (hi : requested opts "infer" = some (.dict b kv)) :
    ∃ e, solve E t u v lat opts = .error e := by
  cases h : solve E t u v lat opts with
  | error e => exact ⟨e, rfl⟩
  | ok c =>
    exfalso
    obtain ⟨opt, p, tn, constit, m, W, rf, full, o, ind, h1, h2, h3⟩ := solve_solved _ _ _ _ _ _ _ h
    have hq := getOpt_requests opts hnd _ _ h1
    have hch := hq.conf x hx
    have hinf := infer_some kv b _ _ _ (hq.infer _ hi) h2.hinfer
    have hf : opt.confInt = true ∧ opt.linci = false := by
      generalize opt.confInt = a at hch
      generalize opt.linci = b at hch
      cases hch with
      | linear h => exact (eqStr_unique hmc h (by decide)).elim
      | mc _ _ => exact ⟨rfl, rfl⟩
      | none _ h _ => rw [hmc] at h; cases h
    have hpo : p.opt = opt := h2.hopt
    rcases h3.ci with ⟨h4, -⟩ | ⟨-, ci, hc, -⟩
    · rw [hpo, hf.1] at h4; cases h4
    · unfold confidence at hc
      simp only [bind_eq_ok, pure_eq_ok, Except.ok.injEq] at hc
      obtain ⟨pw, -, GH, -, rows, -, inf, hi, -⟩ := hc
      unfold inferCi at hi
      have e1 : (confIn p m W).infer = true := hinf
      have e2 : (confIn p m W).linci = false := by show p.opt.linci = false; rw [hpo, hf.2]
      rw [e1, e2] at hi
      cases hi

/-- A case of C54: NU2 inferred from N2, Monte Carlo intervals. -/
example (E : Env) (t : TimeArg) (u : Series) (lat : Option ℝ) :
    ∃ e, solve E t u none lat [("constit", .seq .list [.str "M2", .str "N2"]), ("conf_int", .str "MC"),
      ("infer", .dict true [("inferred_names", .seq .list [.str "NU2"]), ("reference_names", .seq .list [.str "N2"]),
        ("amp_ratios", .seq .list [.num (1 / 5)]), ("phase_offsets", .seq .list [.num 30])])] = .error e :=
  C54_refused E t u none lat _ (by decide) (.str "MC") rfl rfl true _ rfl


theorem angleCi_total (a : ℝ) (x : List ℝ) (h : x ≠ []) : ∃ r, angleCi a x = .ok r := by
  cases x with
  | nil => exact absurd rfl h
  | cons b l => exact ⟨_, rfl⟩

theorem mvn_map_ne {α : Type} (N : Num) (hN : MvnOk N.mvn) (c n : ℕ) (m : Fin n → ℝ) (M : Matrix (Fin n) (Fin n) ℝ)
    (f : (Fin n → ℝ) → α) : (N.mvn c n m M nrlzn).map f ≠ [] := by
  intro h0
  have := congrArg List.length h0
  rw [List.length_map, hN] at this
  cases this

/-- Monte-Carlo intervals can only fail by a covariance matrix that is not finite. -/
theorem monteCarlo1_or (N : Num) (hN : MvnOk N.mvn) (c : ℕ) (P : Option Fl) (Xu Yu g : ℝ)
    (H : Matrix (Fin 2) (Fin 2) ℂ) (vXu vYu : ℝ) :
    (∃ r, monteCarlo1 N c P Xu Yu g H vXu vYu = .ok r) ∨
    (P.isSome = true ∧ monteCarlo1 N c P Xu Yu g H vXu vYu = .error .linAlgError) := by
  have main : ∀ M, ∃ r, (do
      let s := (N.mvn c 2 ![Xu, Yu] M nrlzn).map fun r => cs2cep1 (r 0) (r 1)
      let gci ← angleCi g (s.map Ell.g)
      return (⟨.fin (madCi (s.map Ell.Lsmaj)), .fin 0, .fin 0, gci⟩ : Ci1) : Except PyErr Ci1) = .ok r := by
    intro M
    obtain ⟨y, hy⟩ := angleCi_total g (((N.mvn c 2 ![Xu, Yu] M nrlzn).map fun r => cs2cep1 (r 0) (r 1)).map Ell.g)
      (by rw [List.map_map]; exact mvn_map_ne N hN _ _ _ _ _)
    exact ⟨_, by dsimp only; rw [hy]; rfl⟩
  unfold monteCarlo1
  cases P with
  | none => left; exact main _
  | some p =>
    dsimp only
    unfold finMatrix
    split
    · left; exact main _
    · right; exact ⟨rfl, rfl⟩

theorem monteCarlo2_or (N : Num) (hN : MvnOk N.mvn) (c : ℕ) (P : Option (Fl × Fl × Fl)) (Xu Yu Xv Yv g theta : ℝ)
    (G H : Matrix (Fin 2) (Fin 2) ℂ) :
    (∃ r, monteCarlo2 N c P Xu Yu Xv Yv g theta G H = .ok r) ∨
    (P.isSome = true ∧ monteCarlo2 N c P Xu Yu Xv Yv g theta G H = .error .linAlgError) := by
  have main : ∀ M, ∃ r, (do
      let s := (N.mvn c 4 ![Xu, Yu, Xv, Yv] M nrlzn).map fun r => cs2cep2 (r 0) (r 1) (r 2) (r 3)
      let tci ← angleCi theta (s.map Ell.theta)
      let gci ← angleCi g (s.map Ell.g)
      return (⟨.fin (madCi (s.map Ell.Lsmaj)), .fin (madCi (s.map Ell.Lsmin)), tci, gci⟩ : Ci1) :
        Except PyErr Ci1) = .ok r := by
    intro M
    obtain ⟨x, hx⟩ := angleCi_total theta (((N.mvn c 4 ![Xu, Yu, Xv, Yv] M nrlzn).map fun r =>
      cs2cep2 (r 0) (r 1) (r 2) (r 3)).map Ell.theta) (by rw [List.map_map]; exact mvn_map_ne N hN _ _ _ _ _)
    obtain ⟨y, hy⟩ := angleCi_total g (((N.mvn c 4 ![Xu, Yu, Xv, Yv] M nrlzn).map fun r =>
      cs2cep2 (r 0) (r 1) (r 2) (r 3)).map Ell.g) (by rw [List.map_map]; exact mvn_map_ne N hN _ _ _ _ _)
    exact ⟨_, by dsimp only; rw [hx, ok_bind, hy]; rfl⟩
  unfold monteCarlo2
  cases P with
  | none => left; exact main _
  | some p =>
    dsimp only
    unfold finMatrix
    split
    · left; exact main _
    · right; exact ⟨rfl, rfl⟩

/-- Where linearised intervals are computed, Monte-Carlo ones are too, unless the rescaled covariance matrix is not
finite. -/
theorem ciOne_mc (N : Num) (hN : MvnOk N.mvn) (i : ConfIn) (pw : Option Power)
    (GH : Matrix (Fin i.nm) (Fin i.nm) ℂ × Matrix (Fin i.nm) (Fin i.nm) ℂ) (nc c : ℕ) (hl : i.linci = true)
    (hth : i.twodim = true → c < i.theta.length) (hp : ∀ p, pw = some p → p.Puv.length = p.Puu.length)
    (r : Ci1 × Vars) (h : ciOne N i pw GH nc c = .ok r) :
    (∃ r, ciOne N { i with linci := false } pw GH nc c = .ok r) ∨
    (pw.isSome = true ∧ ciOne N { i with linci := false } pw GH nc c = .error .linAlgError) := by
  unfold ciOne at h ⊢
  simp only [bind_eq_ok] at h
  obtain ⟨G, hG, H, hH, Xu, hXu, Yu, hYu, g, hg, pu, hpu, h⟩ := h
  simp only [hG, hH, hXu, hYu, hg, ok_bind]
  rw [hpu]
  simp only [ok_bind]
  by_cases htd : i.twodim = true
  · rw [if_pos htd] at h ⊢
    simp only [bind_eq_ok] at h
    obtain ⟨Xv, hXv, Yv, hYv, pv, hpv, -⟩ := h
    simp only [hXv, hYv, ok_bind]
    rw [hpv]
    simp only [ok_bind, Bool.false_eq_true, if_false]
    rw [getIdx_lt _ _ (hth htd), ok_bind]
    cases pw with
    | none =>
      simp only [Except.ok.injEq] at hpu hpv
      subst hpu hpv
      simp only [ok_bind]
      rcases monteCarlo2_or N hN c none Xu Yu Xv Yv g (i.theta[c]'(hth htd)) G H with ⟨q, hq⟩ | ⟨h0, -⟩
      · left; exact ⟨_, by rw [hq]; rfl⟩
      · cases h0
    | some p =>
      have hpu' : c < p.Puu.length := by
        by_contra hc
        simp only [getIdx, List.getElem?_eq_none (not_lt.1 hc)] at hpu
        cases hpu
      dsimp only
      rw [show getIdx p.Puv c = .ok _ from getIdx_lt _ _ (by rw [hp p rfl]; exact hpu')]
      simp only [Except.map, ok_bind]
      generalize p.Puv[c]'(by rw [hp p rfl]; exact hpu') = puv
      have key : ∀ ps, (∃ r, (monteCarlo2 N c ps Xu Yu Xv Yv g (i.theta[c]'(hth htd)) G H >>= fun r =>
          (pure (r, ⟨.nan, .nan, .nan, .nan⟩) : Except PyErr (Ci1 × Vars))) = .ok r) ∨
          ((some p).isSome = true ∧ (monteCarlo2 N c ps Xu Yu Xv Yv g (i.theta[c]'(hth htd)) G H >>= fun r =>
          (pure (r, ⟨.nan, .nan, .nan, .nan⟩) : Except PyErr (Ci1 × Vars))) = .error .linAlgError) := by
        intro ps
        rcases monteCarlo2_or N hN c ps Xu Yu Xv Yv g (i.theta[c]'(hth htd)) G H with ⟨q, hq⟩ | ⟨-, h1⟩
        · left; exact ⟨_, by rw [hq]; rfl⟩
        · right; exact ⟨rfl, by rw [h1]; rfl⟩
      exact key _
  · rw [if_neg htd] at h ⊢
    simp only [Bool.false_eq_true, if_false]
    rcases monteCarlo1_or N hN c pu Xu Yu g H (varXuOf G) (varYuOf H) with ⟨q, hq⟩ | ⟨h0, h1⟩
    · left; exact ⟨_, by rw [hq]; rfl⟩
    · right
      refine ⟨?_, by rw [h1]; rfl⟩
      cases pw with
      | none => cases hpu; cases h0
      | some p => rfl

theorem covariances_linci (N : Num) (i : ConfIn) (b : Bool) : covariances N { i with linci := b } = covariances N i := by
  obtain ⟨_, _, _, _, _, _, _, nm, B, x, xm, W, _, _, _, _, _, _, _⟩ := i
  unfold covariances
  dsimp only
  by_cases h : (x.length : ℝ) - nm = 0
  · rw [if_pos h, if_pos h]
  · rw [if_neg h, if_neg h]
    cases N.inv nm (gram true nm B W) <;> cases N.inv nm (gram false nm B W) <;> rfl

theorem mapM_or {α β : Type} (f : α → Except PyErr β) (e : PyErr) (l : List α)
    (h : ∀ a ∈ l, (∃ b, f a = .ok b) ∨ f a = .error e) : (∃ r, l.mapM f = .ok r) ∨ l.mapM f = .error e := by
  induction l with
  | nil => left; exact ⟨[], rfl⟩
  | cons a l ih =>
    rw [List.mapM_cons]
    rcases h a (by simp) with ⟨b, hb⟩ | hb
    · rw [hb, ok_bind]
      rcases ih fun x hx => h x (by simp [hx]) with ⟨r, hr⟩ | hr
      · left; exact ⟨b :: r, by rw [hr]; rfl⟩
      · right; rw [hr]; rfl
    · right; rw [hb]; rfl

/-- **C54.** If a call with linearised intervals and inference returns, the same call with Monte-Carlo intervals raises
NotImplementedError; with `white=False` numpy's LinAlgError may come first, when a rescaled covariance matrix is not
finite. -/
theorem C54_error (E : Env) (t : TimeArg) (u : Series) (v : Option Series) (lat : Option ℝ)
    (opts optsMC : Dict PyVal) (R : Ready E t u v) (hN : MvnOk E.num.mvn) (q : Opt)
    (ho : getOpt opts v.isSome = .ok q) (hl : q.linci = true) (hci : q.confInt = true) (hinf : q.infer ≠ .none)
    (hoMC : getOpt optsMC v.isSome = .ok { q with linci := false })
    (c : Coef) (h : solve E t u v lat opts = .ok c) :
    solve E t u v lat optsMC = .error .notImplementedError ∨
    (q.white = false ∧ solve E t u v lat optsMC = .error .linAlgError) := by
  obtain ⟨opt, p, tn, constit, m, W, rf, full, o, ind, F⟩ := solve_facts R h
  have hq : opt = q := Except.ok.inj (F.hopt.symm.trans ho)
  subst hq
  have hp := F.prep
  have hpo : p.opt = opt := hp.hopt
  rcases F.solved.ci with ⟨h4, -⟩ | ⟨-, ci, hc, -⟩
  · rw [hpo, hci] at h4; cases h4
  unfold confidence at hc
  simp only [bind_eq_ok, pure_eq_ok, Except.ok.injEq] at hc
  obtain ⟨pw, hpw, GH, hGH, rows, hrows, inf, -, -⟩ := hc
  have hml : m.length = numCols (!opt.notrend) p.sel := by rw [F.mlen, hp.nm]
  obtain ⟨a1, a2⟩ := apOf_length _ m hml
  obtain ⟨b1, b2⟩ := allAp_length hp.aligned _ m hml
  have hinf' : p.infer.isSome = true := by
    have := hp.hinfer
    unfold readInfer at this
    split at this
    · exact absurd (by assumption) hinf
    · simp only [bind_eq_ok, pure_eq_ok, Except.ok.injEq] at this
      obtain ⟨_, -, _, -, _, -, _, -, _, -, _, -, _, -, _, -, _, -, _, -, hs⟩ := this
      rw [← hs]; rfl
  have hwhite : pw.isSome = true → opt.white = false := by
    intro h0
    have e : (confIn p m W).white = opt.white := by show p.opt.white = _; rw [hpo]
    rw [e] at hpw
    cases hw : opt.white with
    | false => rfl
    | true => rw [hw, if_pos rfl] at hpw; cases hpw; cases h0
  have hpuv : ∀ x, pw = some x → x.Puv.length = x.Puu.length := by
    rintro x rfl
    split at hpw
    · cases hpw
    · cases hr : residualPower E.num (confIn p m W).ed (confIn p m W).e (confIn p m W).frq with
      | error e => rw [hr] at hpw; cases hpw
      | ok y =>
        rw [hr] at hpw
        cases hpw
        unfold residualPower at hr
        simp only [bind_eq_ok, pure_eq_ok, Except.ok.injEq] at hr
        obtain ⟨_, -, rfl⟩ := hr
        simp
  have hlin : (confIn p m W).linci = true := by show p.opt.linci = true; rw [hpo, hl]
  have hXl : (confIn p m W).Xu.length = p.sel.nNR + p.sel.nR := by simp [confIn, a1, a2]
  have hth : (confIn p m W).twodim = true → ∀ c < (confIn p m W).Xu.length, c < (confIn p m W).theta.length := by
    intro htd c hc
    have htd' : p.opt.twodim = true := htd
    have e : (confIn p m W).theta.length = p.sel.lind.length := by
      simp [confIn, ellOf, htd', EllArr.thetas, b1, b2]
    rw [e, hp.aligned.lind_eq]
    rw [hXl] at hc
    simp only [List.length_append, List.length_map, hp.aligned.nNR, hp.aligned.nR] at hc ⊢
    omega
  -- the same call with the other kind of interval
  have hsol : solve E t u v lat optsMC = stageSolution E { p with opt := { opt with linci := false } } := by
    unfold solve
    rw [hoMC, ok_bind]
    have : stagePrep E { opt with linci := false } t u v lat = .ok { p with opt := { opt with linci := false } } := by
      rw [stagePrep_ok]
      exact ⟨tn, constit, ⟨⟨hp.init.hlat, hp.init.shapes, hp.init.time, hp.init.edit⟩, hp.cons, hp.hinfer, hp.hsel, hp.check, rfl, hp.nm, hp.B⟩⟩
    rw [this, ok_bind]
  have hfit : stageFit E { p with opt := { opt with linci := false } } = .ok (m, W, rf) := by
    rw [← F.solved.fit, ← hpo]; rfl
  have hconf : confIn { p with opt := { opt with linci := false } } m W = { confIn p m W with linci := false } := by
    rw [← hpo]; rfl
  have hrun : ∀ e, confidence E.num { confIn p m W with linci := false } = .error e →
      solve E t u v lat optsMC = .error e := by
    intro e he
    rw [hsol]
    unfold stageSolution
    rw [hfit, ok_bind]
    dsimp only
    unfold stageConf
    dsimp only
    rw [if_pos hci, hconf, he]
    rfl
  have hrows' := mapM_or (ciOne E.num { confIn p m W with linci := false } pw GH (confIn p m W).Xu.length)
    .linAlgError (List.range (confIn p m W).Xu.length) (by
      intro c hc
      obtain ⟨r, -, hr⟩ := mapM_mem _ _ _ hrows c hc
      rcases ciOne_mc E.num hN _ pw GH _ c hlin (fun h => hth h c (List.mem_range.1 hc)) hpuv r hr with h | ⟨-, h⟩
      · exact .inl h
      · exact .inr h)
  have hcov : covariances E.num { confIn p m W with linci := false } = .ok GH := (covariances_linci _ _ _).trans hGH
  have hpw' : (if ({ confIn p m W with linci := false } : ConfIn).white = true then Except.ok none else
      (residualPower E.num ({ confIn p m W with linci := false } : ConfIn).ed
        ({ confIn p m W with linci := false } : ConfIn).e ({ confIn p m W with linci := false } : ConfIn).frq).map some) =
      .ok pw := hpw
  rcases hrows' with ⟨r, hr⟩ | hr
  · left
    apply hrun
    unfold confidence
    rw [hpw', ok_bind, hcov, ok_bind]
    erw [hr]
    rw [ok_bind]
    unfold inferCi
    dsimp only
    have : (confIn p m W).infer = true := hinf'
    rw [if_pos this]
    rfl
  · right
    refine ⟨?_, hrun _ ?_⟩
    · cases hpc : pw with
      | some x => exact hwhite (by rw [hpc]; rfl)
      | none =>
        exfalso
        obtain ⟨y, hy⟩ := mapM_total (ciOne E.num { confIn p m W with linci := false } pw GH (confIn p m W).Xu.length)
          (List.range (confIn p m W).Xu.length) (by
            intro c hc
            obtain ⟨r, -, hr⟩ := mapM_mem _ _ _ hrows c hc
            rcases ciOne_mc E.num hN _ pw GH _ c hlin (fun h => hth h c (List.mem_range.1 hc)) hpuv r hr with h | ⟨h, -⟩
            · exact h
            · rw [hpc] at h; cases h)
        rw [hr] at hy
        cases hy
    · unfold confidence
      rw [hpw', ok_bind, hcov, ok_bind]
      erw [hr]
      rfl

end

end UTide.Props
