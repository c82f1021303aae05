import Verif.Model.Output
import Verif.Props.OrderProps
import Verif.Props.CiProps
import Verif.Props.RelProps
import Verif.Props.RobustScale

/-!
# What is in the returned Bunches: C102
-/

namespace UTide.Props

noncomputable section

open Classical

/-! ## Specification -/

/-- The entries of a result of `solve` by what was asked for: a vector series, a trend, intervals, the robust method, the
default order by energy. -/
def documentedEntries (vector trend intervals robust energy : Bool) : List String :=
  ["name", "aux", "nR", "nNR", "nI", "weights"]
    ++ (if vector then ["Lsmaj", "Lsmin", "theta", "g", "umean", "vmean"] else ["A", "g", "mean"])
    ++ (if trend then (if vector then ["uslope", "vslope"] else ["slope"]) else [])
    ++ (if intervals then (if vector then ["Lsmaj_ci", "Lsmin_ci", "theta_ci", "g_ci"] else ["A_ci", "g_ci"]) ++ ["diagn", "SNR"]
        else [])
    ++ (if intervals || energy then ["PE"] else []) ++ (if robust then ["rf"] else [])

/-- The entries that are arrays over the constituents. -/
def constituentArrays : List String :=
  ["name", "A", "g", "Lsmaj", "Lsmin", "theta", "A_ci", "g_ci", "Lsmaj_ci", "Lsmin_ci", "theta_ci", "PE", "SNR"]

/-- The length of an array. -/
def lenOut : OutVal → Option ℕ
  | .names l => some l.length
  | .reals l => some l.length
  | .ints l => some l.length
  | .floats l => some l.length
  | .series l => some l.length
  | _ => none

/-- An entry of a result used as time argument. -/
def asTime : OutVal → Option TimeArg
  | .time t => some t
  | .floats l => some ⟨[l.length], .float l, []⟩
  | _ => none

/-! ## Lemmas -/

section

variable {E : Env} {t : TimeArg} {u : Series} {v : Option Series} {lat : Option ℝ} {opts : Dict PyVal} {c : Coef}

theorem readOrder_PE (x : PyVal) (o : Order) (h : readOrder x = .ok o) : o = .PE ↔ IsStr x "PE" := by
  unfold readOrder at h
  simp only [bind_eq_ok] at h
  obtain ⟨b1, h1, h⟩ := h
  rw [← eqStr_iff, h1]
  split at h
  · rename_i hb
    simp only [pure_eq_ok, Except.ok.injEq] at h
    simp [← h, hb]
  · rename_i hb
    simp only [hb, Except.ok.injEq, Bool.false_eq_true, iff_false]
    rintro rfl
    simp only [bind_eq_ok] at h
    obtain ⟨b2, h2, h⟩ := h
    split at h
    · simp [pure_eq_ok] at h
    · simp only [bind_eq_ok] at h
      obtain ⟨b3, h3, h⟩ := h
      split at h
      · simp [pure_eq_ok] at h
      · simp only [bind_eq_ok, pure_eq_ok] at h
        obtain ⟨l, -, h⟩ := h
        cases h

theorem order_energy (oc x : PyVal) (ci : Bool) (h : validateOrderConstit oc ci = .ok x) :
    IsStr x "PE" ↔ oc = .none ∨ IsStr oc "PE" := by
  unfold validateOrderConstit at h
  dsimp only at h
  split at h
  · cases Except.ok.inj h; simp [IsStr]
  · by_cases hc : ‹String› ∈ ["PE", "frequency"] ++ (if ci = true then ["SNR"] else [])
    · rw [if_pos hc] at h; cases Except.ok.inj h; simp [IsStr]
    · rw [if_neg hc] at h; cases h
  · cases Except.ok.inj h; simp [IsStr]
  · cases Except.ok.inj h; simp [IsStr]
  · cases h

theorem conf_none {x : PyVal} {a b : Bool} (h : ConfChoice x a b) : a = false ↔ IsStr x "none" := by
  cases h with
  | linear h1 =>
    rw [eqStr_iff] at h1
    simp only [Bool.true_eq_false, false_iff]
    rintro (rfl | rfl) <;> rcases h1 with h1 | h1 <;> simp at h1
  | mc _ h1 =>
    rw [eqStr_iff] at h1
    simp only [Bool.true_eq_false, false_iff]
    rintro (rfl | rfl) <;> rcases h1 with h1 | h1 <;> simp at h1
  | none _ _ h1 =>
    rw [eqStr_iff] at h1
    simpa using h1

/-- Which parts a result has. -/
structure Parts (vector trend intervals robust energy : Bool) (c : Coef) : Prop where
  ell : if vector then ∃ a b d e, c.ell = .two a b d e else ∃ a b, c.ell = .one a b
  mean : if vector then ∃ a b s, c.mean = .two a b s ∧ s.isSome = trend else ∃ a s, c.mean = .one a s ∧ s.isSome = trend
  ci : if intervals then (if vector then ∃ a b d e, c.ci = some (.two a b d e) else ∃ a b, c.ci = some (.one a b)) else c.ci = none
  diagn : c.diagn.isSome = intervals
  PE : c.PE.isSome = (intervals || energy)
  SNR : c.SNR.isSome = intervals
  rf : c.rf.isSome = robust

theorem parts_entries {vector trend intervals robust energy : Bool} (P : Parts vector trend intervals robust energy c) :
    (coefOut c).keys.Perm (documentedEntries vector trend intervals robust energy) := by
  obtain ⟨h1, h2, h3, h4, h5, h6, h7⟩ := P
  unfold coefOut Dict.keys
  have e4 : (diagnOut c.diagn).map Prod.fst = if intervals then ["diagn"] else [] := by
    subst h4; cases c.diagn <;> rfl
  have e5 : ∀ k : String, (entryOut k OutVal.floats c.PE).map Prod.fst = if (intervals || energy) then [k] else [] := by
    intro k; rw [← h5]; cases c.PE <;> rfl
  have e6 : ∀ k : String, (entryOut k OutVal.floats c.SNR).map Prod.fst = if intervals then [k] else [] := by
    intro k; rw [← h6]; cases c.SNR <;> rfl
  have e7 : ∀ k : String, (entryOut k OutVal.robust c.rf).map Prod.fst = if robust then [k] else [] := by
    intro k; rw [← h7]; cases c.rf <;> rfl
  have e1 : (ellOut c.ell).map Prod.fst = if vector then ["Lsmaj", "Lsmin", "theta", "g"] else ["A", "g"] := by
    cases vector
    · obtain ⟨a, b, h⟩ := h1; rw [h]; rfl
    · obtain ⟨a, b, d, e, h⟩ := h1; rw [h]; rfl
  have e2 : (meanOut c.mean).map Prod.fst = if vector then ["umean", "vmean"] ++ (if trend then ["uslope", "vslope"] else [])
      else ["mean"] ++ (if trend then ["slope"] else []) := by
    cases vector
    · obtain ⟨a, s, h, rfl⟩ := h2; rw [h]; cases s <;> rfl
    · obtain ⟨a, b, s, h, rfl⟩ := h2; rw [h]; cases s <;> rfl
  have e3 : (ciOut c.ci).map Prod.fst = if intervals then (if vector then ["g_ci", "Lsmaj_ci", "Lsmin_ci", "theta_ci"]
      else ["g_ci", "A_ci"]) else [] := by
    cases intervals
    · simp only [Bool.false_eq_true, if_false] at h3; rw [h3]; rfl
    · cases vector
      · obtain ⟨a, b, h⟩ := h3; rw [h]; rfl
      · obtain ⟨a, b, d, e, h⟩ := h3; rw [h]; rfl
  simp only [List.map_append, List.map_cons, List.map_nil, e1, e2, e3, e4, e5, e6, e7]
  cases vector <;> cases trend <;> cases intervals <;> cases robust <;> cases energy <;> decide

/-- What is known about the arrays of a result. -/
theorem result_parts (R : Ready E t u v) (hnd : opts.keys.Nodup) (h : solve E t u v lat opts = .ok c)
    (tr ci me oc : PyVal) (b : Bool) (htr : requested opts "trend" = some tr) (hb : tr.truthy = .ok b)
    (hci : requested opts "conf_int" = some ci) (hme : requested opts "method" = some me)
    (hoc : requested opts "order_constit" = some oc) :
    Parts v.isSome b (decide ¬ IsStr ci "none") (decide ¬ IsStr me "ols") (decide (oc = .none ∨ IsStr oc "PE")) c := by
  obtain ⟨opt, p, tn, constit, m, W, rf, full, o, ind, F⟩ := solve_facts R h
  have hq := getOpt_requests _ hnd _ _ F.hopt
  have hopt : p.opt = opt := F.prep.hopt
  have htd : p.opt.twodim = v.isSome := by rw [hopt]; exact hq.twodim
  have hno : opt.notrend = !b := by
    have := (hq.trend _ htr).symm.trans hb
    rw [← Except.ok.inj this]; simp
  have hcf := conf_none (hq.conf _ hci)
  have hcf' : opt.confInt = decide ¬ IsStr ci "none" := by
    by_cases hn : IsStr ci "none"
    · simp [hn, hcf.2 hn]
    · simp only [hn, not_false_eq_true, decide_true]
      cases hx : opt.confInt
      · exact absurd (hcf.1 hx) hn
      · rfl
  have hdg : p.opt.nodiagn = !decide ¬ IsStr ci "none" := by rw [hopt, hq.diagn, hcf']
  have hPE : o = .PE ↔ oc = .none ∨ IsStr oc "PE" := by
    rw [← order_energy _ _ _ (hq.order _ hoc), readOrder_PE _ _ F.solved.order, hopt]
  have hell : c.ell = full.ell.permute ind := by rw [F.solved.result]; rfl
  have hmean : c.mean = meanOf p.opt.twodim p.opt.notrend p.ed.lor p.nm m := by
    have h1 : c.mean = full.mean := by rw [F.solved.result]; rfl
    rw [h1]; exact F.solved.head.mean
  have hci' : c.ci = full.ci.map (CiArr.permute ind) := by rw [F.solved.result]; rfl
  have hdi : c.diagn = full.diagn := by rw [F.solved.result]; rfl
  have hpe : c.PE = full.PE.map (gather · ind) := by rw [F.solved.result]; rfl
  have hsn : c.SNR = full.SNR.map (gather · ind) := by rw [F.solved.result]; rfl
  have hrf : c.rf = rf := by
    have h1 : c.rf = full.rf := by rw [F.solved.result]; rfl
    rw [h1]; exact F.solved.head.rf
  generalize hI : decide (¬ IsStr ci "none") = intervals at hcf' hdg ⊢
  refine ⟨?_, ?_, ?_, ?_, ?_, ?_, ?_⟩
  · rw [hell, F.solved.ell, htd]
    cases v.isSome
    · exact ⟨_, _, rfl⟩
    · exact ⟨_, _, _, _, rfl⟩
  · rw [hmean, htd, hopt, hno]
    cases v.isSome
    · exact ⟨_, _, rfl, by cases b <;> rfl⟩
    · exact ⟨_, _, _, rfl, by cases b <;> rfl⟩
  · rw [hci']
    rcases F.solved.ci with ⟨h1, h2⟩ | ⟨h1, x, hx, h2⟩
    · rw [hopt, hcf'] at h1
      subst h1
      rw [h2]; rfl
    · rw [hopt, hcf'] at h1
      subst h1
      unfold confidence at hx
      simp only [bind_eq_ok, pure_eq_ok, Except.ok.injEq] at hx
      obtain ⟨pw, -, GH, -, rows, hrows, inf, hinf, rfl⟩ := hx
      have : (confIn p m W).twodim = v.isSome := htd
      rw [h2, this]
      cases v.isSome
      · exact ⟨_, _, rfl⟩
      · exact ⟨_, _, _, _, rfl⟩
  · rw [hdi]
    rcases F.solved.SNR with ⟨h1, -, h3⟩ | ⟨h1, s, -, -, h3⟩ <;> rw [h3] <;> rw [hdg] at h1 <;> cases intervals <;> simp at h1 ⊢
  · rw [hpe, F.solved.PE, hdg]
    by_cases hx : o = .PE
    · rw [if_neg (fun k => k.2 hx)]
      simp [hPE.1 hx]
    · have : ¬ (oc = .none ∨ IsStr oc "PE") := fun k => hx (hPE.2 k)
      cases intervals <;> simp [hx, this]
  · rw [hsn]
    rcases F.solved.SNR with ⟨h1, h2, -⟩ | ⟨h1, s, -, h2, -⟩ <;> rw [h2] <;> rw [hdg] at h1 <;> cases intervals <;> simp at h1 ⊢
  · rw [hrf]
    have hf := F.solved.fit
    unfold stageFit at hf
    rw [hopt] at hf
    by_cases ho : IsStr me "ols"
    · rw [hq.ols _ hme ((eqStr_iff _ _).2 ho)] at hf
      have := congrArg (fun x => x.2.2) (Except.ok.inj hf)
      simp only at this
      simp [← this, ho]
    · cases hmm : opt.method with
      | ols => exact absurd hmm (fun k => ho (by
          obtain ⟨-, c', oc', ci', me', tr', ph, no, inf, ray, rk, wh, ve, ep, h1, h2, h3, h4, h5, h6, h7, h8, h9, h10,
            h11, h12, h13, r1, r2, r3, r4, r5, r6, r7, r8, r9, r10, r11, r12, r13, r14, r15, r16⟩ := getOpt_ok opts hnd _ _ F.hopt
          rw [k] at r15
          rw [requested_eq, h4] at hme
          rw [← Option.some.inj hme]
          exact (eqStr_iff _ _).1 r15))
      | robust kw =>
        rw [hmm] at hf
        simp only [bind_eq_ok, pure_eq_ok, Except.ok.injEq] at hf
        obtain ⟨a, -, r, -, hf⟩ := hf
        have := congrArg (fun x => x.2.2) hf
        simp only at this
        simp [← this, ho]

/-! ## C102 -/

/-- **C102.** The entries of a result: they are the documented ones for what was asked, each once. -/
theorem C102_entries (R : Ready E t u v) (hnd : opts.keys.Nodup) (h : solve E t u v lat opts = .ok c)
    (tr ci me oc : PyVal) (b : Bool) (htr : requested opts "trend" = some tr) (hb : tr.truthy = .ok b)
    (hci : requested opts "conf_int" = some ci) (hme : requested opts "method" = some me)
    (hoc : requested opts "order_constit" = some oc) :
    (coefOut c).keys.Perm (documentedEntries v.isSome b (decide ¬ IsStr ci "none") (decide ¬ IsStr me "ols")
      (decide (oc = .none ∨ IsStr oc "PE"))) ∧ (coefOut c).keys.Nodup := by
  have hp := parts_entries (result_parts R hnd h tr ci me oc b htr hb hci hme hoc)
  refine ⟨hp, hp.nodup_iff.2 ?_⟩
  generalize v.isSome = a1
  generalize decide (¬ IsStr ci "none") = a2
  generalize decide (¬ IsStr me "ols") = a3
  generalize decide (oc = .none ∨ IsStr oc "PE") = a4
  cases a1 <;> cases a2 <;> cases a3 <;> cases a4 <;> cases b <;> decide

/-- **C102**: every array over the constituents has one entry per name, also after re-ordering. -/
theorem C102_arrays (R : Ready E t u v) (h : solve E t u v lat opts = .ok c) :
    (∀ k x, (k, x) ∈ coefOut c → k ∈ constituentArrays → lenOut x = some c.name.length) ∧
    c.frq.length = c.name.length ∧ c.lind.length = c.name.length := by
  obtain ⟨opt, p, tn, constit, m, W, rf, full, o, ind, F⟩ := solve_facts R h
  have hL := F.len.permute ind F.lt
  rw [← F.solved.result] at hL
  have hci : ∀ x, c.ci = some x → x.Len c.name.length := by
    intro x hx
    have hci' : c.ci = full.ci.map (CiArr.permute ind) := by rw [F.solved.result]; rfl
    rw [hci', Option.map_eq_some_iff] at hx
    obtain ⟨y, hy, rfl⟩ := hx
    have hl := F.solved.ciLen F.prep F.mlen y hy
    have hg : ∀ l : List Fl, l.length = p.sel.lind.length → (gather l ind).length = c.name.length := by
      intro l hl
      rw [hL.name, gather_length _ _ (by rw [hl]; exact F.lt)]
    cases y with
    | one A g => exact ⟨hg _ hl.1, hg _ hl.2⟩
    | two a b d e => exact ⟨hg _ hl.1, hg _ hl.2.1, hg _ hl.2.2.1, hg _ hl.2.2.2⟩
  have hPE : ∀ x, c.PE = some x → x.length = c.name.length := by
    intro x hx
    have : c.PE = full.PE.map (gather · ind) := by rw [F.solved.result]; rfl
    rw [this, Option.map_eq_some_iff] at hx
    obtain ⟨y, hy, rfl⟩ := hx
    rw [hL.name, gather_length _ _ (by rw [peLen F _ hy]; exact F.lt)]
  have hSNR : ∀ x, c.SNR = some x → x.length = c.name.length := by
    intro x hx
    have : c.SNR = full.SNR.map (gather · ind) := by rw [F.solved.result]; rfl
    rw [this, Option.map_eq_some_iff] at hx
    obtain ⟨y, hy, rfl⟩ := hx
    rw [hL.name, gather_length _ _ (by rw [F.solved.snrLen F.prep F.mlen y hy]; exact F.lt)]
  refine ⟨fun k x hk hc => ?_, by rw [hL.frq, hL.name], by rw [hL.lind, hL.name]⟩
  have hell := hL.ell
  rw [← hL.name] at hell
  unfold coefOut at hk
  simp only [List.mem_append, List.mem_cons, List.not_mem_nil, or_false] at hk
  rcases hk with (((((((hk | hk) | hk) | hk) | hk) | hk) | hk) | hk) | hk
  · rcases hk with hk | hk | hk | hk | hk <;> cases hk <;> first | rfl | simp [constituentArrays] at hc
  · cases hr : c.rf with
    | none => rw [hr] at hk; simp [entryOut] at hk
    | some r => rw [hr] at hk; simp [entryOut] at hk; obtain ⟨rfl, rfl⟩ := hk; simp [constituentArrays] at hc
  · cases hk; simp [constituentArrays] at hc
  · cases he : c.ell with
    | one A g =>
      rw [he] at hk hell
      simp [ellOut] at hk
      rcases hk with ⟨rfl, rfl⟩ | ⟨rfl, rfl⟩
      · exact congrArg some hell.1
      · exact congrArg some hell.2
    | two a b d e =>
      rw [he] at hk hell
      simp [ellOut] at hk
      rcases hk with ⟨rfl, rfl⟩ | ⟨rfl, rfl⟩ | ⟨rfl, rfl⟩ | ⟨rfl, rfl⟩
      · exact congrArg some hell.1
      · exact congrArg some hell.2.1
      · exact congrArg some hell.2.2.1
      · exact congrArg some hell.2.2.2
  · exfalso
    have : k ∈ ["mean", "slope", "umean", "vmean", "uslope", "vslope"] := by
      cases hm : c.mean with
      | one mn sl => rw [hm] at hk; cases sl <;> simp [meanOut] at hk <;> aesop
      | two a b sl => rw [hm] at hk; cases sl <;> simp [meanOut] at hk <;> aesop
    revert this hc
    simp only [constituentArrays, List.mem_cons, List.not_mem_nil, or_false]
    rintro (rfl | rfl | rfl | rfl | rfl | rfl | rfl | rfl | rfl | rfl | rfl | rfl | rfl) <;> simp
  · cases he : c.ci with
    | none => rw [he] at hk; simp [ciOut] at hk
    | some ci =>
      have hl := hci ci he
      cases ci with
      | one A g =>
        rw [he] at hk
        simp [ciOut] at hk
        rcases hk with ⟨rfl, rfl⟩ | ⟨rfl, rfl⟩
        · exact congrArg some hl.2
        · exact congrArg some hl.1
      | two a b d e =>
        rw [he] at hk
        simp [ciOut] at hk
        rcases hk with ⟨rfl, rfl⟩ | ⟨rfl, rfl⟩ | ⟨rfl, rfl⟩ | ⟨rfl, rfl⟩
        · exact congrArg some hl.2.2.2
        · exact congrArg some hl.1
        · exact congrArg some hl.2.1
        · exact congrArg some hl.2.2.1
  · cases hd : c.diagn with
    | none => rw [hd] at hk; simp [diagnOut] at hk
    | some d => rw [hd] at hk; simp [diagnOut] at hk; obtain ⟨rfl, rfl⟩ := hk; simp [constituentArrays] at hc
  · cases hd : c.PE with
    | none => rw [hd] at hk; simp [entryOut] at hk
    | some d =>
      rw [hd] at hk; simp [entryOut] at hk; obtain ⟨rfl, rfl⟩ := hk
      exact congrArg some (hPE d hd)
  · cases hd : c.SNR with
    | none => rw [hd] at hk; simp [entryOut] at hk
    | some d =>
      rw [hd] at hk; simp [entryOut] at hk; obtain ⟨rfl, rfl⟩ := hk
      exact congrArg some (hSNR d hd)

/-- **C102**: under each name of a result stands what belongs to it; `aux` holds frequencies, table positions, reference
time, latitude and options. -/
theorem C102_values (c : Coef) :
    ((coefOut c).get? "name" = some (.names c.name) ∧ (coefOut c).get? "weights" = some (.reals c.weights) ∧
      (coefOut c).get? "nR" = some (.count c.nR) ∧ (coefOut c).get? "nNR" = some (.count c.nNR) ∧
      (coefOut c).get? "nI" = some (.count c.nI)) ∧
    (∃ d : Dict OutVal, (coefOut c).get? "aux" = some (.dict d) ∧ d.keys.Perm ["frq", "lind", "reftime", "lat", "opt"] ∧
      d.get? "frq" = some (.reals c.frq) ∧ d.get? "lind" = some (.ints c.lind) ∧ d.get? "reftime" = some (.num c.reftime) ∧
      d.get? "lat" = some (.num c.lat) ∧ d.get? "opt" = some (.opt c.opt)) ∧
    (∀ A g, c.ell = .one A g → (coefOut c).get? "A" = some (.reals A) ∧ (coefOut c).get? "g" = some (.reals g)) ∧
    (∀ a b th g, c.ell = .two a b th g → (coefOut c).get? "Lsmaj" = some (.reals a) ∧
      (coefOut c).get? "Lsmin" = some (.reals b) ∧ (coefOut c).get? "theta" = some (.reals th) ∧
      (coefOut c).get? "g" = some (.reals g)) ∧
    (∀ x s, c.mean = .one x s → (coefOut c).get? "mean" = some (.num x) ∧ (coefOut c).get? "slope" = s.map .num) ∧
    (∀ x y s, c.mean = .two x y s → (coefOut c).get? "umean" = some (.num x) ∧ (coefOut c).get? "vmean" = some (.num y) ∧
      (coefOut c).get? "uslope" = s.map (fun s => .num s.1) ∧ (coefOut c).get? "vslope" = s.map (fun s => .num s.2)) ∧
    (∀ A g, c.ci = some (.one A g) → (coefOut c).get? "A_ci" = some (.floats A) ∧ (coefOut c).get? "g_ci" = some (.floats g)) ∧
    (∀ a b th g, c.ci = some (.two a b th g) → (coefOut c).get? "Lsmaj_ci" = some (.floats a) ∧
      (coefOut c).get? "Lsmin_ci" = some (.floats b) ∧ (coefOut c).get? "theta_ci" = some (.floats th) ∧
      (coefOut c).get? "g_ci" = some (.floats g)) ∧
    (∀ d, c.diagn = some d → ∃ e : Dict OutVal, (coefOut c).get? "diagn" = some (.dict e) ∧
      e.get? "name" = some (.names d.name) ∧ e.get? "PE" = some (.floats d.PE) ∧ e.get? "SNR" = some (.floats d.SNR)) ∧
    (coefOut c).get? "PE" = c.PE.map .floats ∧ (coefOut c).get? "SNR" = c.SNR.map .floats ∧
    (coefOut c).get? "rf" = c.rf.map .robust := by
  have e1 : ∀ k, k ∉ ["Lsmaj", "Lsmin", "theta", "A", "g"] → Dict.get? (ellOut c.ell) k = none := by
    intro k hk
    cases c.ell <;> simp_all [ellOut, Dict.get?_cons, Dict.get?, eq_comm]
  have e2 : ∀ k, k ∉ ["mean", "slope", "umean", "vmean", "uslope", "vslope"] → Dict.get? (meanOut c.mean) k = none := by
    intro k hk
    rcases c.mean with ⟨x, _ | s⟩ | ⟨x, y, _ | s⟩ <;> simp_all [meanOut, Dict.get?_cons, Dict.get?, eq_comm]
  have e3 : ∀ k, k ∉ ["g_ci", "A_ci", "Lsmaj_ci", "Lsmin_ci", "theta_ci"] → Dict.get? (ciOut c.ci) k = none := by
    intro k hk
    rcases c.ci with _ | (_ | _) <;> simp_all [ciOut, Dict.get?_cons, Dict.get?, eq_comm]
  have e4 : ∀ k, k ≠ "diagn" → Dict.get? (diagnOut c.diagn) k = none := by
    intro k hk
    cases c.diagn <;> simp_all [diagnOut, Dict.get?_cons, Dict.get?, eq_comm]
  have e5 : ∀ (k j : String) (x : Option (List Fl)), Dict.get? (entryOut j OutVal.floats x) k =
      if k = j then x.map .floats else none := by
    intro k j x
    cases x <;> simp [entryOut, Dict.get?_cons, Dict.get?, eq_comm]
  have e6 : ∀ (k j : String) (x : Option RobOut), Dict.get? (entryOut j OutVal.robust x) k =
      if k = j then x.map .robust else none := by
    intro k j x
    cases x <;> simp [entryOut, Dict.get?_cons, Dict.get?, eq_comm]
  refine ⟨?_, ⟨auxOut c, rfl, ?_, rfl, rfl, rfl, rfl, rfl⟩, fun A g h => ?_, fun a b th g h => ?_,
    fun x s h => ?_, fun x y s h => ?_, fun A g h => ?_, fun a b th g h => ?_, fun d h => ?_, ?_, ?_, ?_⟩
  · simp [coefOut, Dict.get?_append, Dict.get?_cons, Dict.get?, e5, e6]
  · show ["frq", "lind", "reftime", "opt", "lat"].Perm _
    decide
  · simp [coefOut, Dict.get?_append, Dict.get?_cons, Dict.get?, e5, e6, h, ellOut]
  · simp [coefOut, Dict.get?_append, Dict.get?_cons, Dict.get?, e5, e6, h, ellOut]
  · cases s <;> simp [coefOut, Dict.get?_append, Dict.get?_cons, Dict.get?, e1, e3, e4, e5, e6, h, meanOut]
  · cases s <;> simp [coefOut, Dict.get?_append, Dict.get?_cons, Dict.get?, e1, e3, e4, e5, e6, h, meanOut]
  · simp [coefOut, Dict.get?_append, Dict.get?_cons, Dict.get?, e1, e2, e5, e6, h, ciOut]
  · simp [coefOut, Dict.get?_append, Dict.get?_cons, Dict.get?, e1, e2, e5, e6, h, ciOut]
  · exact ⟨_, by simp [coefOut, Dict.get?_append, Dict.get?_cons, Dict.get?, e1, e2, e3, e5, e6, h, diagnOut]; rfl,
      rfl, rfl, rfl⟩
  · simp [coefOut, Dict.get?_append, Dict.get?_cons, Dict.get?, e1, e2, e3, e4, e5, e6]
  · simp [coefOut, Dict.get?_append, Dict.get?_cons, Dict.get?, e1, e2, e3, e4, e5, e6]
  · simp [coefOut, Dict.get?_append, Dict.get?_cons, Dict.get?, e1, e2, e3, e4, e5, e6]

end

/-! ### `reconstruct` -/

section

variable {E : Env} {t : TimeArg} {c : Coef} {a : RecArgs}

theorem normalizeTime_eqStr {dt64 : String → Option ℤ} {t : TimeArr} {e : PyVal} {tn : List Fl}
    (h : normalizeTime dt64 t e = .ok tn) : ∃ b, e.eqStr "python" = .ok b := by
  unfold normalizeTime at h
  split at h
  · exact ⟨false, rfl⟩
  · split at h
    · cases h
    · simp only [bind_eq_ok] at h
      obtain ⟨f, hf, -⟩ := h
      unfold epochShift at hf
      simp only [bind_eq_ok] at hf
      obtain ⟨b, hb, -⟩ := hf
      exact ⟨b, hb⟩

/-- The Bunch of a successful call. -/
theorem reconstructOut_ok (out : Dict OutVal) : reconstructOut E t c a = .ok out ↔ (atleast1d t).length = 1 ∧
    ∃ tn b r, normalizeTime E.dt64 t.arr a.epoch = .ok tn ∧ a.epoch.eqStr "python" = .ok b ∧ reconstruct E t.arr c a = .ok r ∧
      out = [("t_in", .time t), ("epoch", .py a.epoch), ("constit", .constit a.constit), ("min_SNR", .num a.minSNR),
        ("min_PE", .num a.minPE), ("t_mpl", if b then .time t else .floats tn)] ++ seriesOut c.opt.twodim r := by
  unfold reconstructOut
  simp only [bind_eq_ok, pure_eq_ok, Except.ok.injEq, raiseIf]
  constructor
  · rintro ⟨_, h1, tn, h2, b, h3, r, h4, rfl⟩
    refine ⟨?_, tn, b, r, h2, h3, h4, ?_⟩
    · by_contra hc
      rw [if_pos (by simpa using hc)] at h1
      cases h1
    · cases c.opt.twodim <;> simp [seriesOut, Dict.set]
  · rintro ⟨h1, tn, b, r, h2, h3, h4, rfl⟩
    refine ⟨(), by rw [if_neg (by simpa using h1)], tn, h2, b, h3, r, h4, ?_⟩
    cases c.opt.twodim <;> simp [seriesOut, Dict.set]

/-- **C102** for `reconstruct`: the arguments come back as `t_in`, `epoch`, `constit`, `min_SNR`, `min_PE`; `t_mpl` is
`t_in` with the epoch 'python' and the times as day numbers otherwise; the tide is `h`, or `u` and `v`, one value for each
time; there is nothing else. -/
theorem C102_reconstruct (out : Dict OutVal) (h : reconstructOut E t c a = .ok out) :
    out.keys = ["t_in", "epoch", "constit", "min_SNR", "min_PE", "t_mpl"] ++ (if c.opt.twodim then ["u", "v"] else ["h"]) ∧
    out.get? "t_in" = some (.time t) ∧ out.get? "epoch" = some (.py a.epoch) ∧ out.get? "constit" = some (.constit a.constit) ∧
    out.get? "min_SNR" = some (.num a.minSNR) ∧ out.get? "min_PE" = some (.num a.minPE) ∧
    (∃ tn, normalizeTime E.dt64 t.arr a.epoch = .ok tn ∧
      (IsStr a.epoch "python" → out.get? "t_mpl" = out.get? "t_in") ∧
      (¬ IsStr a.epoch "python" → out.get? "t_mpl" = some (.floats tn))) ∧
    ∃ r, reconstruct E t.arr c a = .ok r ∧ r.length = t.arr.length ∧
      if c.opt.twodim then out.get? "u" = some (.series (r.map (Option.map Complex.re))) ∧
        out.get? "v" = some (.series (r.map (Option.map Complex.im)))
      else out.get? "h" = some (.series (r.map (Option.map Complex.re))) := by
  obtain ⟨-, tn, b, r, h2, h3, h4, rfl⟩ := (reconstructOut_ok out).1 h
  refine ⟨?_, rfl, rfl, rfl, rfl, rfl, ⟨tn, h2, ?_, ?_⟩, r, h4, (C31_shape _ _ _ _ _ h4).1, ?_⟩
  · cases c.opt.twodim <;> rfl
  · intro hp
    rw [← eqStr_iff, h3, Except.ok.injEq] at hp
    subst hp
    rfl
  · intro hp
    rw [← eqStr_iff, h3, Except.ok.injEq, Bool.not_eq_true] at hp
    subst hp
    rfl
  · cases c.opt.twodim
    · rfl
    · exact ⟨rfl, rfl⟩

/-- **C102**: `reconstruct` returns whenever the series can be computed and the times are an array with one axis or a
single time; more axes raise ValueError. -/
theorem C102_axes : (2 ≤ t.shape.length → reconstructOut E t c a = .error .valueError) ∧
    (t.shape.length ≤ 1 → ((∃ out, reconstructOut E t c a = .ok out) ↔ ∃ r, reconstruct E t.arr c a = .ok r)) := by
  constructor
  · intro h
    have h1 : ((atleast1d t).length != 1) = true := by
      unfold atleast1d
      rw [if_neg (by intro k; simp [k] at h)]
      simp; omega
    unfold reconstructOut
    simp only [raiseIf, h1, if_true]
    rfl
  · intro h
    have h1 : (atleast1d t).length = 1 := by
      unfold atleast1d
      split
      · rfl
      · rename_i hs
        have := List.length_pos_iff.2 hs
        omega
    constructor
    · rintro ⟨out, ho⟩
      obtain ⟨-, tn, b, r, -, -, h4, -⟩ := (reconstructOut_ok out).1 ho
      exact ⟨r, h4⟩
    · rintro ⟨r, hr⟩
      obtain ⟨tn, ind, h2, -⟩ := (reconstruct_ok _ _ _ _ _).1 hr
      obtain ⟨b, hb⟩ := normalizeTime_eqStr h2
      exact ⟨_, (reconstructOut_ok _).2 ⟨h1, tn, b, r, h2, hb, hr, rfl⟩⟩

/-- **C102**: `t_mpl` of a result, given as times with the epoch 'python', gives the same tide again. -/
theorem C102_again (out : Dict OutVal) (h : reconstructOut E t c a = .ok out) :
    ∃ x t' out', out.get? "t_mpl" = some x ∧ asTime x = some t' ∧
      reconstructOut E t' c { a with epoch := .str "python" } = .ok out' ∧
      ∀ k ∈ ["h", "u", "v", "constit", "min_SNR", "min_PE"], out'.get? k = out.get? k := by
  obtain ⟨h1, tn, b, r, h2, h3, h4, rfl⟩ := (reconstructOut_ok out).1 h
  obtain ⟨tn', ind, g1, g2, g3, g4⟩ := (reconstruct_ok _ _ _ _ _).1 h4
  cases Except.ok.inj (g1.symm.trans h2)
  have key : ∀ t' : TimeArg, (atleast1d t').length = 1 → normalizeTime E.dt64 t'.arr (.str "python") = .ok tn →
      ∃ out', reconstructOut E t' c { a with epoch := .str "python" } = .ok out' ∧
        ∀ k ∈ ["h", "u", "v", "constit", "min_SNR", "min_PE"], out'.get? k = ([("t_in", .time t), ("epoch", .py a.epoch),
          ("constit", .constit a.constit), ("min_SNR", .num a.minSNR),
        ("min_PE", .num a.minPE), ("t_mpl", if b then .time t else .floats tn)] ++ seriesOut c.opt.twodim r : Dict OutVal).get? k := by
    intro t' e1 e2
    refine ⟨_, (reconstructOut_ok _).2 ⟨e1, tn, true, r, e2, rfl, (reconstruct_ok _ _ _ _ _).2 ⟨tn, ind, e2, g2, g3, g4⟩, rfl⟩, ?_⟩
    intro k hk
    simp only [List.mem_cons, List.not_mem_nil, or_false] at hk
    rcases hk with rfl | rfl | rfl | rfl | rfl | rfl <;> cases c.opt.twodim <;> rfl
  cases b with
  | true =>
    have hp := (eqStr_iff _ _).1 h3
    have e2 : normalizeTime E.dt64 t.arr (.str "python") = .ok tn := by
      rcases hp with hp | hp
      · rw [← hp]; exact h2
      · rw [hp] at h2; exact h2
    obtain ⟨out', o1, o2⟩ := key t h1 e2
    exact ⟨_, t, out', rfl, rfl, o1, o2⟩
  | false =>
    have e2 : normalizeTime E.dt64 (TimeArr.float tn) (.str "python") = .ok tn := by
      show (Except.ok (tn.map id) : Except PyErr (List Fl)) = _
      rw [List.map_id]
    obtain ⟨out', o1, o2⟩ := key ⟨[tn.length], .float tn, []⟩ (by simp [atleast1d]) e2
    exact ⟨_, _, out', rfl, rfl, o1, o2⟩

end

end

end UTide.Props
