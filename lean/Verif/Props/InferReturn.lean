import Verif.Props.ReturnProps
import Verif.Props.NodalProps
import Verif.Props.FitProps
import Verif.Lemmas.TotalInfer

/-!
# C116: which sound calls with inference return
-/

namespace UTide.Props

open UTide Dict

noncomputable section

/-! ## Specification -/

/-- The caller passes a complete inference specification: `inferred` from `reference`, one ratio and one offset for
each (two for currents), as a Bunch. -/
structure AsksInference (opts : Dict PyVal) (is2D : Bool) (inferred reference : List String) (ratios offsets : List ℚ)
    (approximate : Bool) : Prop where
  asked : ∃ kv ki kr ka kp, requested opts "infer" = some (.dict true kv) ∧
    get? kv "inferred_names" = some (.seq ki (inferred.map .str)) ∧
    get? kv "reference_names" = some (.seq kr (reference.map .str)) ∧
    get? kv "amp_ratios" = some (.seq ka (ratios.map .num)) ∧
    get? kv "phase_offsets" = some (.seq kp (offsets.map .num)) ∧
    (get? kv "approximate" = some (.bool approximate) ∨ (get? kv "approximate" = none ∧ approximate = false))
  known : ∀ n ∈ inferred ++ reference, n ∈ constitNames
  references : reference.length = inferred.length
  ratios : ratios.length = (if is2D then 2 else 1) * inferred.length
  offsets : offsets.length = (if is2D then 2 else 1) * inferred.length

/-- `listed` are the constituents asked for: those of a list or tuple of known names, or with `'auto'` those whose
separation from their comparison constituent is at least `Rayleigh_min / (24 L)`, `L` the length of the record. -/
def AskedFor (E : Env) (t : TimeArg) (u : Series) (v : Option Series) (opts : Dict PyVal) (listed : List String) : Prop :=
  (∃ k, k ≠ SeqKind.ndarray ∧ listed ≠ [] ∧ requested opts "constit" = some (.seq k (listed.map .str)) ∧
    ∀ n ∈ listed, n ∈ constitNames) ∨
  (∃ (r : ℚ) (L : ℝ), requested opts "constit" = some (.str "auto") ∧ requested opts "Rayleigh_min" = some (.num r) ∧
    RecordLength E t u v opts L ∧ L ≠ 0 ∧
    ∀ n, n ∈ listed ↔ ∃ con ∈ catalogue, con.name = n ∧ r / (24 * L) ≤ con.df.toReal)

theorem AskedFor.known {E : Env} {t : TimeArg} {u : Series} {v : Option Series} {opts : Dict PyVal}
    {listed : List String} (h : AskedFor E t u v opts listed) : ∀ n ∈ listed, n ∈ constitNames := by
  rcases h with ⟨_, _, _, _, h⟩ | ⟨r, L, _, _, _, _, h⟩
  · exact h
  · intro n hn
    obtain ⟨con, hcon, rfl, -⟩ := (h n).1 hn
    exact List.mem_map_of_mem hcon

/-- A call of `solve` by ordinary least squares without confidence intervals, with inference, with all arguments as
documented; `listed` are the constituents asked for. -/
structure SoundInference (E : Env) (t : TimeArg) (u : Series) (v : Option Series) (la : ℝ) (opts : Dict PyVal)
    (listed inferred reference : List String) (ratios offsets : List ℚ) (approximate : Bool) : Prop where
  options : DocumentedRest opts
  infer : AsksInference opts v.isSome inferred reference ratios offsets approximate
  ols : requested opts "method" = some (.str "ols")
  noConf : requested opts "conf_int" = some (.str "none")
  order : requested opts "order_constit" = some .none ∨ requested opts "order_constit" = some (.str "PE") ∨
    requested opts "order_constit" = some (.str "frequency")
  constit : AskedFor E t u v opts listed
  shapes : GoodShapes t u v
  ht : t.WF
  hu : u.WF
  hv : ∀ w, v = some w → w.WF
  times : ∃ ep tn, requested opts "epoch" = some ep ∧ normalizeTime E.dt64 t.arr ep = .ok tn ∧
    usable tn u.data (v.map Series.data) ≠ []
  latitude : (-90 ≤ la ∧ la ≤ 90 ∧ la ≠ 0) ∨ requested opts "nodal" = some (.bool false)
  length : requested opts "trend" = some (.bool true) → ∀ L, RecordLength E t u v opts L → L ≠ 0

/-- Neither nodal corrections nor Greenwich phases are asked for. -/
def RawPhases (opts : Dict PyVal) : Prop :=
  requested opts "nodal" = some (.bool false) ∧ requested opts "phase" = some (.str "raw")

/-- Full statement of C116 (false of the code, see `C116_false`). -/
def C116_full : Prop := ∀ (E : Env) (t : TimeArg) (u : Series) (v : Option Series) (la : ℝ) (opts : Dict PyVal)
    (listed inferred reference : List String) (ratios offsets : List ℚ) (approximate : Bool),
    SoundInference E t u v la opts listed inferred reference ratios offsets approximate →
      ∃ c, solve E t u v (some la) opts = .ok c

/-! ## Reading the specification -/

theorem iterNames_strs (k : SeqKind) (l : List String) : (PyVal.seq k (l.map .str)).iterNames = .ok l := by
  unfold PyVal.iterNames
  induction l with
  | nil => rfl
  | cons a l ih =>
    simp only at ih
    simp only [List.map_cons, List.mapM_cons, ih, ok_bind]; rfl

theorem iterNums_nums (k : SeqKind) (l : List ℚ) : (PyVal.seq k (l.map .num)).iterNums = .ok l := by
  unfold PyVal.iterNums
  induction l with
  | nil => rfl
  | cons a l ih =>
    simp only at ih
    simp only [List.map_cons, List.mapM_cons, ih, ok_bind]; rfl

theorem AsksInference.reads {opts : Dict PyVal} {is2D : Bool} {inferred reference : List String} {ratios offsets : List ℚ}
    {approximate : Bool} (I : AsksInference opts is2D inferred reference ratios offsets approximate) :
    ∃ i i', requested opts "infer" = some i ∧ validateInfer i is2D = .ok i' ∧
      readInfer i' = .ok (some ⟨inferred, reference, ratios, offsets, approximate⟩) := by
  obtain ⟨kv, ki, kr, ka, kp, h0, h1, h2, h3, h4, h5⟩ := I.asked
  have hseq : ∀ k ∈ requiredKeys, ∃ kd xs, get? kv k = some (.seq kd xs) := by
    intro k hk
    simp only [requiredKeys, List.mem_cons, List.not_mem_nil, or_false] at hk
    rcases hk with rfl | rfl | rfl | rfl
    exacts [⟨_, _, h1⟩, ⟨_, _, h2⟩, ⟨_, _, h3⟩, ⟨_, _, h4⟩]
  have hval := (C14_validation_partial kv is2D hseq).1 ⟨ki, kr, ka, kp, _, _, _, _, h1, h2, h3, h4,
    by simpa using I.references, by simpa using I.ratios, by simpa using I.offsets⟩
  refine ⟨_, _, h0, hval, ?_⟩
  generalize hkv : (if "approximate" ∈ Dict.keys kv then kv else Dict.set kv "approximate" (.bool false)) = kv'
  have hget : ∀ k, k ≠ "approximate" → get? kv' k = get? kv k := by
    intro k hk
    subst hkv
    split
    · rfl
    · rw [get?_set, if_neg (Ne.symm hk)]
  have hap : get? kv' "approximate" = some (.bool approximate) := by
    subst hkv
    rcases h5 with h | ⟨h, rfl⟩
    · rw [if_pos (by rw [← get?_isSome_iff, h]; rfl)]; exact h
    · rw [if_neg (by rw [← get?_isSome_iff, h]; simp), get?_set, if_pos rfl]
  have hat : ∀ k x, k ≠ "t_mpl" → k ∉ Bunch.classAttrs → get? kv' k = some x → (PyVal.dict true kv').attr k = .ok x := by
    intro k x ha hb hx
    rw [attr_bunch _ _ ha hb, optAttr, hx]
  have e1 := hat "inferred_names" _ (by decide) (by decide) ((hget _ (by decide)).trans h1)
  have e2 := hat "reference_names" _ (by decide) (by decide) ((hget _ (by decide)).trans h2)
  have e3 := hat "amp_ratios" _ (by decide) (by decide) ((hget _ (by decide)).trans h3)
  have e4 := hat "phase_offsets" _ (by decide) (by decide) ((hget _ (by decide)).trans h4)
  have e5 := hat "approximate" _ (by decide) (by decide) hap
  show (do
    let inferred ← (← (PyVal.dict true kv').attr "inferred_names").iterNames
    let reference ← (← (PyVal.dict true kv').attr "reference_names").iterNames
    let amp ← (← (PyVal.dict true kv').attr "amp_ratios").iterNums
    let phase ← (← (PyVal.dict true kv').attr "phase_offsets").iterNums
    let approximate ← (← (PyVal.dict true kv').attr "approximate").truthy
    return some (⟨inferred, reference, amp, phase, approximate⟩ : InferSpec) : Except PyErr (Option InferSpec)) = _
  simp only [e1, e2, e3, e4, e5, ok_bind, iterNames_strs, iterNums_nums]
  rfl

/-! ## The stages of such a call -/

/-- The selection starts from the constituents asked for. -/
theorem asked_selected {E : Env} {t : TimeArg} {u : Series} {v : Option Series} {opts : Dict PyVal} {listed : List String}
    {q : Opt} {L : ℝ} (hr : Requests opts v.isSome q) (h : AskedFor E t u v opts listed)
    (hL : RecordLength E t u v opts L) :
    ∃ con l, readConstit q.cnstit = .ok con ∧ startLind ((Fl.fin (q.rmin : ℝ)).div (.fin (24 * L))) con = .ok l ∧
      ∀ i, i ∈ l ↔ ∃ n ∈ listed, constitIndex n = .ok i := by
  rcases h with ⟨k, h1, h2, h3, h4⟩ | ⟨r, L', h1, h2, h3, h4, h5⟩
  · obtain ⟨l, hl⟩ := mapM_total constitIndex listed (fun n hn => constitIndex_total n (h4 n hn))
    refine ⟨.names listed, l, by rw [hr.constit _ h3]; exact readConstit_list k h1 listed, hl, fun i => ?_⟩
    constructor
    · exact fun hi => mapM_mem' _ _ _ hl i hi
    · rintro ⟨n, hn, hi⟩
      obtain ⟨j, hj, hj'⟩ := mapM_mem _ _ _ hl n hn
      rw [hi] at hj'
      rwa [Except.ok.inj hj']
  · obtain rfl := h3.unique hL
    refine ⟨.auto, _, by rw [hr.constit _ h1]; rfl, rfl, fun i => ?_⟩
    rw [fl_div_pos _ _ (by simpa using h4), hr.rmin r h2, mem_autoLind]
    constructor
    · rintro ⟨con, hcon, hle⟩
      refine ⟨con.name, (h5 _).2 ⟨con, List.mem_of_getElem? hcon, rfl, hle⟩, ?_⟩
      rw [constitIndex_ok]
      unfold constitNames
      rw [List.getElem?_map, hcon]; rfl
    · rintro ⟨n, hn, hi⟩
      obtain ⟨con, hcon, rfl, hle⟩ := (h5 n).1 hn
      obtain ⟨j, hj⟩ := List.mem_iff_getElem?.1 hcon
      have hj' : constitIndex con.name = .ok j := by
        rw [constitIndex_ok]
        unfold constitNames
        rw [List.getElem?_map, hj]; rfl
      rw [hi] at hj'
      obtain rfl := Except.ok.inj hj'
      exact ⟨con, hj, hle⟩

/-- What a sound call has when it starts building the matrix. -/
theorem SoundInference.stages {E : Env} {t : TimeArg} {u : Series} {v : Option Series} {la : ℝ} {opts : Dict PyVal}
    {listed inferred reference : List String} {ratios offsets : List ℚ} {approximate : Bool}
    (S : SoundInference E t u v la opts listed inferred reference ratios offsets approximate) :
    ∃ (q : Opt) (tn : List Fl) (ed : Edited) (sel : Sel) (l ri : List ℕ) (con : Constit), getOpt opts v.isSome = .ok q ∧ q.method = .ols ∧ q.confInt = false ∧ q.nodiagn = true ∧
      (∃ o, readOrder q.ordercnstit = .ok o ∧ (o = .PE ∨ o = .frequency)) ∧
      InitOk E q t u v (some la) tn ed la ∧ readConstit q.cnstit = .ok con ∧
      readInfer q.infer = .ok (some ⟨inferred, reference, ratios, offsets, approximate⟩) ∧
      cnstitsel ed.tref ((Fl.fin (q.rmin : ℝ)).div (.fin (24 * ed.lor))) con
        (some ⟨inferred, reference, ratios, offsets, approximate⟩) = .ok sel ∧
      (∀ i : ℕ, i ∈ (l : List ℕ) ↔ ∃ n ∈ listed, constitIndex n = .ok i) ∧ (inferred ++ reference).mapM constitIndex = .ok ri ∧
      sel.nrLind = (l.filter fun i => decide (i ∉ ri)) ∧
      (∀ r ∈ sel.refs, r.name ∈ reference ∧ constitIndex r.name = .ok r.lind ∧
        r.inf.length = (refPositions reference r.name).length) ∧
      (∀ n ∈ reference, ∃ r ∈ sel.refs, r.name = n) ∧
      (∀ k, nodalSingular q.flags la k = false) ∧ (!q.notrend && decide (ed.lor = 0)) = false := by
  obtain ⟨i, i', hi, hv, hrd⟩ := S.infer.reads
  obtain ⟨q, hq⟩ := documented_accepted opts S.options v.isSome i i' hi hv
  have hr := getOpt_requests _ S.options.nodup _ _ hq
  obtain ⟨ep, tn, hep, htn, hne⟩ := S.times
  have hepq := hr.epoch ep hep
  have hci : q.confInt = false := by
    have := hr.conf _ S.noConf
    generalize q.confInt = x, q.linci = y at this
    cases this with
    | linear h => simp [PyVal.eqStr] at h
    | mc _ h => simp [PyVal.eqStr] at h
    | none => rfl
  have hdg : q.nodiagn = true := by rw [hr.diagn, hci]; rfl
  have hinf : readInfer q.infer = .ok (some ⟨inferred, reference, ratios, offsets, approximate⟩) := by
    have h1 := hr.infer _ hi
    rw [hv] at h1
    rw [← Except.ok.inj h1]; exact hrd
  have hord : ∃ o, readOrder q.ordercnstit = .ok o ∧ (o = .PE ∨ o = .frequency) := by
    rcases S.order with h | h | h
    · rw [← Except.ok.inj (hr.order _ h)]; exact ⟨.PE, rfl, .inl rfl⟩
    · have : q.ordercnstit = .str "PE" := by
        have h1 := hr.order _ h
        unfold validateOrderConstit at h1
        rw [hci] at h1
        exact (Except.ok.inj h1).symm
      rw [this]; exact ⟨.PE, rfl, .inl rfl⟩
    · have : q.ordercnstit = .str "frequency" := by
        have h1 := hr.order _ h
        unfold validateOrderConstit at h1
        rw [hci] at h1
        exact (Except.ok.inj h1).symm
      rw [this]; exact ⟨.frequency, rfl, .inr rfl⟩
  have hlen : SameLength tn u.data (v.map Series.data) := by
    have h1 := normalizeTime_length _ _ _ _ htn
    obtain ⟨hs1, -, hvs⟩ := S.shapes
    have ht := S.ht
    have hu := S.hu
    unfold TimeArg.WF at ht
    unfold Series.WF at hu
    refine ⟨by rw [h1, ← ht, ← hu, hs1], fun w hw => ?_⟩
    have hv := S.hv
    revert hv hvs hw
    cases v with
    | none => intro _ hw; simp at hw
    | some v =>
      intro hvs hw hv
      simp only [Option.map_some, Option.some.injEq] at hw; subst hw
      have := hv v rfl
      unfold Series.WF at this
      rw [← hu, ← this, hvs v rfl]
  obtain ⟨ed, hed⟩ := editData_total tn u.data (v.map Series.data) hlen hne
  have hinit : InitOk E q t u v (some la) tn ed la := ⟨rfl, S.shapes, by rw [hepq]; exact htn, hed⟩
  have hlen' : RecordLength E t u v opts ed.lor := by
    refine ⟨ep, tn, hep, htn, ?_⟩
    obtain ⟨-, -, -, -, h5⟩ := editData_usable tn _ _ hlen _ hed
    obtain ⟨-, -, h6, -⟩ := timeStats_ok _ _ _ _ _ _ h5
    exact ptp_range _ _ h6
  obtain ⟨con, l, hc, hl, hlm⟩ := asked_selected hr S.constit hlen'
  have hvi : ValidInfer ⟨inferred, reference, ratios, offsets, approximate⟩ := by
    refine ⟨S.infer.known, S.infer.references, ?_, ?_⟩
    · show ratios.length = inferred.length ∨ ratios.length = 2 * inferred.length
      rw [S.infer.ratios]
      cases v.isSome <;> simp
    · exact S.infer.offsets.trans S.infer.ratios.symm
  obtain ⟨sel, hsel, ri, hri, hnrl⟩ := cnstitsel_total ed.tref ((Fl.fin (q.rmin : ℝ)).div (.fin (24 * ed.lor)))
    con _ hvi l hl
  obtain ⟨l0, -, -, -, -, hrefs, -⟩ := cnstitsel_some _ _ _ _ _ hsel
  refine ⟨q, tn, ed, sel, l, ri, con, hq, hr.ols _ S.ols rfl, hci, hdg, hord, hinit, hc, hinf, hsel, hlm, hri, hnrl, ?_, ?_, ?_, ?_⟩
  · intro r hr
    obtain ⟨n, hn, hr'⟩ := mapM_mem' _ _ _ hrefs r hr
    obtain ⟨rfl, h2, -, h4⟩ := mkRef_ok _ _ _ _ hr'
    exact ⟨(mem_firsts _ _).1 hn, h2, mapM_length _ _ _ h4 ▸ rfl⟩
  · intro n hn
    obtain ⟨r, hr, hr'⟩ := mapM_mem _ _ _ hrefs n ((mem_firsts _ _).2 hn)
    exact ⟨r, hr, (mkRef_ok _ _ _ _ hr').1⟩
  · intro k
    rcases S.latitude with ⟨h1, h2, h3⟩ | h
    · exact C43_defined_partial q.flags la h1 h2 h3 k
    · have hm := (C20_modes opts S.options.nodup _ q hq).1 .off (by rw [h]; rfl)
      have : q.flags.nodsatnone = true := by
        unfold flagMode at hm
        split at hm <;> simp_all
      simp [nodalSingular, this]
  · cases hnt : q.notrend with
    | true => rfl
    | false =>
      obtain ⟨bt, hbt⟩ := S.options.trend
      have hb : bt = true := by
        have := hr.trend _ hbt
        rw [hnt] at this
        simpa [PyVal.truthy] using this
      subst hb
      have : ed.lor ≠ 0 := S.length hbt _ hlen'
      simp [this]

/-- `solve` after the stages before the matrix. -/
theorem solve_check (E : Env) (t : TimeArg) (u : Series) (v : Option Series) (la : ℝ) (opts : Dict PyVal) (q : Opt)
    (tn : List Fl) (ed : Edited) (constit : Constit) (i : Option InferSpec) (sel : Sel)
    (hq : getOpt opts v.isSome = .ok q) (hi : InitOk E q t u v (some la) tn ed la)
    (hc : readConstit q.cnstit = .ok constit) (hinf : readInfer q.infer = .ok i)
    (hsel : cnstitsel ed.tref ((Fl.fin (q.rmin : ℝ)).div (.fin (24 * ed.lor))) constit i = .ok sel) (e : PyErr)
    (he : checkMatrix q (constit == .auto) i ed la sel = .error e) : solve E t u v (some la) opts = .error e := by
  unfold solve stagePrep stageSelect stageMatrix
  rw [hq, ok_bind, (stageInit_ok E q t u v (some la) ed la).2 ⟨tn, hi⟩, ok_bind, hc]
  simp only [ok_bind, hinf, hsel]
  simp only [pure_bind, he]
  rfl

/-! ## C116 -/

theorem raw_flags {opts : Dict PyVal} (D : DocumentedRest opts) {b : Bool} {q : Opt} (hq : getOpt opts b = .ok q) :
    RawPhases opts ↔ q.flags.nodsatnone = true ∧ q.flags.gwchnone = true := by
  obtain ⟨h1, h2⟩ := C20_modes opts D.nodup b q hq
  obtain ⟨x, m, hx, hm⟩ := D.nodal
  obtain ⟨y, m', hy, hm'⟩ := D.phase
  have g1 := h1 m (by rw [hx]; exact hm)
  have g2 := h2 m' (by rw [hy]; exact hm')
  unfold RawPhases
  rw [hx, hy]
  unfold nodalMode at hm
  unfold phaseMode at hm'
  unfold flagMode at g1 g2
  split at hm <;> split at hm' <;> simp at hm hm' <;> subst hm <;> subst hm' <;>
    split at g1 <;> split at g2 <;> simp_all

/-- Without corrections of amplitude the basis functions have modulus one. -/
theorem utE_off_ne (fl : Flags) (h : fl.nodsatnone = true) (tref lat t f : ℝ) (k : ℕ) : utE fl tref lat t f k ≠ 0 := by
  by_cases h2 : fl.gwchnone = true
  · exact utE_raw_ne fl ⟨h, h2⟩ tref lat t f k
  · unfold utE
    rw [if_neg (by simp [h2])]
    simp [nodF, h, Complex.exp_ne_zero]

/-- A constituent outside the inference leaves something to fit directly. -/
theorem some_fitted {q : Opt} {listed names : List String} {l ri : List ℕ} {sel : Sel} {s : InferSpec} (con : Constit)
    (hk : ∀ n ∈ listed, n ∈ constitNames) (hl : ∀ i, i ∈ l ↔ ∃ n ∈ listed, constitIndex n = .ok i) (hri : names.mapM constitIndex = .ok ri)
    (hnr : sel.nrLind = l.filter fun i => decide (i ∉ ri))
    (h : (q.flags.nodsatnone = true ∧ q.flags.gwchnone = true) ∨ ∃ n ∈ listed, n ∉ names) :
    (sel.nrLind.isEmpty && !((con == .auto) && (some s : Option InferSpec).isNone) &&
      !(q.flags.nodsatnone && q.flags.gwchnone)) = false := by
  rcases h with ⟨h1, h2⟩ | ⟨n, hn, hni⟩
  · simp [h1, h2]
  · have hne' : sel.nrLind ≠ [] := by
      obtain ⟨i, hni'⟩ := constitIndex_total n (hk n hn)
      have hi := (hl i).2 ⟨n, hn, hni'⟩
      refine List.ne_nil_of_mem (a := i) ?_
      rw [hnr, List.mem_filter]
      refine ⟨hi, by
        rw [decide_eq_true_eq]
        intro hmem
        obtain ⟨n', hn', hi'⟩ := mapM_mem' _ _ _ hri i hmem
        rw [constitIndex_inj hni' hi'] at hni
        exact hni hn'⟩
    cases hh : sel.nrLind with
    | nil => exact absurd hh hne'
    | cons _ _ => rfl

/-- If every listed constituent is a reference or inferred, and phases are corrected, the call fails. -/
theorem C116_alone (E : Env) (t : TimeArg) (u : Series) (v : Option Series) (la : ℝ) (opts : Dict PyVal)
    (listed inferred reference : List String) (ratios offsets : List ℚ) (approximate : Bool)
    (S : SoundInference E t u v la opts listed inferred reference ratios offsets approximate)
    (hraw : ¬ RawPhases opts) (hall : ∀ n ∈ listed, n ∈ inferred ++ reference) :
    solve E t u v (some la) opts = .error .indexError := by
  obtain ⟨q, tn, ed, sel, l, ri, con, hq, -, -, -, -, hi, hc, hinf, hsel, hl, hri, hnr, -, -, -, -⟩ := S.stages
  refine solve_check E t u v la opts q tn ed _ _ sel hq hi hc hinf hsel _ ?_
  have hnil : sel.nrLind = [] := by
    rw [hnr, List.filter_eq_nil_iff]
    intro i hi'
    obtain ⟨n, hn, hni⟩ := (hl i).1 hi'
    obtain ⟨i', hi1, hi2⟩ := mapM_mem _ _ _ hri n (hall n hn)
    rw [hni] at hi2
    simpa [Except.ok.inj hi2] using hi1
  have hfl : (q.flags.nodsatnone && q.flags.gwchnone) = false := by
    rw [raw_flags S.options hq] at hraw
    cases h1 : q.flags.nodsatnone <;> cases h2 : q.flags.gwchnone <;> simp_all
  unfold checkMatrix
  simp only [hnil, hfl, Option.isNone_some, Bool.and_false, Bool.not_false, List.isEmpty_nil, Bool.and_self, raiseIf,
    if_true]
  rfl

theorem nodup_of_refPositions (r : List String) (h : ∀ n ∈ r, (refPositions r n).length = 1) : r.Nodup := by
  rw [List.nodup_iff_injective_getElem]
  rintro ⟨i, hi⟩ ⟨j, hj⟩ hij
  simp only at hij
  have h1 : i ∈ refPositions r r[i] := (mem_refPositions _ _ _).2 (List.getElem?_eq_getElem hi)
  have h2 : j ∈ refPositions r r[i] := (mem_refPositions _ _ _).2 (by rw [hij]; exact List.getElem?_eq_getElem hj)
  obtain ⟨x, hx⟩ := List.length_eq_one_iff.1 (h r[i] (List.getElem_mem hi))
  rw [hx, List.mem_singleton] at h1 h2
  simp [h1, h2]

/-- With `approximate`, two constituents inferred from the same reference make the call fail. -/
theorem C116_repeated (E : Env) (t : TimeArg) (u : Series) (v : Option Series) (la : ℝ) (opts : Dict PyVal)
    (listed inferred reference : List String) (ratios offsets : List ℚ)
    (S : SoundInference E t u v la opts listed inferred reference ratios offsets true)
    (hother : RawPhases opts ∨ ∃ n ∈ listed, n ∉ inferred ++ reference) (hrep : ¬ reference.Nodup) :
    solve E t u v (some la) opts = .error .valueError := by
  obtain ⟨q, tn, ed, sel, l, ri, con, hq, -, -, -, -, hi, hc, hinf, hsel, hl, hri, hnr, hrefs, hall, hsing, -⟩ := S.stages
  refine solve_check E t u v la opts q tn ed _ _ sel hq hi hc hinf hsel _ ?_
  have e1 := some_fitted (q := q) (s := ⟨inferred, reference, ratios, offsets, true⟩) con S.constit.known hl hri hnr
    (hother.imp_left (raw_flags S.options hq).1)
  have e2 : ((usedLind sel).any (nodalSingular q.flags la)) = false := by
    rw [List.any_eq_false]; intro k _; simp [hsing k]
  have e3 : (sel.refs.any fun r => r.inf.length != 1) = true := by
    by_contra hno
    refine hrep (nodup_of_refPositions _ fun n hn => ?_)
    obtain ⟨r, hr, rfl⟩ := hall n hn
    rw [← (hrefs r hr).2.2]
    rw [Bool.not_eq_true, List.any_eq_false] at hno
    simpa using hno r hr
  unfold checkMatrix
  simp only [e1, e2, e3, raiseIf, Bool.false_eq_true, if_false, if_true, ok_bind]
  rfl

/-- **C116** for the other calls: a listed constituent that takes no part in the inference (or raw phases), with
`approximate` no reference used twice, and without it no reference whose satellites can outweigh it. -/
theorem C116_returns_partial (E : Env) (t : TimeArg) (u : Series) (v : Option Series) (la : ℝ) (opts : Dict PyVal)
    (listed inferred reference : List String) (ratios offsets : List ℚ) (approximate : Bool)
    (S : SoundInference E t u v la opts listed inferred reference ratios offsets approximate)
    (hother : RawPhases opts ∨ ∃ n ∈ listed, n ∉ inferred ++ reference)
    (happ : approximate = true → reference.Nodup)
    (hexact : approximate = false → requested opts "nodal" = some (.bool false) ∨
      ∀ n ∈ reference, n ∉ ["NO1", "OO1", "UPS1"]) :
    ∃ c, solve E t u v (some la) opts = .ok c := by
  obtain ⟨q, tn, ed, sel, l, ri, con, hq, hm, hci, hnd, ⟨o, ho, hoo⟩, hi, hc, hinf, hsel, hl, hri, hnr, hrefs, hall, hsing,
    hlor⟩ := S.stages
  have hoff : requested opts "nodal" = some (.bool false) → q.flags.nodsatnone = true := by
    intro h
    have hm := (C20_modes opts S.options.nodup _ q hq).1 .off (by rw [h]; rfl)
    unfold flagMode at hm
    split at hm <;> simp_all
  have hcheck : checkMatrix q (con == .auto)
      (some ⟨inferred, reference, ratios, offsets, approximate⟩) ed la sel = .ok () := by
    have e1 := some_fitted (q := q) (s := ⟨inferred, reference, ratios, offsets, approximate⟩) con S.constit.known hl hri hnr
      (hother.imp_left (raw_flags S.options hq).1)
    have e2 : ((usedLind sel).any (nodalSingular q.flags la)) = false := by
      rw [List.any_eq_false]; intro k _; simp [hsing k]
    unfold checkMatrix
    simp only [e1, e2, raiseIf, Bool.false_eq_true, if_false, ok_bind]
    cases approximate with
    | true =>
      have e4 : (sel.refs.any fun r => r.inf.length != 1) = false := by
        rw [List.any_eq_false]
        intro r hr
        obtain ⟨h1, -, h3⟩ := hrefs r hr
        have h6 := refPositions_length_of_nodup _ _ (happ rfl) h1
        simp only [bne_iff_ne, ne_eq, Decidable.not_not]
        omega
      simp only [if_true, e4, Bool.false_eq_true, if_false, ok_bind]
      rw [if_neg (by simp [hlor])]
    | false =>
      have e4 : (ed.t.any fun t => sel.refs.any fun r => decide (utE q.flags ed.tref la t r.frq r.lind = 0)) =
          false := by
        rw [List.any_eq_false]
        intro τ _
        rw [Bool.not_eq_true, List.any_eq_false]
        intro r hr
        obtain ⟨h1, h2, -⟩ := hrefs r hr
        have hne : utE q.flags ed.tref la τ r.frq r.lind ≠ 0 := by
          rcases S.latitude with hl | h
          · rcases hexact rfl with h | h
            · exact utE_off_ne _ (hoff h) _ _ _ _ _
            · have hk := (constitIndex_ok _ _).1 h2
              have hlt : r.lind < 146 := by
                have := (List.getElem?_eq_some_iff.1 hk).1
                simpa [constitNames, catalogue_length] using this
              refine (C92_never_zero q.flags ed.tref la τ r.frq hl r.lind hlt ?_).2
              rw [nameAt_constitIndex h2]
              exact h _ h1
          · exact utE_off_ne _ (hoff h) _ _ _ _ _
        simpa using hne
      simp only [e4, Bool.false_eq_true, if_false, ok_bind]
      rw [if_neg (by simp [hlor])]
  obtain ⟨p, hp⟩ : ∃ p, PrepOk E q t u v (some la) tn con p :=
    ⟨⟨q, some ⟨inferred, reference, ratios, offsets, approximate⟩, ed, la, sel, numCols (!q.notrend) sel,
      ed.t.map (modelRow q.flags ed.tref la ed.lor (!q.notrend)
        (approxOf (some ⟨inferred, reference, ratios, offsets, approximate⟩)) sel)⟩,
      ⟨hi, hc, hinf, hsel, hcheck, rfl, rfl, rfl⟩⟩
  have hpo := hp.hopt
  have hsol : ∃ c, stageSolution E p = .ok c := by
    unfold stageSolution stageFit stageConf stageDiagn
    rw [hpo, hm, hci, hnd, ho]
    rcases hoo with rfl | rfl
    · exact ⟨_, rfl⟩
    · exact ⟨_, rfl⟩
  obtain ⟨c, hcf⟩ := hsol
  refine ⟨c, ?_⟩
  obtain ⟨m, W, rf, c1, c2, o', hs'⟩ := (stageSolution_ok E _ c).1 hcf
  exact (solve_ok _ _ _ _ _ _ _).2 ⟨q, _, tn, _, m, W, rf, c1, c2, o', hq, hp, hs'⟩

/-! ## Examples and the counterexample -/

/-- The constituents `inf` inferred from `M2`, with all corrections, while the constituents `l` are asked for. -/
def hintOpts (l inf : List String) (approximate : Bool) : Dict PyVal :=
  [("constit", .seq .list (l.map .str)), ("conf_int", .str "none"), ("trend", .bool false), ("epoch", .str "python"),
   ("infer", .dict true [("inferred_names", .seq .list (inf.map .str)),
      ("reference_names", .seq .list ((inf.map fun _ => "M2").map .str)),
      ("amp_ratios", .seq .list ((inf.map fun _ => (1 / 5 : ℚ)).map .num)),
      ("phase_offsets", .seq .list ((inf.map fun _ => (30 : ℚ)).map .num)), ("approximate", .bool approximate)])]

theorem hint_sound (l inf : List String) (hl : l ≠ []) (hk : ∀ n ∈ l, n ∈ constitNames)
    (hk' : ∀ n ∈ inf, n ∈ constitNames) (b : Bool) :
    SoundInference idealEnv dayT dayU none 45 (hintOpts l inf b) l inf (inf.map fun _ => "M2") (inf.map fun _ => 1 / 5)
      (inf.map fun _ => 30) b where
  options := {
    nodup := by show ["constit", "conf_int", "trend", "epoch", "infer"].Nodup; decide
    names := by show ∀ k ∈ ["constit", "conf_int", "trend", "epoch", "infer"], documentedDefault k ≠ none; decide
    conf := ⟨"none", rfl, by decide⟩
    nodal := ⟨_, .exact, rfl, rfl⟩
    phase := ⟨_, .exact, rfl, rfl⟩
    method := ⟨_, rfl⟩
    robust := ⟨_, _, rfl⟩
    trend := ⟨_, rfl⟩
    white := ⟨_, rfl⟩
    verbose := ⟨_, rfl⟩
    rayleigh := ⟨_, rfl⟩
    order := .inl rfl }
  infer := {
    asked := ⟨_, .list, .list, .list, .list, rfl, rfl, rfl, rfl, rfl, .inl rfl⟩
    known := by
      intro n hn
      rcases List.mem_append.1 hn with h | h
      · exact hk' n h
      · obtain ⟨-, -, rfl⟩ := List.mem_map.1 h
        decide +kernel
    references := by simp
    ratios := by simp
    offsets := by simp }
  ols := rfl
  noConf := rfl
  order := .inl rfl
  constit := .inl ⟨.list, by simp, hl, rfl, hk⟩
  shapes := ⟨rfl, rfl, by simp⟩
  ht := dayReady.ht
  hu := dayReady.hu
  hv := dayReady.hv
  times := ⟨_, [.fin 0, .fin 0.5, .fin 1], rfl, by
    show (Except.ok (List.map _ _) : Except PyErr (List Fl)) = _
    congr 1, by simp [usable, goodSamples, Fl.toReal?, Cell.value?, dayU]⟩
  latitude := .inl ⟨by norm_num, by norm_num, by norm_num⟩
  length := fun h => absurd (Option.some.inj (show some (PyVal.bool false) = some (.bool true) from h)) (by simp)

/-- The full statement is false: `constit=['M2']` with `N2` inferred from `M2` is an IndexError. -/
theorem C116_false : ¬ C116_full := by
  intro h
  have S := hint_sound ["M2"] ["N2"] (by simp) (by decide +kernel) (by decide +kernel) false
  obtain ⟨c, hc⟩ := h _ _ _ _ _ _ _ _ _ _ _ _ S
  have he := C116_alone _ _ _ _ _ _ _ _ _ _ _ _ S (by
    rintro ⟨h1, -⟩
    exact absurd (Option.some.inj (show some (PyVal.bool true) = some (.bool false) from h1)) (by simp)) (by simp)
  rw [hc] at he
  cases he

/-- With `S2` asked for as well the same inference works, exact or approximate. -/
example (b : Bool) : ∃ c, solve idealEnv dayT dayU none (some 45) (hintOpts ["M2", "S2"] ["N2"] b) = .ok c :=
  C116_returns_partial _ _ _ _ _ _ _ _ _ _ _ _
    (hint_sound ["M2", "S2"] ["N2"] (by simp) (by decide +kernel) (by decide +kernel) b)
    (.inr ⟨"S2", by simp, by decide⟩) (fun _ => by simp) (fun _ => .inr (by decide))

/-- Two constituents inferred from `M2`: exact inference works, approximate inference does not. -/
example : (∃ c, solve idealEnv dayT dayU none (some 45) (hintOpts ["M2", "S2"] ["N2", "NU2"] false) = .ok c) ∧
    solve idealEnv dayT dayU none (some 45) (hintOpts ["M2", "S2"] ["N2", "NU2"] true) = .error .valueError :=
  have S b := hint_sound ["M2", "S2"] ["N2", "NU2"] (by simp) (by decide +kernel) (by decide +kernel) b
  ⟨C116_returns_partial _ _ _ _ _ _ _ _ _ _ _ _ (S false) (.inr ⟨"S2", by simp, by decide⟩) (fun h => by cases h)
      (fun _ => .inr (by decide)),
    C116_repeated _ _ _ _ _ _ _ _ _ _ _ (S true) (.inr ⟨"S2", by simp, by decide⟩) (by decide)⟩

/-- `N2` inferred from `M2` with an automatic selection. -/
def autoHintOpts (r : ℚ) : Dict PyVal :=
  [("Rayleigh_min", .num r), ("conf_int", .str "none"), ("trend", .bool false), ("epoch", .str "python"),
   ("infer", .dict true [("inferred_names", .seq .list [.str "N2"]), ("reference_names", .seq .list [.str "M2"]),
      ("amp_ratios", .seq .list [.num (1 / 5)]), ("phase_offsets", .seq .list [.num 30])])]

/-- The constituents a record of one day resolves. -/
def resolvedInADay (r : ℚ) : List String :=
  (catalogue.filter fun con => @decide ((r : ℝ) / (24 * 1) ≤ con.df.toReal) (Classical.dec _)).map Con.name

theorem autoHint_sound (r : ℚ) : SoundInference idealEnv dayT dayU none 45 (autoHintOpts r) (resolvedInADay r) ["N2"]
    ["M2"] [1 / 5] [30] false where
  options := {
    nodup := by show ["Rayleigh_min", "conf_int", "trend", "epoch", "infer"].Nodup; decide
    names := by show ∀ k ∈ ["Rayleigh_min", "conf_int", "trend", "epoch", "infer"], documentedDefault k ≠ none; decide
    conf := ⟨"none", rfl, by decide⟩
    nodal := ⟨_, .exact, rfl, rfl⟩
    phase := ⟨_, .exact, rfl, rfl⟩
    method := ⟨_, rfl⟩
    robust := ⟨_, _, rfl⟩
    trend := ⟨_, rfl⟩
    white := ⟨_, rfl⟩
    verbose := ⟨_, rfl⟩
    rayleigh := ⟨_, rfl⟩
    order := .inl rfl }
  infer := {
    asked := ⟨_, .list, .list, .list, .list, rfl, rfl, rfl, rfl, rfl, .inr ⟨rfl, rfl⟩⟩
    known := by decide +kernel
    references := by simp
    ratios := by simp
    offsets := by simp }
  ols := rfl
  noConf := rfl
  order := .inl rfl
  constit := .inr ⟨r, 1, rfl, rfl, ⟨_, [.fin 0, .fin 0.5, .fin 1], rfl, by
      show (Except.ok (List.map _ _) : Except PyErr (List Fl)) = _
      congr 1, by
      have : recordTimes [.fin 0, .fin 0.5, .fin 1] dayU none = [0, 0.5, 1] := by
        simp [recordTimes, usable, goodSamples, Fl.toReal?, Cell.value?, dayU, finiteTimes]
      rw [this]
      refine ⟨⟨0, by simp, 1, by simp, by norm_num⟩, fun a ha b hb => ?_⟩
      simp only [List.mem_cons, List.not_mem_nil, or_false] at ha hb
      rcases ha with rfl | rfl | rfl <;> rcases hb with rfl | rfl | rfl <;> norm_num⟩, one_ne_zero, fun n => by
      unfold resolvedInADay
      simp only [List.mem_map, List.mem_filter, decide_eq_true_eq]
      exact ⟨fun ⟨c, ⟨h1, h2⟩, h3⟩ => ⟨c, h1, h3, h2⟩, fun ⟨c, h1, h3, h2⟩ => ⟨c, ⟨h1, h2⟩, h3⟩⟩⟩
  shapes := ⟨rfl, rfl, by simp⟩
  ht := dayReady.ht
  hu := dayReady.hu
  hv := dayReady.hv
  times := ⟨_, [.fin 0, .fin 0.5, .fin 1], rfl, by
    show (Except.ok (List.map _ _) : Except PyErr (List Fl)) = _
    congr 1, by simp [usable, goodSamples, Fl.toReal?, Cell.value?, dayU]⟩
  latitude := .inl ⟨by norm_num, by norm_num, by norm_num⟩
  length := fun h => absurd (Option.some.inj (show some (PyVal.bool false) = some (.bool true) from h)) (by simp)

/-- One day of record with an automatic selection: `K1` is resolved besides `M2`, so the inference works. -/
example : ∃ c, solve idealEnv dayT dayU none (some 45) (autoHintOpts 1) = .ok c :=
  C116_returns_partial _ _ _ _ _ _ _ _ _ _ _ _ (autoHint_sound 1) (.inr ⟨"K1", by
    have : ∃ con ∈ catalogue, con.name = "K1" ∧ 2 ^ con.df.exp ≤ con.df.num * 24 := by decide +kernel
    obtain ⟨con, h1, h2, h3⟩ := this
    refine List.mem_map.2 ⟨con, List.mem_filter.2 ⟨h1, ?_⟩, h2⟩
    simp only [decide_eq_true_eq]
    have h4 : (2 : ℝ) ^ con.df.exp ≤ con.df.num * 24 := by exact_mod_cast h3
    unfold Dy.toReal
    rw [div_le_div_iff₀ (by norm_num) (by positivity)]
    push_cast
    linarith, by decide⟩) (fun h => by cases h) (fun _ => .inr (by decide))

end

end UTide.Props
