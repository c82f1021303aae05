import Verif.Lemmas.Requested
import Verif.Props.SelectionProps
import Verif.Props.SlvInitProps
import Verif.Props.EllipseProps

/-!
# What `solve` returns: C09, C15-C18, C32-C34, C37
-/

namespace UTide.Props

noncomputable section

open Classical

/-- The numerical routines keep their contracts, and arrays have as many entries as their shapes say. -/
structure Ready (E : Env) (t : TimeArg) (u : Series) (v : Option Series) : Prop where
  lstsq : LstsqOk E.num.lstsq
  argsort : ArgsortOk E.num.argsort
  ht : t.WF
  hu : u.WF
  hv : ∀ w, v = some w → w.WF

/-- Everything known about a result. -/
structure Facts (E : Env) (t : TimeArg) (u : Series) (v : Option Series) (lat : Option ℝ) (opts : Dict PyVal)
    (c : Coef) (opt : Opt) (p : Prep) (tn : List Fl) (constit : Constit) (m : List ℂ) (W : List ℝ)
    (rf : Option RobOut) (full : Coef) (o : Order) (ind : List ℕ) : Prop where
  hopt : getOpt opts v.isSome = .ok opt
  prep : PrepOk E opt t u v lat tn constit p
  solved : Solved E p m W rf full o ind c
  mlen : m.length = p.nm
  len : full.Len p.sel.lind.length
  lt : ∀ i ∈ ind, i < p.sel.lind.length

theorem solve_facts {E : Env} {t : TimeArg} {u : Series} {v : Option Series} {lat : Option ℝ} {opts : Dict PyVal}
    {c : Coef} (R : Ready E t u v) (h : solve E t u v lat opts = .ok c) :
    ∃ opt p tn constit m W rf full o ind, Facts E t u v lat opts c opt p tn constit m W rf full o ind := by
  obtain ⟨opt, p, tn, constit, m, W, rf, full, o, ind, h1, h2, h3⟩ := solve_solved _ _ _ _ _ _ _ h
  have hm := h3.mlen h2 R.ht R.hu R.hv R.lstsq
  exact ⟨opt, p, tn, constit, m, W, rf, full, o, ind, h1, h2, h3, hm, h3.len h2 hm, h3.ind_lt h2 hm R.argsort⟩

/-! ## C18 -/

/-- The frequency (cycles per hour) of catalogue entry `k` at a time: the Doodson combination of the astronomical
rates, for compounds the weighted sum over the parents. -/
def frequencyAt (tref : ℝ) (k : ℕ) : ℝ := match kindOf k with
  | some (.primary d _) => d.dot (ader tref) / 24
  | some (.shallow parts) => (parts.map fun q => match kindOf q.1 with
      | some (.primary d _) => d.dot (ader tref) / 24 * q.2.toReal
      | _ => 0).sum
  | none => 0

theorem frequencyAt_eq (tref : ℝ) (k : ℕ) (hk : k < 146) : linFreqs tref k = frequencyAt tref k := by
  unfold frequencyAt
  have hsome : ∃ x, kindOf k = some x := by
    have : k < catalogue.length := by rw [catalogue_length]; exact hk
    exact ⟨catalogue[k].kind, by unfold kindOf; rw [List.getElem?_eq_getElem this]; rfl⟩
  obtain ⟨x, hx⟩ := hsome
  rw [hx]
  cases x with
  | primary d s => exact linFreqs_primary tref hx
  | shallow parts =>
    rw [linFreqs_shallow tref hx]
    dsimp only
    congr 1
    apply List.map_congr_left
    intro q hq
    obtain ⟨d, s, hds⟩ := kindOf_parent hx hq
    rw [hds, linFreqs_primary tref hds]
    exact mul_comm _ _

theorem permute_aligned {E : Env} {t : TimeArg} {u : Series} {v : Option Series} {lat : Option ℝ}
    {opts : Dict PyVal} {c : Coef} (h : solve E t u v lat opts = .ok c) :
    c.name = c.lind.map nameAt ∧ c.frq = c.lind.map (linFreqs c.reftime) ∧ ∀ k ∈ c.lind, k < 146 := by
  obtain ⟨opt, p, tn, constit, m, W, rf, full, o, ind, h1, h2, h3⟩ := solve_solved _ _ _ _ _ _ _ h
  have ha := h2.aligned
  have hr : c.reftime = p.ed.tref := by rw [h3.result]; exact h3.head.reftime
  have e1 : c.name = gather p.sel.name ind := by rw [h3.result, ← h3.name]; rfl
  have e2 : c.lind = gather p.sel.lind ind := by rw [h3.result, ← h3.lind]; rfl
  have e3 : c.frq = gather p.sel.frq ind := by rw [h3.result, ← h3.frq]; rfl
  refine ⟨?_, ?_, ?_⟩
  · rw [e1, e2, ha.name, gather_map]
  · rw [e3, e2, ha.frq, gather_map, hr]
  · intro k hk
    rw [e2] at hk
    exact ha.lt k (gather_mem _ _ _ hk)

/-- **C18.** In every result the name, the catalogue index and the frequency of a position belong together. -/
theorem C18_aligned (E : Env) (t : TimeArg) (u : Series) (v : Option Series) (lat : Option ℝ) (opts : Dict PyVal)
    (c : Coef) (h : solve E t u v lat opts = .ok c) :
    c.lind.length = c.name.length ∧ c.frq.length = c.name.length ∧
    ∀ (i : ℕ) (n : String), c.name[i]? = some n → ∃ k con, c.lind[i]? = some k ∧ catalogue[k]? = some con ∧
      con.name = n ∧ constitIndexDict.get? n = some k ∧ c.frq[i]? = some (frequencyAt c.reftime k) := by
  obtain ⟨h1, h2, h3⟩ := permute_aligned h
  refine ⟨by rw [h1, List.length_map], by rw [h1, h2, List.length_map, List.length_map], fun i n hn => ?_⟩
  rw [h1, List.getElem?_map, Option.map_eq_some_iff] at hn
  obtain ⟨k, hk, rfl⟩ := hn
  have hlt := h3 k (List.mem_of_getElem? hk)
  have hc : constitNames[k]? = some (nameAt k) := constitNames_nameAt hlt
  have hc' := hc
  rw [constitNames_getElem?, Option.map_eq_some_iff] at hc'
  obtain ⟨con, hcon, hname⟩ := hc'
  exact ⟨k, con, hk, hcon, hname, (get?_constitIndexDict _ _).2 hc, by
    rw [h2, List.getElem?_map, hk, ← frequencyAt_eq _ _ hlt]; rfl⟩

/-! ## C09 -/

/-- Documented ranges of the parameters. -/
def InRanges : EllArr → Prop
  | .one A g => (∀ a ∈ A, 0 ≤ a) ∧ ∀ x ∈ g, 0 ≤ x ∧ x < 360
  | .two Lsmaj Lsmin theta g => (∀ (i : ℕ) (a b : ℝ), Lsmaj[i]? = some a → Lsmin[i]? = some b → |b| ≤ a) ∧
      (∀ x ∈ theta, 0 ≤ x ∧ x < 180) ∧ ∀ x ∈ g, 0 ≤ x ∧ x < 360

/-- Scalar arrays for scalar input, ellipse arrays for vector input. -/
def Shaped (two : Bool) : EllArr → Prop
  | .one _ _ => two = false
  | .two _ _ _ _ => two = true

theorem mem_zipWith {α β γ : Type} (f : α → β → γ) (l : List α) (l' : List β) (x : γ)
    (h : x ∈ List.zipWith f l l') : ∃ a b, x = f a b := by
  induction l generalizing l' with
  | nil => simp at h
  | cons a l ih =>
    cases l' with
    | nil => simp at h
    | cons b l' =>
      rw [List.zipWith_cons_cons, List.mem_cons] at h
      rcases h with h | h
      · exact ⟨a, b, h⟩
      · exact ih l' h

/-- **C09** for everything `solve` returns, inferred constituents included. -/
theorem C09_ranges (E : Env) (t : TimeArg) (u : Series) (v : Option Series) (lat : Option ℝ) (opts : Dict PyVal)
    (hnd : opts.keys.Nodup) (c : Coef) (h : solve E t u v lat opts = .ok c) : InRanges c.ell ∧ Shaped v.isSome c.ell := by
  obtain ⟨opt, p, tn, constit, m, W, rf, full, o, ind, h1, h2, h3⟩ := solve_solved _ _ _ _ _ _ _ h
  have htd : p.opt.twodim = v.isSome := by rw [h2.hopt]; exact (getOpt_requests _ hnd _ _ h1).twodim
  have hell : c.ell = (ellOf p.opt.twodim (allAp p.sel m) (allAm p.sel m)).permute ind := by
    rw [h3.result, ← h3.ell]; rfl
  rw [hell, htd]
  generalize allAp p.sel m = ap
  generalize allAm p.sel m = am
  cases v.isSome with
  | false =>
    refine ⟨⟨fun a ha => ?_, fun x hx => ?_⟩, rfl⟩
    · have := gather_mem _ _ _ ha
      rw [List.mem_map] at this
      obtain ⟨e, he, rfl⟩ := this
      obtain ⟨z, w, rfl⟩ := mem_zipWith _ _ _ _ he
      exact (C09_cs2cep_ranges _ _ 0 0).1
    · have := gather_mem _ _ _ hx
      rw [List.mem_map] at this
      obtain ⟨e, he, rfl⟩ := this
      obtain ⟨z, w, rfl⟩ := mem_zipWith _ _ _ _ he
      exact ⟨(C09_cs2cep_ranges _ _ 0 0).2.1, (C09_cs2cep_ranges _ _ 0 0).2.2.1⟩
  | true =>
    refine ⟨⟨fun i a b ha hb => ?_, fun x hx => ?_, fun x hx => ?_⟩, rfl⟩
    · have e1 : gather ((List.zipWith ell2 ap am).map Ell.Lsmaj) ind = (gather (List.zipWith ell2 ap am) ind).map Ell.Lsmaj :=
        gather_map _ _ _
      have e2 : gather ((List.zipWith ell2 ap am).map Ell.Lsmin) ind = (gather (List.zipWith ell2 ap am) ind).map Ell.Lsmin :=
        gather_map _ _ _
      rw [e1, List.getElem?_map, Option.map_eq_some_iff] at ha
      rw [e2, List.getElem?_map, Option.map_eq_some_iff] at hb
      obtain ⟨e, he, rfl⟩ := ha
      obtain ⟨e', he', rfl⟩ := hb
      rw [he] at he'
      cases he'
      obtain ⟨z, w, rfl⟩ := mem_zipWith _ _ _ _ (gather_mem _ _ _ (List.mem_of_getElem? he))
      exact (C09_cs2cep_ranges _ _ _ _).2.2.2.1
    · have := gather_mem _ _ _ hx
      rw [List.mem_map] at this
      obtain ⟨e, he, rfl⟩ := this
      obtain ⟨z, w, rfl⟩ := mem_zipWith _ _ _ _ he
      have := (C09_cs2cep_ranges (z + w).re (-(z - w).im) (z + w).im (z - w).re).2.2.2.2
      exact ⟨this.1, this.2.1⟩
    · have := gather_mem _ _ _ hx
      rw [List.mem_map] at this
      obtain ⟨e, he, rfl⟩ := this
      obtain ⟨z, w, rfl⟩ := mem_zipWith _ _ _ _ he
      exact (C09_cs2cep_ranges (z + w).re (-(z - w).im) (z + w).im (z - w).re).2.2.2.2.2.2

/-! ## C15, C16, C17 -/

/-- The times that define the record length and the reference time: all valid times if evenly spaced, else those of
the usable samples. -/
def recordTimes (tn : List Fl) (u : Series) (v : Option Series) : List ℝ :=
  if isEqui (finiteTimes tn) = true then finiteTimes tn else (usable tn u.data (v.map Series.data)).map Prod.fst

/-- `L` is the largest difference of two entries. -/
def IsRange (x : List ℝ) (L : ℝ) : Prop := (∃ a ∈ x, ∃ b ∈ x, L = b - a) ∧ ∀ a ∈ x, ∀ b ∈ x, b - a ≤ L

theorem IsRange.unique {x : List ℝ} {L L' : ℝ} (h : IsRange x L) (h' : IsRange x L') : L = L' := by
  obtain ⟨⟨a, ha, b, hb, rfl⟩, h2⟩ := h
  obtain ⟨⟨a', ha', b', hb', rfl⟩, h2'⟩ := h'
  exact le_antisymm (h2' a ha b hb) (h2 a' ha' b' hb')

theorem foldl_max_spec (l : List ℝ) (a : ℝ) : l.foldl max a ∈ a :: l ∧ ∀ x ∈ a :: l, x ≤ l.foldl max a := by
  induction l generalizing a with
  | nil => simp
  | cons b l ih =>
    obtain ⟨h1, h2⟩ := ih (max a b)
    rw [List.foldl_cons]
    refine ⟨?_, fun x hx => ?_⟩
    · rw [List.mem_cons] at h1
      rcases h1 with h1 | h1
      · rw [h1]
        rcases max_choice a b with h | h <;> rw [h] <;> simp
      · simp [h1]
    · have h3 := h2 (max a b) (by simp)
      simp only [List.mem_cons] at hx
      rcases hx with rfl | rfl | hx
      · exact (le_max_left _ _).trans h3
      · exact (le_max_right _ _).trans h3
      · exact h2 x (by simp [hx])

theorem foldl_min_spec (l : List ℝ) (a : ℝ) : l.foldl min a ∈ a :: l ∧ ∀ x ∈ a :: l, l.foldl min a ≤ x := by
  induction l generalizing a with
  | nil => simp
  | cons b l ih =>
    obtain ⟨h1, h2⟩ := ih (min a b)
    rw [List.foldl_cons]
    refine ⟨?_, fun x hx => ?_⟩
    · rw [List.mem_cons] at h1
      rcases h1 with h1 | h1
      · rw [h1]
        rcases min_choice a b with h | h <;> rw [h] <;> simp
      · simp [h1]
    · have h3 := h2 (min a b) (by simp)
      simp only [List.mem_cons] at hx
      rcases hx with rfl | rfl | hx
      · exact h3.trans (min_le_left _ _)
      · exact h3.trans (min_le_right _ _)
      · exact h2 x (by simp [hx])

theorem ptp_range (x : List ℝ) (L : ℝ) (h : ptp x = .ok L) : IsRange x L := by
  cases x with
  | nil => simp [ptp] at h
  | cons a l =>
    simp only [ptp, Except.ok.injEq] at h
    subst h
    obtain ⟨h1, h2⟩ := foldl_max_spec l a
    obtain ⟨h3, h4⟩ := foldl_min_spec l a
    exact ⟨⟨_, h3, _, h1, rfl⟩, fun p hp q hq => sub_le_sub (h2 q hq) (h4 p hp)⟩

/-- `L` is the record length in days of a call. -/
def RecordLength (E : Env) (t : TimeArg) (u : Series) (v : Option Series) (opts : Dict PyVal) (L : ℝ) : Prop :=
  ∃ ep tn, requested opts "epoch" = some ep ∧ normalizeTime E.dt64 t.arr ep = .ok tn ∧ IsRange (recordTimes tn u v) L

theorem prep_recordLength {E : Env} {opt : Opt} {t : TimeArg} {u : Series} {v : Option Series} {lat : Option ℝ}
    {tn : List Fl} {constit : Constit} {p : Prep} {opts : Dict PyVal} (hp : PrepOk E opt t u v lat tn constit p)
    (hr : Requests opts v.isSome opt) (ht : t.WF) (hu : u.WF) (hv : ∀ w, v = some w → w.WF) :
    RecordLength E t u v opts p.ed.lor := by
  obtain ⟨ep, hep⟩ := Option.isSome_iff_exists.1 (hr.some "epoch" (by simp))
  obtain ⟨-, -, -, -, h5⟩ := editData_usable tn _ _ (hp.init.same ht hu hv) _ hp.init.edit
  obtain ⟨-, -, h6, -⟩ := timeStats_ok _ _ _ _ _ _ h5
  refine ⟨ep, tn, hep, ?_, ?_⟩
  · rw [← hr.epoch ep hep]; exact hp.init.time
  · exact ptp_range _ _ h6

theorem RecordLength.unique {E : Env} {t : TimeArg} {u : Series} {v : Option Series} {opts : Dict PyVal} {L L' : ℝ}
    (h : RecordLength E t u v opts L) (h' : RecordLength E t u v opts L') : L = L' := by
  obtain ⟨ep, tn, h1, h2, h3⟩ := h
  obtain ⟨ep', tn', h1', h2', h3'⟩ := h'
  rw [h1] at h1'
  obtain rfl := Option.some.inj h1'
  rw [h2] at h2'
  obtain rfl := Except.ok.inj h2'
  exact h3.unique h3'

/-- `order_constit` is not a sequence of names. -/
def SortKey (oc : PyVal) : Prop := oc = .none ∨ ∃ s, oc = .str s

theorem readOrder_sortKey (oc x : PyVal) (ci : Bool) (h : SortKey oc) (hv : validateOrderConstit oc ci = .ok x)
    (o : Order) (ho : readOrder x = .ok o) : ∀ l, o ≠ .names l := by
  have key : ∀ s : String, s = "PE" ∨ s = "frequency" ∨ s = "SNR" → readOrder (.str s) = .ok o → ∀ l, o ≠ .names l := by
    rintro s (rfl | rfl | rfl) h l rfl
    · exact absurd (Except.ok.inj h) (by simp)
    · exact absurd (Except.ok.inj h) (by simp)
    · exact absurd (Except.ok.inj h) (by simp)
  rcases h with rfl | ⟨s, rfl⟩
  · have := Except.ok.inj hv
    subst this
    exact key _ (.inl rfl) ho
  · unfold validateOrderConstit at hv
    dsimp only at hv
    by_cases hs : s ∈ ["PE", "frequency"] ++ (if ci = true then ["SNR"] else [])
    · rw [if_pos hs] at hv
      have := Except.ok.inj hv
      subst this
      refine key s ?_ ho
      cases ci <;> simp at hs <;> tauto
    · rw [if_neg hs] at hv
      simp at hv

theorem fl_div_pos (a b : ℝ) (hb : b ≠ 0) : (Fl.fin a).div (.fin b) = .fin (a / b) := by
  simp [Fl.div, hb]

/-- **C15.** With `constit='auto'`, no inference and a sorting order, the result contains exactly the catalogue
constituents whose separation from their comparison constituent is at least `Rayleigh_min / (24 L)`, each once, where
`L` is the record length in days. -/
theorem C15_automatic (E : Env) (t : TimeArg) (u : Series) (v : Option Series) (lat : Option ℝ) (opts : Dict PyVal)
    (R : Ready E t u v) (hnd : opts.keys.Nodup) (hcon : requested opts "constit" = some (.str "auto"))
    (hinf : requested opts "infer" = some .none) (oc : PyVal) (hoc : requested opts "order_constit" = some oc)
    (hsort : SortKey oc) (r : ℚ) (hr : requested opts "Rayleigh_min" = some (.num r)) (c : Coef)
    (h : solve E t u v lat opts = .ok c) (L : ℝ) (hL : RecordLength E t u v opts L) (hpos : L ≠ 0) :
    c.name.Nodup ∧ (∀ n ∈ c.name, n ∈ constitNames) ∧
    (∀ con ∈ catalogue, con.name ∈ c.name ↔ r / (24 * L) ≤ con.df.toReal) ∧
    (0 < r → ∀ con ∈ catalogue, con.name ∈ c.name → con.name ≠ "Z0" ∧ con.kmpr ≠ none) := by
  obtain ⟨opt, p, tn, constit, m, W, rf, full, o, ind, F⟩ := solve_facts R h
  have hq := getOpt_requests _ hnd _ _ F.hopt
  obtain rfl := (prep_recordLength F.prep hq R.ht R.hu R.hv).unique hL
  have hL0 : 0 ≤ p.ed.lor := by
    obtain ⟨ep, tn, -, -, ⟨a, ha, -⟩, h2⟩ := hL
    simpa using h2 a ha a ha
  have hLpos : 0 < p.ed.lor := lt_of_le_of_ne hL0 (Ne.symm hpos)
  have hcon' : constit = .auto := by
    have := F.prep.cons
    rw [hq.constit _ hcon] at this
    exact (Except.ok.inj this).symm
  have hinf' : p.infer = none := by
    have h1 := hq.infer _ hinf
    have h2 := F.prep.hinfer
    rw [← Except.ok.inj (show (.ok PyVal.none : Except PyErr PyVal) = _ from h1)] at h2
    exact (Except.ok.inj h2).symm
  have hsel := F.prep.hsel
  rw [hcon', hinf', fl_div_pos _ _ (by positivity), hq.rmin r hr] at hsel
  obtain ⟨s1, s2, s3, s4⟩ := C15_selection _ _ _ hsel
  have hord := F.solved.order
  rw [F.prep.hopt] at hord
  have hno := readOrder_sortKey oc _ _ hsort (hq.order oc hoc) o hord
  have hperm := F.solved.perm F.prep F.mlen R.argsort hno
  have hname : c.name.Perm (p.sel.lind.map nameAt) := by
    have e1 : c.name = gather p.sel.name ind := by rw [F.solved.result, ← F.solved.name]; rfl
    rw [e1, F.prep.aligned.name]
    apply gather_perm
    rwa [List.length_map]
  have hlt := F.prep.aligned.lt
  have hinj : ∀ i ∈ p.sel.lind, ∀ j < 146, nameAt i = nameAt j → i = j := by
    intro i hi j hj hij
    have h1 : constitNames[i]? = some (nameAt i) := constitNames_nameAt (hlt i hi)
    have h2 : constitNames[j]? = some (nameAt j) := constitNames_nameAt hj
    rw [← get?_constitIndexDict] at h1 h2
    rw [hij, h2] at h1
    exact (Option.some.inj h1).symm
  have hmem : ∀ con ∈ catalogue, con.name ∈ c.name ↔ (r : ℝ) / (24 * p.ed.lor) ≤ con.df.toReal := by
    intro con hc
    obtain ⟨k, hk⟩ := List.mem_iff_getElem?.1 hc
    have hk146 : k < 146 := by
      rw [← catalogue_length]; exact (List.getElem?_eq_some_iff.1 hk).1
    have hnk : nameAt k = con.name := by
      have := constitNames_nameAt hk146
      rw [constitNames_getElem?, hk] at this
      exact (Option.some.inj this).symm
    rw [hname.mem_iff, List.mem_map]
    constructor
    · rintro ⟨i, hi, hni⟩
      have : i = k := hinj i hi k hk146 (by rw [hni, hnk])
      subst this
      obtain ⟨c', hc', hle⟩ := (s3 i).1 hi
      rw [hk] at hc'
      obtain rfl := Option.some.inj hc'
      exact hle
    · intro hle
      exact ⟨k, (s3 k).2 ⟨con, hk, hle⟩, hnk⟩
  refine ⟨?_, ?_, hmem, ?_⟩
  · rw [hname.nodup_iff]
    exact List.Nodup.map_on (fun i hi j hj hij => hinj i hi j (hlt j hj) hij) s1
  · intro n hn
    obtain ⟨k, hk, rfl⟩ := List.mem_map.1 (hname.mem_iff.1 hn)
    exact List.mem_of_getElem? (constitNames_nameAt (hlt k hk))
  · intro hr0 con hc hn
    have h1 := (hmem con hc).1 hn
    have h2 : 0 < con.df.toReal := lt_of_lt_of_le (div_pos (by exact_mod_cast hr0) (by positivity)) h1
    obtain ⟨h3, -⟩ := C15_separation con hc
    constructor
    · intro h0; rw [h3 (.inl h0)] at h2; exact lt_irrefl _ h2
    · intro h0; rw [h3 (.inr h0)] at h2; exact lt_irrefl _ h2

theorem df_nonneg (con : Con) (hc : con ∈ catalogue) : 0 ≤ con.df.toReal := by
  obtain ⟨h1, h2⟩ := C15_separation con hc
  by_cases h0 : con.name = "Z0"
  · rw [h1 (.inl h0)]
  · cases hk : con.kmpr with
    | none => rw [h1 (.inr hk)]
    | some j =>
      obtain ⟨k, -, h3⟩ := h2 h0 j hk
      rw [h3]; exact abs_nonneg _

/-- **C16.** Between two automatic analyses the one with the longer record and the weaker criterion has at least the
constituents of the other. -/
theorem C16_monotone (E E' : Env) (t t' : TimeArg) (u u' : Series) (v v' : Option Series) (lat lat' : Option ℝ)
    (opts opts' : Dict PyVal) (R : Ready E t u v) (R' : Ready E' t' u' v') (hnd : opts.keys.Nodup)
    (hnd' : opts'.keys.Nodup) (hcon : requested opts "constit" = some (.str "auto"))
    (hcon' : requested opts' "constit" = some (.str "auto"))
    (hinf : requested opts "infer" = some .none) (hinf' : requested opts' "infer" = some .none)
    (oc oc' : PyVal) (hoc : requested opts "order_constit" = some oc) (hoc' : requested opts' "order_constit" = some oc')
    (hsort : SortKey oc) (hsort' : SortKey oc') (r r' : ℚ) (hr : requested opts "Rayleigh_min" = some (.num r))
    (hr' : requested opts' "Rayleigh_min" = some (.num r')) (c c' : Coef)
    (h : solve E t u v lat opts = .ok c) (h' : solve E' t' u' v' lat' opts' = .ok c') (L L' : ℝ)
    (hL : RecordLength E t u v opts L) (hL' : RecordLength E' t' u' v' opts' L') (hpos : 0 < L) (hle : L ≤ L')
    (hrr : r' ≤ r) : ∀ n ∈ c.name, n ∈ c'.name := by
  obtain ⟨-, a2, a3, -⟩ := C15_automatic E t u v lat opts R hnd hcon hinf oc hoc hsort r hr c h L hL hpos.ne'
  obtain ⟨-, -, b3, -⟩ := C15_automatic E' t' u' v' lat' opts' R' hnd' hcon' hinf' oc' hoc' hsort' r' hr' c' h' L' hL'
    (lt_of_lt_of_le hpos hle).ne'
  intro n hn
  obtain ⟨con, hc, rfl⟩ := List.mem_map.1 (a2 n hn)
  rw [b3 con hc]
  have h1 := (a3 con hc).1 hn
  have hrr' : (r' : ℝ) ≤ r := by exact_mod_cast hrr
  by_cases hneg : (r' : ℝ) ≤ 0
  · refine le_trans ?_ (df_nonneg con hc)
    exact div_nonpos_of_nonpos_of_nonneg hneg (by linarith)
  · push Not at hneg
    refine le_trans ?_ h1
    calc (r' : ℝ) / (24 * L') ≤ r' / (24 * L) := div_le_div_of_nonneg_left hneg.le (by positivity) (by linarith)
      _ ≤ r / (24 * L) := div_le_div_of_nonneg_right hrr' (by positivity)

/-- Options of the next example. -/
def autoOpts : Dict PyVal :=
  [("conf_int", .str "none"), ("trend", .bool false), ("nodal", .bool false), ("phase", .str "raw"),
   ("order_constit", .str "frequency"), ("epoch", .str "python")]

def autoOpt (twodim : Bool) : Opt := { exOpt twodim with cnstit := .str "auto" }

theorem autoOpt_eq (twodim : Bool) : getOpt autoOpts twodim = .ok (autoOpt twodim) := by cases twodim <;> rfl

theorem auto_returns (E : Env) (xs : List Fl) (mask : List Bool) (u : List Cell) (hl : xs.length = u.length)
    (hne : usable xs u none ≠ []) : ∃ c, solve E ⟨[xs.length], .float xs, mask⟩ ⟨[u.length], u⟩ none (some 45)
      autoOpts = .ok c := by
  refine solve_total E _ _ none 45 autoOpts (autoOpt false) xs .auto .frequency (autoOpt_eq false) rfl rfl rfl rfl rfl
    trivial rfl (.inr rfl) ⟨by simp [hl], rfl, by simp⟩ ?_ ?_ (by simp) ?_ hne
    (fun k => by simp [nodalSingular, autoOpt, exOpt]) (fun h => by simp [autoOpt, exOpt] at h)
  · simp [TimeArg.WF, TimeArr.length]
  · simp [Series.WF]
  · show (Except.ok (xs.map _) : Except PyErr (List Fl)) = _
    congr 1
    exact List.map_id xs

theorem idealReady (t : TimeArg) (u : Series) (v : Option Series) (ht : t.WF) (hu : u.WF)
    (hv : ∀ w, v = some w → w.WF) : Ready idealEnv t u v := ⟨idealLstsq_ok, idealArgsort_ok, ht, hu, hv⟩

/-- One day of data, three samples. -/
def dayT : TimeArg := ⟨[3], .float [.fin 0, .fin 0.5, .fin 1], []⟩
def dayU : Series := ⟨[3], [⟨.fin 1, false⟩, ⟨.fin 0, false⟩, ⟨.fin 2, false⟩]⟩

theorem dayReady : Ready idealEnv dayT dayU none :=
  idealReady _ _ _ (by simp [TimeArg.WF, TimeArr.length, dayT]) (by simp [Series.WF, dayU]) (by simp)

theorem day_length (opts : Dict PyVal) (h : requested opts "epoch" = some (.str "python")) :
    RecordLength idealEnv dayT dayU none opts 1 := by
  refine ⟨_, [.fin 0, .fin 0.5, .fin 1], h, ?_, ?_⟩
  · show (Except.ok (List.map _ _) : Except PyErr (List Fl)) = _
    congr 1
  · have e1 : recordTimes [.fin 0, .fin 0.5, .fin 1] dayU none = [0, 0.5, 1] := by
      simp [recordTimes, finiteTimes, Fl.toReal?, usable, dayU, goodSamples, Cell.value?]
    rw [e1]
    refine ⟨⟨0, by simp, 1, by simp, by norm_num⟩, ?_⟩
    intro a ha b hb
    simp only [List.mem_cons, List.not_mem_nil, or_false] at ha hb
    rcases ha with rfl | rfl | rfl <;> rcases hb with rfl | rfl | rfl <;> norm_num

theorem exTable :
    (catalogue.any fun c => c.name == "M2" && decide ((2 : ℤ) ^ c.df.exp ≤ 24 * c.df.num)) = true ∧
    (catalogue.any fun c => c.name == "Z0") = true ∧
    (catalogue.any fun c => c.name == "SA" && decide (24 * c.df.num < (2 : ℤ) ^ c.df.exp)) = true := by
  decide +kernel

/-- Non-vacuity of C15 (and C16): one day of data selects M2 but neither Z0 nor SA. -/
example : ∃ c, solve idealEnv dayT dayU none (some 45) autoOpts = .ok c ∧ "M2" ∈ c.name ∧ "Z0" ∉ c.name ∧
    "SA" ∉ c.name := by
  obtain ⟨c, hc⟩ := auto_returns idealEnv [.fin 0, .fin 0.5, .fin 1] [] dayU.data rfl
    (by simp [usable, goodSamples, Fl.toReal?, Cell.value?, dayU])
  obtain ⟨-, -, h3, h4⟩ := C15_automatic idealEnv dayT dayU none (some 45) autoOpts dayReady (by decide) rfl rfl
    (.str "frequency") rfl (.inr ⟨_, rfl⟩) 1 rfl c hc 1 (day_length _ rfl) one_ne_zero
  obtain ⟨a, ha, ha1⟩ := List.any_eq_true.1 exTable.1
  obtain ⟨b, hb, hb1⟩ := List.any_eq_true.1 exTable.2.1
  obtain ⟨d, hd, hd1⟩ := List.any_eq_true.1 exTable.2.2
  simp only [Bool.and_eq_true, beq_iff_eq, decide_eq_true_eq] at ha1 hb1 hd1
  refine ⟨c, hc, ?_, ?_, ?_⟩
  · rw [← ha1.1]
    refine (h3 a ha).2 ?_
    unfold Dy.toReal
    have : (2 : ℝ) ^ a.df.exp ≤ 24 * a.df.num := by exact_mod_cast ha1.2
    rw [le_div_iff₀ (by positivity)]
    push_cast
    linarith
  · intro h
    rw [← hb1] at h
    exact (h4 one_pos b hb h).1 hb1
  · intro h
    rw [← hd1.1] at h
    have h5 := (h3 d hd).1 h
    unfold Dy.toReal at h5
    have : 24 * (d.df.num : ℝ) < (2 : ℝ) ^ d.df.exp := by exact_mod_cast hd1.2
    rw [le_div_iff₀ (by positivity)] at h5
    push_cast at h5
    linarith

theorem readConstit_list (k : SeqKind) (hk : k ≠ .ndarray) (ns : List String) :
    readConstit (.seq k (ns.map .str)) = .ok (.names ns) := by
  have h1 : (PyVal.seq k (ns.map .str)).eqStr "auto" = .ok false := by
    cases k
    · rfl
    · rfl
    · exact absurd rfl hk
  have h2 : (PyVal.seq k (ns.map .str)).iterNames = .ok ns := by
    unfold PyVal.iterNames
    rw [mapM_ok]
    clear h1 hk
    induction ns with
    | nil => exact .nil
    | cons a l ih => exact .cons rfl ih
  unfold readConstit
  rw [h1, h2]
  rfl

theorem readOrder_list (k : SeqKind) (hk : k ≠ .ndarray) (ns : List String) :
    readOrder (.seq k (ns.map .str)) = .ok (.names ns) := by
  have h1 : ∀ s, (PyVal.seq k (ns.map .str)).eqStr s = .ok false := by
    intro s
    cases k
    · rfl
    · rfl
    · exact absurd rfl hk
  have h2 : (PyVal.seq k (ns.map .str)).iterNames = .ok ns := by
    unfold PyVal.iterNames
    rw [mapM_ok]
    clear h1 hk
    induction ns with
    | nil => exact .nil
    | cons a l ih => exact .cons rfl ih
  unfold readOrder
  rw [h1, h1, h1, h2]
  rfl

/-- **C17.** An explicit list of constituents is honoured: with a sorting order the result has exactly the names
given, in some order and as often as given; with the list itself as order the names are that list. -/
theorem C17_honoured (E : Env) (t : TimeArg) (u : Series) (v : Option Series) (lat : Option ℝ) (opts : Dict PyVal)
    (R : Ready E t u v) (hnd : opts.keys.Nodup) (k : SeqKind) (hk : k ≠ .ndarray) (ns : List String)
    (hcon : requested opts "constit" = some (.seq k (ns.map .str)))
    (hinf : requested opts "infer" = some .none) (oc : PyVal) (hoc : requested opts "order_constit" = some oc)
    (c : Coef) (h : solve E t u v lat opts = .ok c) :
    (SortKey oc → c.name.Perm ns) ∧ (∀ k', k' ≠ .ndarray → oc = .seq k' (ns.map .str) → c.name = ns) := by
  obtain ⟨opt, p, tn, constit, m, W, rf, full, o, ind, F⟩ := solve_facts R h
  have hq := getOpt_requests _ hnd _ _ F.hopt
  have hord := F.solved.order
  rw [F.prep.hopt] at hord
  have hv := hq.order oc hoc
  constructor
  · intro hsort
    have hno := readOrder_sortKey oc _ _ hsort hv o hord
    have hperm := F.solved.perm F.prep F.mlen R.argsort hno
    have hcon' : constit = .names ns := by
      have := F.prep.cons
      rw [hq.constit _ hcon, readConstit_list k hk] at this
      exact (Except.ok.inj this).symm
    have hinf' : p.infer = none := by
      have h1 := hq.infer _ hinf
      have h2 := F.prep.hinfer
      rw [← Except.ok.inj (show (.ok PyVal.none : Except PyErr PyVal) = _ from h1)] at h2
      exact (Except.ok.inj h2).symm
    have hsel := F.prep.hsel
    rw [hcon', hinf'] at hsel
    have hns : p.sel.name = ns := by
      obtain ⟨c1, c2⟩ := C17_selection p.ed.tref ((Fl.fin (opt.rmin : ℝ)).div (.fin (24 * p.ed.lor))) ns
      by_cases hall : ∀ n ∈ ns, n ∈ constitNames
      · obtain ⟨s, hs, hn⟩ := c1 hall
        rw [hs] at hsel
        rw [← Except.ok.inj hsel]
        exact hn
      · push Not at hall
        rw [c2 hall] at hsel
        simp at hsel
    have e1 : c.name = gather p.sel.name ind := by rw [F.solved.result, ← F.solved.name]; rfl
    rw [e1, ← hns]
    apply gather_perm
    rwa [F.prep.aligned.name, List.length_map]
  · rintro k' hk' rfl
    have := Except.ok.inj (show (.ok (PyVal.seq k' (ns.map .str)) : Except PyErr PyVal) = _ from hv)
    rw [← this, readOrder_list k' hk'] at hord
    exact F.solved.names ns (Except.ok.inj hord).symm

/-- **C17**, unknown names: KeyError, and nothing is returned. -/
theorem C17_unknown (E : Env) (t : TimeArg) (u : Series) (v : Option Series) (la : ℝ) (opts : Dict PyVal)
    (hnd : opts.keys.Nodup) (k : SeqKind) (hk : k ≠ .ndarray) (ns : List String) (hbad : ∃ n ∈ ns, n ∉ constitNames)
    (hcon : requested opts "constit" = some (.seq k (ns.map .str)))
    (hinf : requested opts "infer" = some .none) (opt : Opt) (hopt : getOpt opts v.isSome = .ok opt)
    (hs : GoodShapes t u v) (ht : t.WF) (hu : u.WF) (hv : ∀ w, v = some w → w.WF) (tn : List Fl)
    (htn : normalizeTime E.dt64 t.arr opt.epoch = .ok tn) (hne : usable tn u.data (v.map Series.data) ≠ []) :
    solve E t u v (some la) opts = .error .keyError := by
  have hq := getOpt_requests _ hnd _ _ hopt
  have hlen : SameLength tn u.data (v.map Series.data) := by
    have h1 := normalizeTime_length _ _ _ _ htn
    obtain ⟨hs1, -, hvs⟩ := hs
    unfold TimeArg.WF at ht
    unfold Series.WF at hu
    refine ⟨by rw [h1, ← ht, ← hu, hs1], fun w hw => ?_⟩
    cases v with
    | none => simp at hw
    | some v =>
      simp only [Option.map_some, Option.some.injEq] at hw; subst hw
      have := hv v rfl
      unfold Series.WF at this
      rw [← hu, ← this, hvs v rfl]
  obtain ⟨ed, hed⟩ := editData_total tn u.data (v.map Series.data) hlen hne
  have hinit : stageInit E opt t u v (some la) = .ok (ed, la) :=
    (stageInit_ok _ _ _ _ _ _ _ _).2 ⟨tn, rfl, hs, htn, hed⟩
  have h1 := hq.infer _ hinf
  have h2 : opt.infer = .none := (Except.ok.inj (show (.ok PyVal.none : Except PyErr PyVal) = _ from h1)).symm
  have hsel : stageSelect opt ed = .error .keyError := by
    unfold stageSelect
    rw [hq.constit _ hcon, readConstit_list k hk, h2]
    show (do let sel ← cnstitsel _ _ (.names ns) none; _) = _
    rw [(C17_selection _ _ ns).2 hbad]
    rfl
  unfold solve stagePrep
  rw [hopt]
  simp only [ok_bind, hinit, hsel, error_bind]

/-- Non-vacuity of C17. -/
example : ∃ c, solve idealEnv dayT dayU none (some 45) exOpts = .ok c ∧ c.name = ["M2"] := by
  obtain ⟨c, hc⟩ := ex_returns idealEnv [.fin 0, .fin 0.5, .fin 1] [] dayU.data rfl
    (by simp [usable, goodSamples, Fl.toReal?, Cell.value?, dayU])
  exact ⟨c, hc, List.perm_singleton.1 ((C17_honoured idealEnv dayT dayU none (some 45) exOpts dayReady (by decide)
    .list (by simp) ["M2"] rfl rfl (.str "frequency") rfl c hc).1 (.inr ⟨_, rfl⟩))⟩

example : solve idealEnv dayT dayU none (some 45)
    [("constit", .seq .list [.str "M2", .str "N0PE"]), ("epoch", .str "python")] = .error .keyError :=
  C17_unknown idealEnv dayT dayU none 45 _ (by decide) .list (by simp) ["M2", "N0PE"]
    ⟨"N0PE", by simp, by decide +kernel⟩ rfl rfl _ rfl ⟨rfl, rfl, by simp⟩ dayReady.ht dayReady.hu dayReady.hv
    [.fin 0, .fin 0.5, .fin 1] (by
      show (Except.ok (List.map _ _) : Except PyErr (List Fl)) = _
      congr 1) (by simp [usable, goodSamples, Fl.toReal?, Cell.value?, dayU])

end

end UTide.Props
