import Verif.Lemmas.Selection
import Verif.Lemmas.Basis

/-!
# C12, C15-C18, C44, C67: catalogue and constituent selection

The statements about the `coef` that `solve` finally returns (after re-ordering) are in `SolveProps`;
here are those about the selection step itself.
-/

namespace UTide.Props

noncomputable section

/-! ## C67 -/

/-- **C67.** `constit_index_dict` maps exactly the catalogue names to their positions, one to one. -/
theorem C67_index_dict :
    constitIndexDict.keys = constitNames ∧ constitNames.Nodup ∧ constitNames.length = 146 ∧
    (∀ n i, constitIndexDict.get? n = some i ↔ constitNames[i]? = some n) ∧
    (∀ n m i, constitIndexDict.get? n = some i → constitIndexDict.get? m = some i → n = m) := by
  refine ⟨?_, names_nodup, constitNames_length, get?_constitIndexDict, ?_⟩
  · unfold constitIndexDict
    rw [keys_update_firsts, zipIdx_keys]
    have : ∀ l : List String, l.Nodup → firsts l = l := by
      intro l hl
      induction l with
      | nil => rfl
      | cons a l ih =>
        rw [List.nodup_cons] at hl
        rw [firsts, ih hl.2, List.filter_eq_self.2]
        intro b hb
        rw [bne_iff_ne]
        rintro rfl
        exact hl.1 hb
    rw [this _ names_nodup]
    simp [Dict.keys]
  · intro n m i hn hm
    rw [get?_constitIndexDict] at hn hm
    rw [hn] at hm
    exact Option.some.inj hm

theorem bunch_of_table {V : Type} (f : Con → V) :
    (Bunch.mk [catalogue.map fun c => (c.name, f c)] []).keys = constitNames ∧
    ∀ c ∈ catalogue, (Bunch.mk [catalogue.map fun c => (c.name, f c)] []).get? c.name = some (f c) := by
  have hk : Dict.keys (catalogue.map fun c => (c.name, f c)) = constitNames := by
    unfold Dict.keys constitNames; rw [List.map_map]; rfl
  have hnd : (Dict.keys (catalogue.map fun c => (c.name, f c))).Nodup := by rw [hk]; exact names_nodup
  unfold Bunch.mk
  rw [Dict.update_nil]
  simp only [List.foldl_cons, List.foldl_nil]
  constructor
  · rw [keys_update_firsts, hk]
    have : ∀ l : List String, l.Nodup → firsts l = l := by
      intro l hl
      induction l with
      | nil => rfl
      | cons a l ih =>
        rw [List.nodup_cons] at hl
        rw [firsts, ih hl.2, List.filter_eq_self.2]
        intro b hb
        rw [bne_iff_ne]
        rintro rfl
        exact hl.1 hb
    rw [this _ names_nodup]
    simp [Dict.keys]
  · intro c hc
    rw [Dict.get?_update _ _ hnd, Dict.get?_nil, Option.or_none, Dict.get?_iff_mem _ hnd]
    exact List.mem_map.2 ⟨c, hc, rfl⟩

/-- Only `Z0` has frequency 0, and all others are positive. -/
theorem freq_pos_table :
    (catalogue.all fun c => if c.name == "Z0" then c.freq.num == 0 else decide (0 < c.freq.num)) = true := by
  decide +kernel

/-- **C67.** `cycles_per_hour` and `hours_per_cycle` have the catalogue names as keys, the first holds the
catalogue frequencies, the second their reciprocals, infinite for `Z0` and finite for all others. -/
theorem C67_frequencies :
    cyclesPerHour.keys = constitNames ∧ hoursPerCycle.keys = constitNames ∧
    ∀ n ∈ constitNames, ∃ c ∈ catalogue, c.name = n ∧ cyclesPerHour.get? n = some c.freq.toReal ∧
      (n = "Z0" → c.freq.toReal = 0 ∧ hoursPerCycle.get? n ≠ some (Fl.fin 0) ∧
        ∀ x, hoursPerCycle.get? n ≠ some (Fl.fin x)) ∧
      (n ≠ "Z0" → ∃ T, hoursPerCycle.get? n = some (Fl.fin T) ∧ 0 < T ∧ T * c.freq.toReal = 1) := by
  obtain ⟨h1, h2⟩ := bunch_of_table fun c => c.freq.toReal
  obtain ⟨h3, h4⟩ := bunch_of_table fun c => Fl.fin 1 / Fl.fin c.freq.toReal
  refine ⟨h1, h3, ?_⟩
  intro n hn
  obtain ⟨c, hc, rfl⟩ := List.mem_map.1 hn
  have hpos := List.all_eq_true.1 freq_pos_table c hc
  have hdiv : ∀ a b, Fl.fin a / Fl.fin b =
      if b = 0 then (if a = 0 then Fl.nan else if 0 < a then Fl.pinf else Fl.ninf) else Fl.fin (a / b) :=
    fun a b => rfl
  refine ⟨c, hc, rfl, h2 c hc, ?_, ?_⟩
  · intro hz
    simp only [hz, beq_self_eq_true, if_true, beq_iff_eq] at hpos
    have h0 : c.freq.toReal = 0 := by unfold Dy.toReal; rw [hpos]; simp
    have := h4 c hc
    rw [hdiv, h0, if_pos rfl] at this
    simp only [one_ne_zero, if_false, zero_lt_one, if_true] at this
    refine ⟨h0, ?_, fun x => ?_⟩ <;>
    · intro h
      have h' := h
      unfold hoursPerCycle at h'
      rw [this] at h'
      cases h'
  · intro hz
    simp only [beq_iff_eq, hz, if_false, decide_eq_true_eq] at hpos
    have h0 : 0 < c.freq.toReal := by
      unfold Dy.toReal
      have : (0 : ℝ) < c.freq.num := by exact_mod_cast hpos
      positivity
    have := h4 c hc
    rw [hdiv, if_neg h0.ne'] at this
    exact ⟨_, this, by positivity, by field_simp⟩

/-- Non-vacuity. -/
example : "M2" ∈ constitNames ∧ "Z0" ∈ constitNames := by decide +kernel

/-! ## C15, C16 -/

/-- The catalogue's separation column: for every constituent with a comparison constituent `df` is exactly
the distance of the two frequencies; it is 0 for `Z0` and for constituents without comparison constituent. -/
def dfTable : Bool :=
  catalogue.all fun c =>
    if c.name == "Z0" then c.df.num == 0
    else match c.kmpr with
      | none => c.df.num == 0
      | some j => match catalogue[j]? with
        | none => false
        | some k =>
          decide (c.df.num * 2 ^ (c.freq.exp + k.freq.exp) =
            |c.freq.num * 2 ^ k.freq.exp - k.freq.num * 2 ^ c.freq.exp| * 2 ^ c.df.exp)

theorem dfTable_true : dfTable = true := by decide +kernel

/-- **C15, what `df` means.** -/
theorem C15_separation (c : Con) (hc : c ∈ catalogue) :
    (c.name = "Z0" ∨ c.kmpr = none → c.df.toReal = 0) ∧
    (c.name ≠ "Z0" → ∀ j, c.kmpr = some j → ∃ k, catalogue[j]? = some k ∧
      c.df.toReal = |c.freq.toReal - k.freq.toReal|) := by
  have h := List.all_eq_true.1 (show _ = true from dfTable_true) c hc
  constructor
  · rintro (h0 | h0)
    · simp only [h0, beq_self_eq_true, if_true, beq_iff_eq] at h
      unfold Dy.toReal; rw [h]; simp
    · simp only [h0] at h
      split at h <;> (simp only [beq_iff_eq] at h; unfold Dy.toReal; rw [h]; simp)
  · intro hz j hj
    simp only [hz, beq_iff_eq, if_false, hj] at h
    split at h
    · cases h
    · rename_i k hk
      refine ⟨k, hk, ?_⟩
      rw [decide_eq_true_eq] at h
      unfold Dy.toReal
      have h' : (c.df.num : ℝ) * 2 ^ (c.freq.exp + k.freq.exp) =
          |(c.freq.num : ℝ) * 2 ^ k.freq.exp - k.freq.num * 2 ^ c.freq.exp| * 2 ^ c.df.exp := by
        exact_mod_cast h
      rw [div_sub_div _ _ (by positivity) (by positivity), abs_div,
        abs_of_pos (show (0 : ℝ) < 2 ^ c.freq.exp * 2 ^ k.freq.exp by positivity),
        div_eq_div_iff (by positivity) (by positivity), ← pow_add, h', mul_comm (k.freq.num : ℝ)]

/-- Frequency resolution used by `solve`: `Rayleigh_min` over the record length in hours, if the record has
a length. -/
theorem fl_le_fin (a b : ℝ) : (Fl.fin a ≤ Fl.fin b) ↔ a ≤ b := Iff.rfl

/-- **C15, selection step**: with `constit='auto'` and no inference the selected positions are exactly the
catalogue positions whose separation reaches `minres`, each once (in catalogue order). -/
theorem C15_selection (tref minres : ℝ) (s : Sel) (h : cnstitsel tref (Fl.fin minres) .auto none = .ok s) :
    s.lind.Nodup ∧ s.lind.Pairwise (· < ·) ∧
    (∀ i, i ∈ s.lind ↔ ∃ c, catalogue[i]? = some c ∧ minres ≤ c.df.toReal) ∧
    (0 < minres → ∀ i ∈ s.lind, ∀ c, catalogue[i]? = some c → c.name ≠ "Z0" ∧ c.kmpr ≠ none) := by
  obtain ⟨h1, -⟩ := cnstitsel_none _ _ _ _ h
  have h1 := Except.ok.inj h1
  rw [← h1]
  refine ⟨autoLind_nodup _, autoLind_sorted _, fun i => ?_, ?_⟩
  · rw [mem_autoLind]; rfl
  · intro hpos i hi c hc
    rw [mem_autoLind] at hi
    obtain ⟨c', hc', hle⟩ := hi
    rw [hc] at hc'
    cases hc'
    rw [fl_le_fin] at hle
    have hsep := (C15_separation c (List.mem_of_getElem? hc)).1
    constructor
    · intro e; have := hsep (.inl e); linarith
    · intro e; have := hsep (.inr e); linarith

/-- The selection step never fails for `constit='auto'` without inference. -/
theorem C15_total (tref : ℝ) (minres : Fl) : ∃ s, cnstitsel tref minres .auto none = .ok s :=
  ⟨_, rfl⟩

/-- **C16, selection step**: a smaller `minres` selects at least the same constituents. -/
theorem C16_selection (tref tref' minres minres' : ℝ) (hle : minres' ≤ minres) (s s' : Sel)
    (h : cnstitsel tref (Fl.fin minres) .auto none = .ok s)
    (h' : cnstitsel tref' (Fl.fin minres') .auto none = .ok s') : ∀ i ∈ s.lind, i ∈ s'.lind := by
  intro i hi
  rw [(C15_selection _ _ _ h).2.2.1] at hi
  rw [(C15_selection _ _ _ h').2.2.1]
  obtain ⟨c, hc, hm⟩ := hi
  exact ⟨c, hc, hle.trans hm⟩

/-- Non-vacuity: with a resolution of 1/24 cycles per hour over a day... `M2` (separation 0.0805 from `Z0`)
is selected, `SA` is not. -/
example (tref : ℝ) : ∃ s, cnstitsel tref (Fl.fin (1 / 24)) .auto none = .ok s ∧ 47 ∈ s.lind ∧ 1 ∉ s.lind := by
  refine ⟨_, rfl, ?_, ?_⟩
  · rw [(C15_selection tref _ _ rfl).2.2.1]
    refine ⟨_, rfl, ?_⟩
    unfold Dy.toReal; norm_num
  · rw [(C15_selection tref _ _ rfl).2.2.1]
    rintro ⟨c, hc, hm⟩
    cases hc
    unfold Dy.toReal at hm; norm_num at hm

/-! ## C17 -/

/-- **C17, selection step**: an explicit list is taken over literally. -/
theorem C17_selection (tref : ℝ) (minres : Fl) (ns : List String) :
    ((∀ n ∈ ns, n ∈ constitNames) → ∃ s, cnstitsel tref minres (.names ns) none = .ok s ∧ s.name = ns) ∧
    ((∃ n ∈ ns, n ∉ constitNames) → cnstitsel tref minres (.names ns) none = .error .keyError) := by
  constructor
  · intro hall
    obtain ⟨r, hr⟩ := mapM_total constitIndex ns fun n hn => by
      obtain ⟨i, hi⟩ := List.mem_iff_getElem?.1 (hall n hn)
      exact ⟨i, (constitIndex_ok n i).2 hi⟩
    have : cnstitsel tref minres (.names ns) none = .ok
        { nrName := r.map nameAt, nrLind := r, nrFrq := r.map (linFreqs tref), refs := [],
          nNR := (r.map (linFreqs tref)).length, nR := 0, nI := 0,
          name := r.map nameAt, lind := r, frq := r.map (linFreqs tref) } := by
      unfold cnstitsel startLind removeRI
      dsimp only
      rw [hr]
      rfl
    refine ⟨_, this, ?_⟩
    dsimp only
    rw [mapM_map constitIndex nameAt id ns r hr fun a _ b hb => nameAt_constitIndex hb, List.map_id]
  · rintro ⟨n, hn, hnot⟩
    have hmm : ns.mapM constitIndex = .error .keyError := by
      cases hm : ns.mapM constitIndex with
      | ok r =>
        obtain ⟨i, -, hi⟩ := mapM_mem _ _ _ hm n hn
        exact absurd (List.mem_of_getElem? ((constitIndex_ok n i).1 hi)) hnot
      | error e =>
        obtain ⟨a, -, he⟩ := mapM_error _ _ _ hm
        rw [((constitIndex_error a e).1 he).2]
    unfold cnstitsel startLind
    dsimp only
    rw [hmm]
    rfl

/-- Non-vacuity. -/
example (tref : ℝ) : (∃ s, cnstitsel tref .nan (.names ["M2", "K1"]) none = .ok s ∧ s.name = ["M2", "K1"]) ∧
    cnstitsel tref .nan (.names ["M2", "XX"]) none = .error .keyError :=
  ⟨(C17_selection tref .nan _).1 (by decide +kernel), (C17_selection tref .nan _).2
    ⟨"XX", by decide, by decide +kernel⟩⟩

/-! ## C18 -/

/-- **C18, selection step**: position by position, `lind` is the catalogue index of `name` and `frq` the
frequency of that catalogue entry at the reference time. -/
theorem C18_selection (tref : ℝ) (minres : Fl) (c : Constit) (inf : Option InferSpec) (s : Sel)
    (h : cnstitsel tref minres c inf = .ok s) :
    s.name.length = s.lind.length ∧ s.frq.length = s.lind.length ∧
    ∀ i (hi : i < s.lind.length), ∃ n f, s.name[i]? = some n ∧ s.frq[i]? = some f ∧
      constitIndexDict.get? n = some s.lind[i] ∧ f = linFreqs tref s.lind[i] := by
  have ha := cnstitsel_aligned _ _ _ _ _ h
  refine ⟨by rw [ha.name, List.length_map], by rw [ha.frq, List.length_map], fun i hi => ?_⟩
  refine ⟨nameAt s.lind[i], linFreqs tref s.lind[i], ?_, ?_, ?_, rfl⟩
  · rw [ha.name]; simp [hi]
  · rw [ha.frq]; simp [hi]
  · rw [get?_constitIndexDict]
    exact constitNames_nameAt (ha.lt _ (List.getElem_mem hi))

/-! ## C44 -/

/-- **C44.** With `phase='raw'`, for every constituent produced by the selection step the shortcut used when
`nodal=False` (argument `24 (t - tref) frq` from the frequency handed in) and the general routine `FUV` give
the same astronomical argument; hence the same basis function when there is no nodal correction. -/
theorem C44_raw_paths_agree (tref : ℝ) (minres : Fl) (c : Constit) (inf : Option InferSpec) (s : Sel)
    (h : cnstitsel tref minres c inf = .ok s) (i : ℕ) (hi : i < s.lind.length) (hf : i < s.frq.length)
    (fl : Flags) (hg : fl.gwchnone = true) (lat t : ℝ) :
    gwV fl tref t s.lind[i] = 24 * (t - tref) * s.frq[i] ∧
    (fl.nodsatnone = true →
      utE fl tref lat t s.frq[i] s.lind[i] =
        (nodF fl tref lat t s.lind[i] : ℂ) * Complex.exp (2 * Real.pi * Complex.I *
          (nodU fl tref lat t s.lind[i] + gwV fl tref t s.lind[i] : ℝ))) := by
  have ha := cnstitsel_aligned _ _ _ _ _ h
  have hfr : s.frq[i] = linFreqs tref s.lind[i] := by
    have h1 : s.frq[i]? = some (linFreqs tref s.lind[i]) := by rw [ha.frq]; simp [hi]
    rw [List.getElem?_eq_getElem hf] at h1
    exact Option.some.inj h1
  constructor
  · unfold gwV; rw [hg, hfr]; rfl
  · intro _
    rw [hfr, utE_eq_gen]
    unfold utEgen cis
    congr 2; ring

/-! ## C12 -/

/-- The distinct elements of a list in order of first appearance. -/
def inOrderOfFirstAppearance (l : List String) : List String :=
  (l.zipIdx.filter fun p => decide (p.1 ∉ l.take p.2)).map Prod.fst

theorem firsts_eq (l : List String) : firsts l = inOrderOfFirstAppearance l := by
  have key : ∀ (l pre : List String), (firsts l).filter (fun a => decide (a ∉ pre)) =
      ((l.zipIdx pre.length).filter fun p => decide (p.1 ∉ (pre ++ l).take p.2)).map Prod.fst := by
    intro l
    induction l with
    | nil => intro pre; simp [firsts]
    | cons a l ih =>
      intro pre
      have ih' := ih (pre ++ [a])
      rw [List.length_append, List.length_singleton, List.append_assoc, List.singleton_append] at ih'
      rw [List.zipIdx_cons, List.filter_cons, firsts, List.filter_cons]
      have htake : (pre ++ a :: l).take pre.length = pre := by simp
      rw [htake]
      have hf : ((firsts l).filter fun b => b != a).filter (fun b => decide (b ∉ pre)) =
          (firsts l).filter fun b => decide (b ∉ pre ++ [a]) := by
        rw [List.filter_filter]
        refine List.filter_congr fun b _ => ?_
        by_cases h1 : b ∈ pre <;> by_cases h2 : b = a <;> simp [h1, h2]
      rw [hf, ih']
      split <;> simp
  have := key l []
  simpa [inOrderOfFirstAppearance] using this

/-- The inferred names whose own reference is `r`, in the order the caller wrote them. -/
def inferredOf (sp : InferSpec) (r : String) : List String :=
  ((sp.reference.zip sp.inferred).filter fun p => r == p.1).map Prod.snd

theorem inf_names (sp : InferSpec) (tref : ℝ) (hlen : sp.inferred.length = sp.reference.length)
    (n : String) (r : RefCon) (h : mkRef sp tref n = .ok r) :
    r.inf.map InfCon.name = inferredOf sp n := by
  obtain ⟨-, -, -, h4⟩ := mkRef_ok _ _ _ _ h
  unfold inferredOf
  rw [← refPositions_map _ _ hlen]
  rw [mapM_ok] at h4
  generalize refPositions sp.reference n = ps at h4
  generalize r.inf = rs at h4
  induction h4 with
  | nil => rfl
  | cons hab _ ih =>
    obtain ⟨a, ph, -, -, -, -, -, hn, -⟩ := mkInf_ok _ _ _ _ hab
    rw [List.map_cons, List.filterMap_cons, hn, ih]

/-- **C12.** Layout of `coef.name` with inference (before re-ordering): non-reference constituents, then each
distinct reference once in order of first appearance, then the inferred ones grouped by reference. `name`,
`aux.frq`, `aux.lind` have length `nNR + nR + nI`, and no reference or inferred constituent is also a
non-reference constituent: the latter are those of the requested ones that are neither. -/
theorem C12_layout (tref : ℝ) (minres : Fl) (c : Constit) (sp : InferSpec)
    (hlen : sp.inferred.length = sp.reference.length) (s : Sel)
    (h : cnstitsel tref minres c (some sp) = .ok s) :
    s.name = s.nrName ++ inOrderOfFirstAppearance sp.reference ++
      (inOrderOfFirstAppearance sp.reference).flatMap (inferredOf sp) ∧
    s.name.length = s.nNR + s.nR + s.nI ∧ s.lind.length = s.nNR + s.nR + s.nI ∧
    s.frq.length = s.nNR + s.nR + s.nI ∧
    (∀ n ∈ s.nrName, n ∉ sp.reference ∧ n ∉ sp.inferred) ∧
    ∃ s0, cnstitsel tref minres c none = .ok s0 ∧
      s.nrName = s0.name.filter fun n => decide (n ∉ sp.reference ∧ n ∉ sp.inferred) := by
  have ha := cnstitsel_aligned _ _ _ _ _ h
  obtain ⟨l0, hl0, ⟨p, hp, hp'⟩, hk, hnI, hrefs, hname⟩ := cnstitsel_some _ _ _ _ _ h
  have hl0lt := (startLind_ok _ _ _ hl0).1
  have hinf : (s.refs.flatMap fun r => r.inf.map InfCon.name) =
      (firsts sp.reference).flatMap (inferredOf sp) := by
    rw [mapM_ok] at hrefs
    generalize firsts sp.reference = fs at hrefs
    generalize s.refs = rs at hrefs
    induction hrefs with
    | nil => rfl
    | cons hab _ ih => rw [List.flatMap_cons, List.flatMap_cons, inf_names sp tref hlen _ _ hab, ih]
  have hlenI : ((firsts sp.reference).flatMap (inferredOf sp)).length = sp.inferred.length := by
    have hperm := (refPositions_flatMap_perm sp.reference).length_eq
    rw [List.length_range] at hperm
    rw [hlen, ← hperm]
    simp only [List.length_flatMap]
    congr 1
    refine List.map_congr_left fun n _ => ?_
    unfold inferredOf
    rw [← refPositions_map _ _ hlen]
    have : ∀ l : List ℕ, (∀ i ∈ l, i < sp.inferred.length) →
        (l.filterMap fun i => sp.inferred[i]?).length = l.length := by
      intro l hl
      induction l with
      | nil => rfl
      | cons a l ih =>
        rw [List.filterMap_cons, List.getElem?_eq_getElem (hl a (by simp)), List.length_cons,
          List.length_cons, ih fun i hi => hl i (List.mem_cons_of_mem _ hi)]
    apply this
    intro i hi
    rw [mem_refPositions] at hi
    rw [hlen]
    exact (List.getElem?_eq_some_iff.1 hi).1
  have hlenName : s.name.length = s.nNR + s.nR + s.nI := by
    rw [hname, hinf, List.length_append, List.length_append, hlenI, hnI, ha.nNR, ha.nR,
      mapM_length _ _ _ hrefs, ha.nrName, List.length_map]
  have hll : s.name.length = s.lind.length := by rw [ha.name, List.length_map]
  have hlf : s.frq.length = s.lind.length := by rw [ha.frq, List.length_map]
  refine ⟨?_, hlenName, by omega, by omega, ?_, ?_⟩
  · rw [hname, hinf, firsts_eq]
  · intro n hn
    rw [ha.nrName, List.mem_map] at hn
    obtain ⟨i, hi, rfl⟩ := hn
    rw [hp, List.mem_filter] at hi
    have := (hp' i (hl0lt i hi.1)).1 hi.2
    rw [List.mem_append, not_or] at this
    exact ⟨this.2, this.1⟩
  · refine ⟨⟨l0.map nameAt, l0, l0.map (linFreqs tref), [], (l0.map (linFreqs tref)).length, 0, 0,
      l0.map nameAt, l0, l0.map (linFreqs tref)⟩, ?_, ?_⟩
    · unfold cnstitsel removeRI
      rw [hl0]
      rfl
    · rw [ha.nrName, hp]
      dsimp only
      rw [List.filter_map]
      congr 1
      refine List.filter_congr fun i hi => ?_
      have := hp' i (hl0lt i hi)
      rw [List.mem_append, not_or] at this
      simp only [Function.comp_apply]
      rw [Bool.eq_iff_iff, this, decide_eq_true_eq, and_comm]

/-- Non-vacuity: two references, interleaved. -/
example : inOrderOfFirstAppearance ["S2", "K1", "S2"] = ["S2", "K1"] ∧
    (["S2", "K1"]).flatMap (inferredOf ⟨["K2", "P1", "T2"], ["S2", "K1", "S2"], [1, 1, 1], [0, 0, 0], false⟩) =
      ["K2", "T2", "P1"] := by
  decide +kernel

/-- A valid inference specification with known names is always accepted by the selection step. -/
theorem C12_total (tref : ℝ) (minres : Fl) (c : Constit) (sp : InferSpec)
    (hlen : sp.inferred.length = sp.reference.length)
    (hamp : sp.amp.length = sp.inferred.length ∨ sp.amp.length = 2 * sp.inferred.length)
    (hph : sp.phase.length = sp.amp.length)
    (hc : ∀ ns, c = .names ns → ∀ n ∈ ns, n ∈ constitNames)
    (hn : ∀ n ∈ sp.inferred ++ sp.reference, n ∈ constitNames) :
    ∃ s, cnstitsel tref minres c (some sp) = .ok s := by
  have hidx : ∀ n ∈ constitNames, ∃ i, constitIndex n = .ok i := fun n hn => by
    obtain ⟨i, hi⟩ := List.mem_iff_getElem?.1 hn
    exact ⟨i, (constitIndex_ok n i).2 hi⟩
  obtain ⟨l0, hl0⟩ : ∃ l0, startLind minres c = .ok l0 := by
    cases c with
    | auto => exact ⟨_, rfl⟩
    | names ns => exact mapM_total _ _ fun n hm => hidx n (hc ns rfl n hm)
  obtain ⟨ri, hri⟩ := mapM_total constitIndex (sp.inferred ++ sp.reference) fun n hm => hidx n (hn n hm)
  obtain ⟨refs, hrefs⟩ : ∃ r, (allRefs sp.reference).mapM (mkRef sp tref) = .ok r := by
    refine mapM_total _ _ fun n hm => ?_
    rw [allRefs_eq, mem_firsts] at hm
    obtain ⟨i, hi⟩ := hidx n (hn n (by simp [hm]))
    obtain ⟨inf, hinf⟩ : ∃ r, (refPositions sp.reference n).mapM (mkInf sp tref) = .ok r := by
      refine mapM_total _ _ fun j hj => ?_
      rw [mem_refPositions] at hj
      have hj' := (List.getElem?_eq_some_iff.1 hj).1
      obtain ⟨k, hk⟩ := hidx (sp.inferred[j]'(by omega)) (hn _ (by simp))
      have hg : ∀ {α : Type} (l : List α) (i : ℕ) (h : i < l.length), getIdx l i = .ok l[i] := by
        intro α l i h; rw [getIdx_ok]; exact List.getElem?_eq_getElem h
      have hRm : ∀ z, ∃ w, inferRm sp j z = .ok w := by
        intro z
        unfold inferRm
        split
        · rw [hg _ _ (by omega), hg _ _ (by omega)]; exact ⟨_, rfl⟩
        · exact ⟨_, rfl⟩
      unfold mkInf
      rw [hg sp.amp j (by omega), ok_bind, hg sp.phase j (by omega), ok_bind]
      obtain ⟨w, hw⟩ := hRm ((sp.amp[j]'(by omega) : ℂ) *
        Complex.exp (Complex.I * (sp.phase[j]'(by omega) : ℂ) * Real.pi / 180))
      dsimp only
      rw [hw, ok_bind, hg sp.inferred j (by omega), ok_bind, hk, ok_bind]
      exact ⟨_, rfl⟩
    unfold mkRef
    rw [hi, ok_bind, hinf, ok_bind]
    exact ⟨_, rfl⟩
  unfold cnstitsel removeRI
  rw [hl0, ok_bind]
  dsimp only
  rw [hri, ok_bind, pure_eq_ok, ok_bind, hrefs, ok_bind]
  exact ⟨_, rfl⟩

example (tref : ℝ) : ∃ s, cnstitsel tref .nan (.names ["M2"])
    (some ⟨["K2", "P1", "T2"], ["S2", "K1", "S2"], [1, 1, 1], [0, 0, 0], false⟩) = .ok s :=
  C12_total _ _ _ _ rfl (.inl rfl) rfl (by intro ns h; cases h; decide +kernel) (by decide +kernel)

end

end UTide.Props
