import Verif.Props.StableProps

/-!
# What does not depend on the measured values: C106
-/

namespace UTide.Props

noncomputable section

open Classical

local notation "conj" => starRingEnd ℂ

/-! ## Specification -/

/-- The same entries are missing in both series (in a current, an entry is missing if either component is). -/
def SameHoles (xs xs' : List (Option ℂ)) : Prop :=
  ∀ i : ℕ, (∃ z, xs'[i]? = some (some z)) ↔ ∃ z, xs[i]? = some (some z)

/-- How a call ends: with a result, or with which error. -/
def outcome {α : Type} : Except PyErr α → Option PyErr
  | .ok _ => none
  | .error e => some e

/-- The two results are about the same constituents at the same frequencies, with the same reference time, latitude
and counts. -/
structure SamePlan (c c' : Coef) : Prop where
  names : c'.name.Perm c.name
  frq : ∀ (i j : ℕ) (n : String), c.name[i]? = some n → c'.name[j]? = some n → c'.frq[j]? = c.frq[i]?
  lind : ∀ (i j : ℕ) (n : String), c.name[i]? = some n → c'.name[j]? = some n → c'.lind[j]? = c.lind[i]?
  reftime : c'.reftime = c.reftime
  lat : c'.lat = c.lat
  nR : c'.nR = c.nR
  nNR : c'.nNR = c.nNR
  nI : c'.nI = c.nI

/-! ## Lemmas -/

theorem SameHoles.gaps {xs xs' : List (Option ℂ)} (h : SameHoles xs xs') (tn : List Fl) : SameGaps tn xs xs' := by
  intro i
  unfold UsableRow
  constructor
  · rintro ⟨τ, z, h1, h2⟩
    obtain ⟨z', h3⟩ := (h i).1 ⟨z, h2⟩
    exact ⟨τ, z', h1, h3⟩
  · rintro ⟨τ, z, h1, h2⟩
    obtain ⟨z', h3⟩ := (h i).2 ⟨z, h2⟩
    exact ⟨τ, z', h1, h3⟩

theorem SameGaps.times {tn : List Fl} {u u' : List Cell} {v v' : Option (List Cell)} (hl : SameLength tn u v)
    (hl' : SameLength tn u' v') (h : SameGaps tn (sampleValues u v) (sampleValues u' v')) :
    (usable tn u' v').map Prod.fst = (usable tn u v).map Prod.fst := by
  obtain ⟨l, h1, h2, -⟩ := samples_pair tn _ _ (sampleValues_length tn _ _ hl) (sampleValues_length tn _ _ hl') h
  rw [usable_samples _ _ _ hl, usable_samples _ _ _ hl', h1, h2, List.map_map, List.map_map]
  rfl

/-- Two computations end alike: the same error, or results related by `r`. -/
def Alike {α β : Type} (r : α → β → Prop) (x : Except PyErr α) (y : Except PyErr β) : Prop :=
  (∃ e, x = .error e ∧ y = .error e) ∨ ∃ a b, x = .ok a ∧ y = .ok b ∧ r a b

theorem Alike.outcome {α β : Type} {r : α → β → Prop} {x : Except PyErr α} {y : Except PyErr β} (h : Alike r x y) :
    outcome y = outcome x := by
  rcases h with ⟨e, rfl, rfl⟩ | ⟨a, b, rfl, rfl, -⟩ <;> rfl

theorem Alike.bind {α β γ δ : Type} {r : α → β → Prop} {s : γ → δ → Prop} {x : Except PyErr α} {y : Except PyErr β}
    {f : α → Except PyErr γ} {g : β → Except PyErr δ} (h : Alike r x y) (hf : ∀ a b, r a b → Alike s (f a) (g b)) :
    Alike s (x >>= f) (y >>= g) := by
  rcases h with ⟨e, rfl, rfl⟩ | ⟨a, b, rfl, rfl, hr⟩
  · exact .inl ⟨e, rfl, rfl⟩
  · exact hf a b hr

theorem Alike.refl {α : Type} (x : Except PyErr α) : Alike (fun a b => b = a) x x := by
  cases x with
  | error e => exact .inl ⟨e, rfl, rfl⟩
  | ok a => exact .inr ⟨a, a, rfl, rfl, rfl⟩

theorem Alike.ok {α β : Type} {r : α → β → Prop} {a : α} {b : β} (h : r a b) : Alike r (.ok a) (.ok b) :=
  .inr ⟨a, b, rfl, rfl, h⟩

/-- Edited data with the same times. -/
def SameTimes (e e' : Edited × ℝ) : Prop :=
  e'.1.t = e.1.t ∧ e'.1.tref = e.1.tref ∧ e'.1.lor = e.1.lor ∧ e'.2 = e.2

theorem editOf_alike (tin t u u' : List ℝ) (v v' : Option (List ℝ)) :
    Alike (fun e e' => e'.t = e.t ∧ e'.tref = e.tref ∧ e'.lor = e.lor) (editOf tin t u v) (editOf tin t u' v') := by
  unfold editOf
  refine (Alike.refl (timeStats tin t)).bind ?_
  rintro ⟨a, b, c, d⟩ _ rfl
  exact .ok ⟨rfl, rfl, rfl⟩

theorem editData_alike {tn : List Fl} {u u' : List Cell} {v v' : Option (List Cell)} (hl : SameLength tn u v)
    (hl' : SameLength tn u' v') (h : (usable tn u' v').map Prod.fst = (usable tn u v).map Prod.fst) :
    Alike (fun e e' => e'.t = e.t ∧ e'.tref = e.tref ∧ e'.lor = e.lor) (editData tn u v) (editData tn u' v') := by
  have key : ∀ (u : List Cell) (v : Option (List Cell)), SameLength tn u v → ∃ a b,
      editData tn u v = editOf (finiteTimes tn) ((usable tn u v).map Prod.fst) a b := by
    intro u v hl
    cases v with
    | none => exact ⟨_, _, by rw [editData_none tn u hl.1]; simp only [usable, List.map_map]; rfl⟩
    | some w => exact ⟨_, _, by rw [editData_some tn u w hl.1 (hl.2 w rfl)]; simp only [usable, List.map_map]; rfl⟩
  obtain ⟨a, b, h1⟩ := key u v hl
  obtain ⟨a', b', h2⟩ := key u' v' hl'
  rw [h1, h2, h]
  exact editOf_alike _ _ _ _ _ _

theorem checkShapes_eq (t : TimeArg) (u u' : Series) (v v' : Option Series) (hu : u'.shape = u.shape)
    (hv : v'.map Series.shape = v.map Series.shape) : checkShapes t u' v' = checkShapes t u v := by
  unfold checkShapes
  rw [hu]
  cases v with
  | none => cases v' with
    | none => rfl
    | some w => simp at hv
  | some w => cases v' with
    | none => simp at hv
    | some w' =>
      simp only [Option.map_some, Option.some.injEq] at hv
      simp only [hv]

theorem stageInit_alike {E : Env} {t : TimeArg} {u u' : Series} {v v' : Option Series} (opt : Opt) (lat : Option ℝ)
    (ht : t.WF) (hu : u.WF) (hv : ∀ w, v = some w → w.WF) (hu' : u'.WF) (hv' : ∀ w, v' = some w → w.WF)
    (hs : u'.shape = u.shape) (hs' : v'.map Series.shape = v.map Series.shape)
    (hh : SameHoles (sampleValues u.data (v.map Series.data)) (sampleValues u'.data (v'.map Series.data))) :
    Alike SameTimes (stageInit E opt t u v lat) (stageInit E opt t u' v' lat) := by
  unfold stageInit slvInit
  cases lat with
  | none => exact .inl ⟨_, rfl, rfl⟩
  | some la =>
    dsimp only
    rw [checkShapes_eq t u u' v v' hs hs']
    cases hc : checkShapes t u v with
    | error e => exact .inl ⟨e, rfl, rfl⟩
    | ok _ =>
      cases hn : normalizeTime E.dt64 t.arr opt.epoch with
      | error e => exact .inl ⟨e, rfl, rfl⟩
      | ok tn =>
        have g := (checkShapes_ok t u v).1 hc
        have g' : GoodShapes t u' v' := (checkShapes_ok t u' v').1 (by rw [checkShapes_eq t u u' v v' hs hs']; exact hc)
        have hlen : ∀ (u : Series) (v : Option Series), GoodShapes t u v → u.WF → (∀ w, v = some w → w.WF) →
            SameLength tn u.data (v.map Series.data) := by
          intro u v ⟨a1, a2, a3⟩ hu hv
          have h1 := normalizeTime_length _ _ _ _ hn
          unfold TimeArg.WF at ht
          unfold Series.WF at hu
          refine ⟨by rw [h1, ← ht, ← hu, a1], fun w hw => ?_⟩
          obtain ⟨w', rfl, rfl⟩ := Option.map_eq_some_iff.1 hw
          have := hv w' rfl
          unfold Series.WF at this
          rw [← hu, ← this, a3 w' rfl]
        have l1 := hlen u v g hu hv
        have l2 := hlen u' v' g' hu' hv'
        show Alike SameTimes (editData tn u.data (v.map Series.data) >>= _) (editData tn u'.data (v'.map Series.data) >>= _)
        refine (editData_alike l1 l2 (SameGaps.times l1 l2 (hh.gaps tn))).bind ?_
        rintro a b ⟨h1, h2, h3⟩
        exact .ok ⟨h1, h2, h3, rfl⟩

theorem checkMatrix_eq (opt : Opt) (a : Bool) (inf : Option InferSpec) (ed ed' : Edited) (lat : ℝ) (sel : Sel)
    (h1 : ed'.t = ed.t) (h2 : ed'.tref = ed.tref) (h3 : ed'.lor = ed.lor) :
    checkMatrix opt a inf ed' lat sel = checkMatrix opt a inf ed lat sel := by
  unfold checkMatrix
  rw [h1, h2, h3]

theorem stagePrep_alike {E : Env} {t : TimeArg} {u u' : Series} {v v' : Option Series} (opt : Opt) (lat : Option ℝ)
    (h : Alike SameTimes (stageInit E opt t u v lat) (stageInit E opt t u' v' lat)) :
    Alike (fun p p' => p.opt = opt ∧ p'.opt = opt ∧ p'.sel = p.sel) (stagePrep E opt t u v lat)
      (stagePrep E opt t u' v' lat) := by
  unfold stagePrep
  refine h.bind ?_
  rintro ⟨ed, la⟩ ⟨ed', la'⟩ ⟨h1, h2, h3, h4⟩
  dsimp only at h1 h2 h3 h4 ⊢
  subst h4
  have hsel : stageSelect opt ed' = stageSelect opt ed := by unfold stageSelect; rw [h2, h3]
  rw [hsel]
  refine (Alike.refl (stageSelect opt ed)).bind ?_
  rintro ⟨constit, infer, sel⟩ _ rfl
  dsimp only
  unfold stageMatrix
  rw [checkMatrix_eq opt _ infer ed ed' la' sel h1 h2 h3]
  refine (Alike.refl _).bind ?_
  rintro _ _ rfl
  exact .ok ⟨rfl, rfl, rfl⟩

theorem stageSolution_alike (E : Env) (p p' : Prep) (ho : p'.opt = p.opt) (hs : p'.sel = p.sel)
    (hm : p.opt.method = .ols) (hc : p.opt.confInt = false) :
    outcome (stageSolution E p') = outcome (stageSolution E p) := by
  suffices h : Alike (fun _ _ => True) (stageSolution E p) (stageSolution E p') from h.outcome
  unfold stageSolution stageFit stageConf stageDiagn
  rw [ho, hm, hc]
  dsimp only [bind, Except.bind]
  simp only [Bool.false_eq_true, if_false]
  cases hd : p.opt.nodiagn with
  | false =>
    simp only [Bool.false_eq_true, if_false]
    exact .inl ⟨_, rfl, rfl⟩
  | true =>
    simp only [if_true]
    cases hr : readOrder p.opt.ordercnstit with
    | error e => exact .inl ⟨_, rfl, rfl⟩
    | ok o =>
      dsimp only
      cases o with
      | PE => exact .inr ⟨_, _, rfl, rfl, trivial⟩
      | frequency => exact .inr ⟨_, _, rfl, rfl, trivial⟩
      | SNR => exact .inl ⟨_, rfl, rfl⟩
      | names l =>
        unfold reorder orderIndex
        simp only [rawCoef, hs]
        cases hl : l.mapM (listIndex p.sel.name) with
        | error e => exact .inl ⟨_, rfl, rfl⟩
        | ok ind => exact .inr ⟨_, _, rfl, rfl, trivial⟩

theorem plain_opt (opts : Dict PyVal) (hnd : opts.keys.Nodup) (b : Bool) (q : Opt) (h : getOpt opts b = .ok q)
    (hm : ∃ x, requested opts "method" = some x ∧ IsStr x "ols")
    (hc : ∃ x, requested opts "conf_int" = some x ∧ IsStr x "none") : q.method = .ols ∧ q.confInt = false := by
  constructor
  · obtain ⟨x, hx, hs⟩ := hm
    exact (getOpt_requests _ hnd _ _ h).ols x hx ((eqStr_iff _ _).2 hs)
  · obtain ⟨x, hx, hs⟩ := hc
    obtain ⟨hk, c, oc, ci, me, tr, ph, no, inf, ray, rk, wh, ve, ep, h1, h2, h3, h4, h5, h6, h7, h8, h9, h10,
      h11, h12, h13, r1, r2, r3, r4, r5, r6, r7, r8, r9, r10, -⟩ := getOpt_ok opts hnd b q h
    rw [requested_eq, h3] at hx
    cases Option.some.inj hx
    generalize q.confInt = x at r9
    generalize q.linci = y at r9
    cases r9 with
    | linear h => rcases hs with rfl | rfl <;> simp [PyVal.eqStr] at h
    | mc _ h => rcases hs with rfl | rfl <;> simp [PyVal.eqStr] at h
    | none => rfl

theorem readOrder_sorted (x : PyVal) (o : Order) (h : readOrder x = .ok o) :
    (o = .PE → IsStr x "PE") ∧ (o = .SNR → IsStr x "SNR") := by
  unfold readOrder at h
  simp only [bind_eq_ok] at h
  obtain ⟨a, ha, h⟩ := h
  cases a with
  | true =>
    simp only [if_true] at h
    cases Except.ok.inj h
    exact ⟨fun _ => (eqStr_iff _ _).1 ha, (fun h => by cases h)⟩
  | false =>
    simp only [Bool.false_eq_true, if_false, bind_eq_ok] at h
    obtain ⟨b, hb, h⟩ := h
    cases b with
    | true =>
      simp only [if_true] at h
      cases Except.ok.inj h
      exact ⟨(fun h => by cases h), (fun h => by cases h)⟩
    | false =>
      simp only [Bool.false_eq_true, if_false, bind_eq_ok] at h
      obtain ⟨d, hd, h⟩ := h
      cases d with
      | true =>
        simp only [if_true] at h
        cases Except.ok.inj h
        exact ⟨(fun h => by cases h), fun _ => (eqStr_iff _ _).1 hd⟩
      | false =>
        simp only [Bool.false_eq_true, if_false, bind_eq_ok] at h
        obtain ⟨l, -, h⟩ := h
        cases Except.ok.inj h
        exact ⟨(fun h => by cases h), (fun h => by cases h)⟩

/-! ## C106 -/

/-- **C106.** With `method="ols"` and `conf_int="none"`, whether the call returns, and otherwise with which error it
ends, does not depend on the values: only on the times, on which samples are missing, and on the options. -/
theorem C106_outcome (E : Env) (t : TimeArg) (u u' : Series) (v v' : Option Series) (lat : Option ℝ)
    (opts : Dict PyVal) (hnd : opts.keys.Nodup) (ht : t.WF) (hu : u.WF) (hv : ∀ w, v = some w → w.WF)
    (hu' : u'.WF) (hv' : ∀ w, v' = some w → w.WF)
    (hm : ∃ x, requested opts "method" = some x ∧ IsStr x "ols")
    (hc : ∃ x, requested opts "conf_int" = some x ∧ IsStr x "none")
    (hs : u'.shape = u.shape) (hs' : v'.map Series.shape = v.map Series.shape)
    (hh : SameHoles (sampleValues u.data (v.map Series.data)) (sampleValues u'.data (v'.map Series.data))) :
    outcome (solve E t u' v' lat opts) = outcome (solve E t u v lat opts) := by
  have hvs : v'.isSome = v.isSome := by
    cases v <;> cases v' <;> simp_all
  unfold solve
  rw [hvs]
  cases ho : getOpt opts v.isSome with
  | error e => rfl
  | ok opt =>
    obtain ⟨hm1, hc1⟩ := plain_opt opts hnd _ _ ho hm hc
    show outcome (stagePrep E opt t u' v' lat >>= stageSolution E) = outcome (stagePrep E opt t u v lat >>= stageSolution E)
    rcases stagePrep_alike opt lat (stageInit_alike opt lat ht hu hv hu' hv' hs hs' hh) with
      ⟨e, h1, h2⟩ | ⟨p, p', h1, h2, h3, h4, h5⟩
    · rw [h1, h2]
    · rw [h1, h2]
      exact stageSolution_alike E p p' (h4.trans h3.symm) h5 (by rw [h3]; exact hm1) (by rw [h3]; exact hc1)

/-- **C106.** Two calls of `solve` whose times, gaps, latitude and options are the same, by whatever method: the same
constituents at the same frequencies, the same reference time and counts; the values have no influence on them.
Unless they are sorted by energy or signal-to-noise ratio, the constituents are also in the same order. -/
theorem C106_plan (E : Env) (t : TimeArg) (u u' : Series) (v v' : Option Series) (lat : Option ℝ)
    (opts : Dict PyVal) (R : Ready E t u v) (R' : Ready E t u' v') (hnd : opts.keys.Nodup)
    (hv : v'.isSome = v.isSome)
    (hh : SameHoles (sampleValues u.data (v.map Series.data)) (sampleValues u'.data (v'.map Series.data)))
    (c c' : Coef) (h : solve E t u v lat opts = .ok c) (h' : solve E t u' v' lat opts = .ok c') (hk : AllKept c) :
    SamePlan c c' ∧ (¬ IsStr c.opt.ordercnstit "PE" → ¬ IsStr c.opt.ordercnstit "SNR" →
      c'.name = c.name ∧ c'.frq = c.frq ∧ c'.lind = c.lind) := by
  obtain ⟨opt, p, tn, constit, m, W, rf, full, o, ind, F⟩ := solve_facts R h
  obtain ⟨opt', p', tn', constit', m', W', rf', full', o', ind', F'⟩ := solve_facts R' h'
  obtain ⟨rfl, rfl, rfl, hinf⟩ := same_tn F F' hv
  have G := sameGrid F F' R R' hinf (SameGaps.times (F.samples R).1 (F'.samples R').1 (hh.gaps _))
  have hp := same_names F F' R R' hnd G.sel hk rfl
  obtain ⟨a1, a2, a3⟩ := permute_aligned h
  obtain ⟨b1, b2, b3⟩ := permute_aligned h'
  have hr : c'.reftime = c.reftime := by rw [F.creftime, F'.creftime, G.tref]
  have hl : ∀ (i j : ℕ) (n : String), c.name[i]? = some n → c'.name[j]? = some n → c'.lind[j]? = c.lind[i]? := by
    intro i j n hi hj
    rw [a1, List.getElem?_map, Option.map_eq_some_iff] at hi
    rw [b1, List.getElem?_map, Option.map_eq_some_iff] at hj
    obtain ⟨k, hk, rfl⟩ := hi
    obtain ⟨k', hk', he⟩ := hj
    have h1 := idxOf_nameAt (a3 k (List.mem_of_getElem? hk))
    have h2 := idxOf_nameAt (b3 k' (List.mem_of_getElem? hk'))
    rw [he, h1] at h2
    rw [hk, hk', h2]
  refine ⟨⟨hp, ?_, hl, hr, ?_, ?_, ?_, ?_⟩, ?_⟩
  · intro i j n hi hj
    rw [a2, b2, List.getElem?_map, List.getElem?_map, hl i j n hi hj, hr]
  · rw [F.clat, F'.clat, G.lat]
  · rw [F.solved.result, F'.solved.result]
    show full'.nR = full.nR
    rw [F.solved.head.nR, F'.solved.head.nR]; show p'.sel.nR = p.sel.nR; rw [G.sel]
  · rw [F.solved.result, F'.solved.result]
    show full'.nNR = full.nNR
    rw [F.solved.head.nNR, F'.solved.head.nNR]; show p'.sel.nNR = p.sel.nNR; rw [G.sel]
  · rw [F.solved.result, F'.solved.result]
    show full'.nI = full.nI
    rw [F.solved.head.nI, F'.solved.head.nI]; show p'.sel.nI = p.sel.nI; rw [G.sel]
  · intro hPE hSNR
    rw [F.copt, ← F.prep.hopt] at hPE hSNR
    obtain ⟨o1, o2⟩ := readOrder_sorted _ _ F.solved.order
    have hi : ind' = ind := by
      cases ho : o' with
      | PE => exact absurd (o1 ho) hPE
      | SNR => exact absurd (o2 ho) hSNR
      | frequency => rw [F.solved.indFreq ho, F'.solved.indFreq ho, F.solved.frq, F'.solved.frq, G.sel]
      | names l =>
        have h1 := F.solved.indNames l ho
        have h2 := F'.solved.indNames l ho
        rw [F'.solved.name, G.sel, ← F.solved.name, h1] at h2
        exact (Except.ok.inj h2).symm
    have hlind : c'.lind = c.lind := by
      rw [F.solved.result, F'.solved.result]
      show gather full'.lind ind' = gather full.lind ind
      rw [F.solved.lind, F'.solved.lind, G.sel, hi]
    exact ⟨by rw [a1, b1, hlind], by rw [a2, b2, hlind, hr], hlind⟩

end

end UTide.Props
