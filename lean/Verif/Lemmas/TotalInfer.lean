import Verif.Lemmas.Total

/-!
# When `solve` with inference returns
-/

namespace UTide

noncomputable section

/-- An inference specification the selection accepts. -/
structure ValidInfer (s : InferSpec) : Prop where
  known : ∀ n ∈ s.inferred ++ s.reference, n ∈ constitNames
  ref : s.reference.length = s.inferred.length
  amp : s.amp.length = s.inferred.length ∨ s.amp.length = 2 * s.inferred.length
  phase : s.phase.length = s.amp.length

theorem constitIndex_total (n : String) (h : n ∈ constitNames) : ∃ i, constitIndex n = .ok i := by
  cases hc : constitIndex n with
  | ok i => exact ⟨i, rfl⟩
  | error e => exact absurd h ((constitIndex_error n e).1 hc).1

theorem constitIndex_inj {a b : String} {i : ℕ} (ha : constitIndex a = .ok i) (hb : constitIndex b = .ok i) : a = b := by
  rw [constitIndex_ok] at ha hb
  rw [ha] at hb
  exact Option.some.inj hb

theorem refPositions_length_of_nodup (r : List String) (n : String) (hr : r.Nodup) (hn : n ∈ r) :
    (refPositions r n).length = 1 := by
  obtain ⟨i, hi⟩ := List.mem_iff_getElem?.1 hn
  have h1 : (refPositions r n).Nodup := (refPositions_sorted r n).imp fun h => Nat.ne_of_lt h
  have h2 : (refPositions r n).Perm [i] := by
    rw [List.perm_ext_iff_of_nodup h1 (by simp)]
    intro j
    rw [mem_refPositions, List.mem_singleton]
    constructor
    · intro hj
      exact (List.getElem?_inj (List.getElem?_eq_some_iff.1 hj).1 hr).1 (hj.trans hi.symm)
    · rintro rfl; exact hi
  exact h2.length_eq

theorem getIdx_total {α : Type} (l : List α) (i : ℕ) (h : i < l.length) : ∃ a, getIdx l i = .ok a :=
  ⟨l[i], (getIdx_ok l i _).2 (List.getElem?_eq_getElem h)⟩

theorem mkInf_total (s : InferSpec) (hs : ValidInfer s) (tref : ℝ) (j : ℕ) (hj : j < s.inferred.length) :
    ∃ c, mkInf s tref j = .ok c := by
  have h1 := hs.amp
  have h2 := hs.phase
  obtain ⟨a, ha⟩ := getIdx_total s.amp j (by omega)
  obtain ⟨ph, hph⟩ := getIdx_total s.phase j (by omega)
  obtain ⟨n, hn⟩ := getIdx_total s.inferred j hj
  obtain ⟨i, hi⟩ := constitIndex_total n (hs.known n (List.mem_append_left _
    (List.mem_of_getElem? ((getIdx_ok _ _ _).1 hn))))
  unfold mkInf
  simp only [ha, hph, hn, hi, ok_bind]
  have : ∃ z, inferRm s j (a * Complex.exp (Complex.I * ph * Real.pi / 180)) = .ok z := by
    unfold inferRm
    by_cases hl : s.amp.length > s.inferred.length
    · rw [if_pos hl]
      obtain ⟨a', ha'⟩ := getIdx_total s.amp (j + s.inferred.length) (by omega)
      obtain ⟨ph', hph'⟩ := getIdx_total s.phase (j + s.inferred.length) (by omega)
      simp only [ha', hph', ok_bind]
      exact ⟨_, rfl⟩
    · rw [if_neg hl]; exact ⟨_, rfl⟩
  obtain ⟨z, hz⟩ := this
  simp only [hz, ok_bind]
  exact ⟨_, rfl⟩

theorem mkRef_total (s : InferSpec) (hs : ValidInfer s) (tref : ℝ) (n : String) (hn : n ∈ s.reference) :
    ∃ c, mkRef s tref n = .ok c := by
  obtain ⟨i, hi⟩ := constitIndex_total n (hs.known n (List.mem_append_right _ hn))
  obtain ⟨l, hl⟩ := mapM_total (mkInf s tref) (refPositions s.reference n) (fun j hj => by
    rw [mem_refPositions] at hj
    exact mkInf_total s hs tref j (by have := (List.getElem?_eq_some_iff.1 hj).1; have := hs.ref; omega))
  unfold mkRef
  simp only [hi, hl, ok_bind]
  exact ⟨_, rfl⟩

/-- The selection succeeds; the constituents fitted directly are those of the list not mentioned in the inference. -/
theorem cnstitsel_total (tref : ℝ) (minres : Fl) (con : Constit) (s : InferSpec) (hs : ValidInfer s) (l : List ℕ)
    (hl : startLind minres con = .ok l) : ∃ sel, cnstitsel tref minres con (some s) = .ok sel ∧
      ∃ ri, (s.inferred ++ s.reference).mapM constitIndex = .ok ri ∧
        sel.nrLind = l.filter fun i => decide (i ∉ ri) := by
  obtain ⟨ri, hri⟩ := mapM_total constitIndex (s.inferred ++ s.reference) (fun n hn =>
    constitIndex_total n (hs.known n hn))
  obtain ⟨refs, hrefs⟩ := mapM_total (mkRef s tref) (allRefs s.reference) (fun n hn => by
    refine mkRef_total s hs tref n ?_
    rw [allRefs_eq] at hn
    exact (mem_firsts _ _).1 hn)
  unfold cnstitsel removeRI
  simp only [hl, hri, hrefs, ok_bind]
  exact ⟨_, rfl, ri, rfl, rfl⟩

/-- `solve` with inference, without confidence intervals and robust iteration, returns. -/
theorem solve_total_infer (E : Env) (t : TimeArg) (u : Series) (v : Option Series) (la : ℝ)
    (opts : Dict PyVal) (opt : Opt) (tn : List Fl) (constit : Constit) (o : Order) (s : InferSpec)
    (hopt : getOpt opts v.isSome = .ok opt) (hm : opt.method = .ols) (hci : opt.confInt = false)
    (hnd : opt.nodiagn = true) (hinf : readInfer opt.infer = .ok (some s)) (hvi : ValidInfer s)
    (hc : readConstit opt.cnstit = .ok constit) (hk : KnownConstit opt.flags constit)
    (hnr : (opt.flags.nodsatnone = true ∧ opt.flags.gwchnone = true) ∨ ∃ ns n, constit = .names ns ∧ n ∈ ns ∧
      n ∉ s.inferred ++ s.reference)
    (ho : readOrder opt.ordercnstit = .ok o) (hoo : o = .PE ∨ o = .frequency)
    (hs : GoodShapes t u v) (ht : t.WF) (hu : u.WF) (hv : ∀ w, v = some w → w.WF)
    (htn : normalizeTime E.dt64 t.arr opt.epoch = .ok tn) (hne : usable tn u.data (v.map Series.data) ≠ [])
    (hlat : ∀ k, nodalSingular opt.flags la k = false)
    (htr : opt.notrend = false → ∀ ed, editData tn u.data (v.map Series.data) = .ok ed → ed.lor ≠ 0)
    (hex : s.approximate = false → ∀ tref τ f, ∀ n ∈ s.reference, ∀ k, constitIndex n = .ok k →
      utE opt.flags tref la τ f k ≠ 0)
    (hap : s.approximate = true → s.reference.Nodup) :
    ∃ c, solve E t u v (some la) opts = .ok c := by
  have hlen : SameLength tn u.data (v.map Series.data) := by
    have h1 := normalizeTime_length _ _ _ _ htn
    obtain ⟨hs1, -, hvs⟩ := hs
    unfold TimeArg.WF at ht
    unfold Series.WF at hu
    refine ⟨by rw [h1, ← ht, ← hu, hs1], fun w hw => ?_⟩
    cases v with
    | none => simp at hw
    | some v =>
      simp only [Option.map_some, Option.some.injEq] at hw; subst hw
      have := hv v rfl
      unfold Series.WF at this
      rw [← hu, ← this, hvs v rfl]
  obtain ⟨ed, hed⟩ := editData_total tn u.data (v.map Series.data) hlen hne
  have hinit : InitOk E opt t u v (some la) tn ed la := ⟨rfl, hs, htn, hed⟩
  obtain ⟨l, hl, hemp⟩ := startLind_total opt.flags ((Fl.fin (opt.rmin : ℝ)).div (.fin (24 * ed.lor))) constit hk
  obtain ⟨sel, hsel, ri, hri, hnrl⟩ := cnstitsel_total ed.tref ((Fl.fin (opt.rmin : ℝ)).div (.fin (24 * ed.lor)))
    constit s hvi l hl
  obtain ⟨l0, -, -, -, -, hrefs, -⟩ := cnstitsel_some _ _ _ _ _ hsel
  have hcheck : checkMatrix opt (constit == .auto) (some s) ed la sel = .ok () := by
    unfold checkMatrix
    have e1 : (sel.nrLind.isEmpty && !((constit == .auto) && (some s : Option InferSpec).isNone) &&
        !(opt.flags.nodsatnone && opt.flags.gwchnone)) = false := by
      rcases hnr with ⟨h1, h2⟩ | ⟨ns, n, rfl, hn, hni⟩
      · simp [h1, h2]
      · have hne' : sel.nrLind ≠ [] := by
          obtain ⟨i, hi, hni'⟩ := mapM_mem _ _ _ hl n hn
          refine List.ne_nil_of_mem (a := i) ?_
          rw [hnrl, List.mem_filter]
          refine ⟨hi, by
            rw [decide_eq_true_eq]
            intro hmem
            obtain ⟨n', hn', hi'⟩ := mapM_mem' _ _ _ hri i hmem
            rw [constitIndex_inj hni' hi'] at hni
            exact hni hn'⟩
        cases hh : sel.nrLind with
        | nil => exact absurd hh hne'
        | cons _ _ => rfl
    have e2 : ((usedLind sel).any (nodalSingular opt.flags la)) = false := by
      rw [List.any_eq_false]; intro k _; simp [hlat k]
    have e3 : (!opt.notrend && decide (ed.lor = 0)) = false := by
      cases hn : opt.notrend with
      | true => rfl
      | false => simpa using htr hn ed hed
    have hmem : ∀ r ∈ sel.refs, r.name ∈ s.reference ∧ constitIndex r.name = .ok r.lind ∧
        (refPositions s.reference r.name).mapM (mkInf s ed.tref) = .ok r.inf := by
      intro r hr
      obtain ⟨n, hn, hr'⟩ := mapM_mem' _ _ _ hrefs r hr
      obtain ⟨rfl, h2, -, h4⟩ := mkRef_ok _ _ _ _ hr'
      exact ⟨(mem_firsts _ _).1 hn, h2, h4⟩
    simp only [e1, e2, raiseIf, Bool.false_eq_true, if_false, ok_bind]
    cases ha : s.approximate with
    | true =>
      have e4 : (sel.refs.any fun r => r.inf.length != 1) = false := by
        rw [List.any_eq_false]
        intro r hr
        obtain ⟨h1, -, h3⟩ := hmem r hr
        have h5 := mapM_length _ _ _ h3
        have h6 := refPositions_length_of_nodup _ _ (hap ha) h1
        simp only [bne_iff_ne, ne_eq, Decidable.not_not]
        omega
      simp only [if_true, e4, Bool.false_eq_true, if_false, ok_bind]
      rw [if_neg (by simp [e3])]
    | false =>
      have e4 : (ed.t.any fun t => sel.refs.any fun r => decide (utE opt.flags ed.tref la t r.frq r.lind = 0)) =
          false := by
        rw [List.any_eq_false]
        intro τ _
        rw [Bool.not_eq_true, List.any_eq_false]
        intro r hr
        obtain ⟨h1, h2, -⟩ := hmem r hr
        simpa using hex ha ed.tref τ r.frq r.name h1 r.lind h2
      simp only [e4, Bool.false_eq_true, if_false, ok_bind]
      rw [if_neg (by simp [e3])]
  have hprep : ∃ p, PrepOk E opt t u v (some la) tn constit p := by
    refine ⟨⟨opt, some s, ed, la, sel, numCols (!opt.notrend) sel,
      ed.t.map (modelRow opt.flags ed.tref la ed.lor (!opt.notrend) (approxOf (some s)) sel)⟩,
      ⟨hinit, hc, hinf, hsel, hcheck, rfl, rfl, rfl⟩⟩
  obtain ⟨p, hp⟩ := hprep
  have hpo := hp.hopt
  have hsol : ∃ c, stageSolution E p = .ok c := by
    unfold stageSolution stageFit stageConf stageDiagn
    rw [hpo, hm, hci, hnd, ho]
    rcases hoo with rfl | rfl
    · exact ⟨_, rfl⟩
    · exact ⟨_, rfl⟩
  obtain ⟨c, hcf⟩ := hsol
  refine ⟨c, ?_⟩
  obtain ⟨m, W, rf, c1, c2, o', hs'⟩ := (stageSolution_ok E p c).1 hcf
  exact (solve_ok _ _ _ _ _ _ _).2 ⟨opt, p, tn, constit, m, W, rf, c1, c2, o', hopt, hp, hs'⟩

end

end UTide
