import Verif.Lemmas.Solve
import Verif.Lemmas.Lstsq
import Verif.Lemmas.Ideal

/-!
# Usable samples, and when `solve` returns
-/

namespace UTide

noncomputable section

/-- The usable samples: time and value (`u`, or `u + iv`). -/
def usable (tn : List Fl) (u : List Cell) : Option (List Cell) → List (ℝ × ℂ)
  | none => (goodSamples tn u).map fun p => (p.1, (p.2 : ℂ))
  | some v => (goodSamples2 tn u v).map fun p => (p.1, (p.2.1 : ℂ) + Complex.I * (p.2.2 : ℂ))

/-- Data lengths agree. -/
def SameLength (tn : List Fl) (u : List Cell) (v : Option (List Cell)) : Prop :=
  tn.length = u.length ∧ ∀ w, v = some w → u.length = w.length

theorem zipWith_map_same {α β γ δ : Type} (f : β → γ → δ) (g : α → β) (h : α → γ) (l : List α) :
    List.zipWith f (l.map g) (l.map h) = l.map fun a => f (g a) (h a) := by
  induction l with
  | nil => rfl
  | cons a l ih => simp [ih]

theorem editData_usable (tn : List Fl) (u : List Cell) (v : Option (List Cell)) (hl : SameLength tn u v)
    (ed : Edited) (h : editData tn u v = .ok ed) :
    ed.tin = finiteTimes tn ∧ ed.t = (usable tn u v).map Prod.fst ∧ xraw ed = (usable tn u v).map Prod.snd ∧
    ed.v.isSome = v.isSome ∧
    timeStats (finiteTimes tn) ((usable tn u v).map Prod.fst) = .ok (ed.tref, ed.lor, ed.elor, ed.equi) := by
  cases v with
  | none =>
    obtain ⟨h1, h2, h3, h4, h5⟩ := (editData_ok_none tn u hl.1 ed).1 h
    simp only [usable, List.map_map, xraw, h5, h2, h3, h4]
    exact ⟨trivial, rfl, rfl, rfl, h1⟩
  | some v =>
    obtain ⟨h1, h2, h3, h4, h5⟩ := (editData_ok_some tn u v hl.1 (hl.2 v rfl) ed).1 h
    simp only [usable, List.map_map, xraw, h5, h2, h3, h4]
    refine ⟨trivial, rfl, ?_, rfl, h1⟩
    rw [zipWith_map_same]
    rfl

theorem timeStats_total (tin t : List ℝ) (h1 : tin ≠ []) (h2 : t ≠ []) : ∃ r, timeStats tin t = .ok r := by
  unfold timeStats
  have h : (if isEqui tin then tin else t) ≠ [] := by split <;> assumption
  generalize (if isEqui tin then tin else t) = x at h
  cases x with
  | nil => exact absurd rfl h
  | cons a l => exact ⟨_, rfl⟩

theorem goodSamples_times (tn : List Fl) (u : List Cell) (t : ℝ) (h : t ∈ (goodSamples tn u).map Prod.fst) :
    t ∈ finiteTimes tn := by
  induction tn generalizing u with
  | nil => simp [goodSamples] at h
  | cons x tn ih =>
    cases u with
    | nil => simp [goodSamples] at h
    | cons c u =>
      rw [goodSamples_cons] at h
      rw [finiteTimes_cons]
      cases hx : x.toReal? with
      | none => simp only [hx] at h; exact ih u h
      | some s =>
        cases hc : c.value? with
        | none => simp only [hx, hc] at h; exact List.mem_cons_of_mem _ (ih u h)
        | some y =>
          simp only [hx, hc, List.map_cons, List.mem_cons] at h
          rcases h with rfl | h
          · exact List.mem_cons_self
          · exact List.mem_cons_of_mem _ (ih u h)

theorem goodSamples2_times (tn : List Fl) (u v : List Cell) (t : ℝ) (h : t ∈ (goodSamples2 tn u v).map (·.1)) :
    t ∈ finiteTimes tn := by
  induction tn generalizing u v with
  | nil => simp [goodSamples2] at h
  | cons x tn ih =>
    cases u with
    | nil => simp [goodSamples2] at h
    | cons c u =>
      cases v with
      | nil => simp [goodSamples2] at h
      | cons d v =>
        rw [goodSamples2_cons] at h
        rw [finiteTimes_cons]
        cases hx : x.toReal? with
        | none => simp only [hx] at h; exact ih u v h
        | some s =>
          cases hc : c.value? with
          | none => simp only [hx, hc] at h; exact List.mem_cons_of_mem _ (ih u v h)
          | some y =>
            cases hd : d.value? with
            | none => simp only [hx, hc, hd] at h; exact List.mem_cons_of_mem _ (ih u v h)
            | some z =>
              simp only [hx, hc, hd, List.map_cons, List.mem_cons] at h
              rcases h with rfl | h
              · exact List.mem_cons_self
              · exact List.mem_cons_of_mem _ (ih u v h)

theorem usable_times (tn : List Fl) (u : List Cell) (v : Option (List Cell)) (t : ℝ)
    (h : t ∈ (usable tn u v).map Prod.fst) : t ∈ finiteTimes tn := by
  cases v with
  | none =>
    simp only [usable, List.map_map] at h
    exact goodSamples_times tn u t h
  | some v =>
    simp only [usable, List.map_map] at h
    exact goodSamples2_times tn u v t h

theorem editData_total (tn : List Fl) (u : List Cell) (v : Option (List Cell)) (hl : SameLength tn u v)
    (hne : usable tn u v ≠ []) : ∃ ed, editData tn u v = .ok ed := by
  have htin : finiteTimes tn ≠ [] := by
    intro h0
    cases hu : usable tn u v with
    | nil => exact hne hu
    | cons a l =>
      have := usable_times tn u v a.1 (by rw [hu]; simp)
      rw [h0] at this; simp at this
  obtain ⟨r, hr⟩ := timeStats_total (finiteTimes tn) ((usable tn u v).map Prod.fst) htin (by simpa using hne)
  cases v with
  | none =>
    rw [editData_none tn u hl.1]
    simp only [usable, List.map_map] at hr
    unfold editOf
    rw [show (goodSamples tn u).map Prod.fst = (goodSamples tn u).map (Prod.fst ∘ fun p => (p.1, (p.2 : ℂ)))
      from rfl, hr]
    exact ⟨_, rfl⟩
  | some v =>
    rw [editData_some tn u v hl.1 (hl.2 v rfl)]
    simp only [usable, List.map_map] at hr
    unfold editOf
    rw [show (goodSamples2 tn u v).map (·.1) = (goodSamples2 tn u v).map
      (Prod.fst ∘ fun p => (p.1, (p.2.1 : ℂ) + Complex.I * (p.2.2 : ℂ))) from rfl, hr]
    exact ⟨_, rfl⟩

theorem InitOk.same {E : Env} {opt : Opt} {t : TimeArg} {u : Series} {v : Option Series} {lat : Option ℝ}
    {tn : List Fl} {ed : Edited} {la : ℝ} (h : InitOk E opt t u v lat tn ed la) (ht : t.WF) (hu : u.WF)
    (hv : ∀ w, v = some w → w.WF) : SameLength tn u.data (v.map Series.data) := by
  obtain ⟨h1, h2⟩ := h.lengths ht hu hv
  refine ⟨h1, fun w hw => ?_⟩
  cases v with
  | none => simp at hw
  | some v => simp only [Option.map_some, Option.some.injEq] at hw; subst hw; exact h2 v rfl

/-- A constituent option the selection accepts. -/
def KnownConstit (fl : Flags) : Constit → Prop
  | .auto => True
  | .names l => (∀ n ∈ l, n ∈ constitNames) ∧ (l ≠ [] ∨ (fl.nodsatnone = true ∧ fl.gwchnone = true))

theorem startLind_total (fl : Flags) (minres : Fl) (c : Constit) (h : KnownConstit fl c) :
    ∃ l, startLind minres c = .ok l ∧ (l.isEmpty && !(c == .auto) && !(fl.nodsatnone && fl.gwchnone)) = false := by
  cases c with
  | auto => exact ⟨_, rfl, by simp⟩
  | names ns =>
    obtain ⟨l, hl⟩ := mapM_total constitIndex ns (fun n hn => by
      cases hc : constitIndex n with
      | ok i => exact ⟨i, rfl⟩
      | error e => exact absurd (h.1 n hn) ((constitIndex_error n e).1 hc).1)
    refine ⟨l, hl, ?_⟩
    rcases h.2 with h0 | ⟨h1, h2⟩
    · have := mapM_length _ _ _ hl
      cases l with
      | nil => exact absurd (List.length_eq_zero_iff.1 this.symm) h0
      | cons _ _ => simp
    · simp [h1, h2]

/-- Preparation of the matrix succeeds without inference. -/
theorem prep_total (E : Env) (t : TimeArg) (u : Series) (v : Option Series) (la : ℝ)
    (opt : Opt) (tn : List Fl) (constit : Constit) (hinf : readInfer opt.infer = .ok none)
    (hc : readConstit opt.cnstit = .ok constit) (hk : KnownConstit opt.flags constit)
    (hs : GoodShapes t u v) (ht : t.WF) (hu : u.WF) (hv : ∀ w, v = some w → w.WF)
    (htn : normalizeTime E.dt64 t.arr opt.epoch = .ok tn) (hne : usable tn u.data (v.map Series.data) ≠ [])
    (hlat : ∀ k, nodalSingular opt.flags la k = false)
    (htr : opt.notrend = false → ∀ ed, editData tn u.data (v.map Series.data) = .ok ed → ed.lor ≠ 0) :
    ∃ p, PrepOk E opt t u v (some la) tn constit p ∧ p.infer = none := by
  have hlen : SameLength tn u.data (v.map Series.data) := by
    have h1 := normalizeTime_length _ _ _ _ htn
    obtain ⟨hs1, -, hvs⟩ := hs
    unfold TimeArg.WF at ht
    unfold Series.WF at hu
    refine ⟨by rw [h1, ← ht, ← hu, hs1], fun w hw => ?_⟩
    cases v with
    | none => simp at hw
    | some v =>
      simp only [Option.map_some, Option.some.injEq] at hw; subst hw
      have := hv v rfl
      unfold Series.WF at this
      rw [← hu, ← this, hvs v rfl]
  obtain ⟨ed, hed⟩ := editData_total tn u.data (v.map Series.data) hlen hne
  have hinit : InitOk E opt t u v (some la) tn ed la := ⟨rfl, hs, htn, hed⟩
  obtain ⟨l, hl, hemp⟩ := startLind_total opt.flags ((Fl.fin (opt.rmin : ℝ)).div (.fin (24 * ed.lor))) constit hk
  obtain ⟨sel, hsel⟩ : ∃ sel, cnstitsel ed.tref ((Fl.fin (opt.rmin : ℝ)).div (.fin (24 * ed.lor))) constit none
      = .ok sel := by
    unfold cnstitsel
    rw [hl]
    exact ⟨_, rfl⟩
  obtain ⟨hsl, hnr, -, -⟩ := cnstitsel_none _ _ _ _ hsel
  have hlsel : sel.lind = l := by rw [hl] at hsl; exact (Except.ok.inj hsl).symm
  have hcheck : checkMatrix opt (constit == .auto) none ed la sel = .ok () := by
    unfold checkMatrix
    rw [hnr, hlsel]
    have e1 : (l.isEmpty && !((constit == .auto) && (none : Option InferSpec).isNone) &&
        !(opt.flags.nodsatnone && opt.flags.gwchnone)) = false := by simpa using hemp
    have e2 : ((usedLind sel).any (nodalSingular opt.flags la)) = false := by
      rw [List.any_eq_false]; intro k _; simp [hlat k]
    have e3 : (!opt.notrend && decide (ed.lor = 0)) = false := by
      cases hn : opt.notrend with
      | true => rfl
      | false => simpa using htr hn ed hed
    simp only [e1, e2, raiseIf, Bool.false_eq_true, if_false]
    simp only [ok_bind]
    rw [if_neg (by simp [e3])]
  exact ⟨⟨opt, none, ed, la, sel, numCols (!opt.notrend) sel,
      ed.t.map (modelRow opt.flags ed.tref la ed.lor (!opt.notrend) (approxOf none) sel)⟩,
      ⟨hinit, hc, hinf, hsel, hcheck, rfl, rfl, rfl⟩, rfl⟩

/-- `solve` without inference, confidence intervals and robust iteration returns. -/
theorem solve_total (E : Env) (t : TimeArg) (u : Series) (v : Option Series) (la : ℝ)
    (opts : Dict PyVal) (opt : Opt) (tn : List Fl) (constit : Constit) (o : Order)
    (hopt : getOpt opts v.isSome = .ok opt) (hm : opt.method = .ols) (hci : opt.confInt = false)
    (hnd : opt.nodiagn = true) (hinf : readInfer opt.infer = .ok none)
    (hc : readConstit opt.cnstit = .ok constit) (hk : KnownConstit opt.flags constit)
    (ho : readOrder opt.ordercnstit = .ok o) (hoo : o = .PE ∨ o = .frequency)
    (hs : GoodShapes t u v) (ht : t.WF) (hu : u.WF) (hv : ∀ w, v = some w → w.WF)
    (htn : normalizeTime E.dt64 t.arr opt.epoch = .ok tn) (hne : usable tn u.data (v.map Series.data) ≠ [])
    (hlat : ∀ k, nodalSingular opt.flags la k = false)
    (htr : opt.notrend = false → ∀ ed, editData tn u.data (v.map Series.data) = .ok ed → ed.lor ≠ 0) :
    ∃ c, solve E t u v (some la) opts = .ok c := by
  obtain ⟨p, hp, -⟩ := prep_total E t u v la opt tn constit hinf hc hk hs ht hu hv htn hne hlat htr
  have hpo := hp.hopt
  have hsol : ∃ c, stageSolution E p = .ok c := by
    unfold stageSolution stageFit stageConf stageDiagn
    rw [hpo, hm, hci, hnd, ho]
    rcases hoo with rfl | rfl
    · exact ⟨_, rfl⟩
    · exact ⟨_, rfl⟩
  obtain ⟨c, hcf⟩ := hsol
  refine ⟨c, ?_⟩
  obtain ⟨m, W, rf, c1, c2, o', hs'⟩ := (stageSolution_ok E p c).1 hcf
  exact (solve_ok _ _ _ _ _ _ _).2 ⟨opt, p, tn, constit, m, W, rf, c1, c2, o', hopt, hp, hs'⟩

def idealEnv : Env := ⟨fun _ => none, idealNum⟩

end

end UTide
