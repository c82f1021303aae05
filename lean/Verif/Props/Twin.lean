import Verif.Props.FitProps
import Verif.Lemmas.Named

/-!
# Lemmas comparing two runs of `solve`
-/

namespace UTide.Props

noncomputable section

open Classical

local notation "conj" => starRingEnd ℂ

/-! ## Samples -/

/-- The samples with a finite time and a value. -/
def samples (tn : List Fl) (xs : List (Option ℂ)) : List (ℝ × ℂ) :=
  (tn.zip xs).filterMap fun p => p.1.toReal?.bind fun τ => p.2.map fun x => (τ, x)

theorem usable_samples (tn : List Fl) (u : List Cell) (v : Option (List Cell)) (hl : SameLength tn u v) :
    usable tn u v = samples tn (sampleValues u v) := by
  unfold samples
  cases v with
  | none =>
    obtain ⟨h1, -⟩ := hl
    simp only [sampleValues, usable, goodSamples]
    induction tn generalizing u with
    | nil => simp
    | cons x tn ih =>
      cases u with
      | nil => simp at h1
      | cons a u =>
        have := ih u (by simpa using h1)
        simp only [List.map_cons, List.zip_cons_cons, List.filterMap_cons]
        cases x.toReal? with
        | none => simpa using this
        | some τ =>
          cases a.value? with
          | none => simpa using this
          | some y => simpa using this
  | some v =>
    obtain ⟨h1, h2⟩ := hl
    replace h2 := h2 v rfl
    simp only [sampleValues, usable, goodSamples2]
    induction tn generalizing u v with
    | nil => simp
    | cons x tn ih =>
      cases u with
      | nil => simp at h1
      | cons a u =>
        cases v with
        | nil => simp at h2
        | cons b v =>
          have := ih u v (by simpa using h1) (by simpa using h2)
          simp only [List.zipWith_cons_cons, List.zip_cons_cons, List.filterMap_cons]
          cases x.toReal? with
          | none => simpa using this
          | some τ =>
            cases a.value? with
            | none => simpa using this
            | some y =>
              cases b.value? with
              | none => simpa using this
              | some w =>
                have e : (⟨y, w⟩ : ℂ) = (y : ℂ) + Complex.I * (w : ℂ) := by apply Complex.ext <;> simp
                simpa [e] using this

theorem samples_transform (f : ℝ → ℂ → ℂ) (tn : List Fl) (xs ys : List (Option ℂ)) (hx : tn.length = xs.length)
    (hy : tn.length = ys.length)
    (h : ∀ (i : ℕ) (τ : ℝ), tn[i]? = some (.fin τ) → ys[i]? = xs[i]?.map (Option.map (f τ))) :
    samples tn ys = (samples tn xs).map fun s => (s.1, f s.1 s.2) := by
  unfold samples
  induction tn generalizing xs ys with
  | nil => simp
  | cons t tn ih =>
    cases xs with
    | nil => simp at hx
    | cons x xs =>
      cases ys with
      | nil => simp at hy
      | cons y ys =>
        have := ih xs ys (by simpa using hx) (by simpa using hy) (fun i τ hi => by simpa using h (i + 1) τ (by simpa using hi))
        simp only [List.zip_cons_cons, List.filterMap_cons]
        cases t with
        | fin τ =>
          have h0 := h 0 τ rfl
          simp only [List.getElem?_cons_zero, Option.map_some, Option.some.injEq] at h0
          subst h0
          cases x with
          | none => simpa [Fl.toReal?] using this
          | some x => simpa [Fl.toReal?] using this
        | nan => simpa [Fl.toReal?] using this
        | pinf => simpa [Fl.toReal?] using this
        | ninf => simpa [Fl.toReal?] using this

/-- The time `τ` carries a usable sample. -/
def SampleTime (tn : List Fl) (u : List Cell) (v : Option (List Cell)) (τ : ℝ) : Prop :=
  ∃ (i : ℕ) (x : ℂ), tn[i]? = some (.fin τ) ∧ (sampleValues u v)[i]? = some (some x)

theorem mem_samples (tn : List Fl) (xs : List (Option ℂ)) (s : ℝ × ℂ) :
    s ∈ samples tn xs ↔ ∃ i : ℕ, tn[i]? = some (.fin s.1) ∧ xs[i]? = some (some s.2) := by
  unfold samples
  rw [List.mem_filterMap]
  constructor
  · rintro ⟨⟨t, x⟩, hm, hs⟩
    obtain ⟨i, hi⟩ := List.mem_iff_getElem?.1 hm
    rw [List.getElem?_zip_eq_some] at hi
    refine ⟨i, ?_⟩
    cases t with
    | fin τ =>
      cases x with
      | none => simp [Fl.toReal?] at hs
      | some x =>
        simp only [Fl.toReal?, Option.bind_some, Option.map_some, Option.some.injEq] at hs
        subst hs
        exact hi
    | nan => simp [Fl.toReal?] at hs
    | pinf => simp [Fl.toReal?] at hs
    | ninf => simp [Fl.toReal?] at hs
  · rintro ⟨i, h1, h2⟩
    refine ⟨(.fin s.1, some s.2), ?_, rfl⟩
    exact List.mem_iff_getElem?.2 ⟨i, List.getElem?_zip_eq_some.2 ⟨h1, h2⟩⟩

/-! ## Ties -/

/-- Rotary coefficients tied by the inference specification. -/
structure TiedRotary (sp : Option InferSpec) (twodim : Bool) (P M : String → ℂ) : Prop where
  plus : ∀ s, sp = some s → ∀ (j : ℕ) (n r : String) (a φ : ℚ), s.inferred[j]? = some n → s.reference[j]? = some r →
    s.amp[j]? = some a → s.phase[j]? = some φ → P n = a * cisd φ * P r
  minus : ∀ s, sp = some s → ∀ (j k : ℕ) (n r : String) (a φ : ℚ), s.inferred[j]? = some n →
    s.reference[j]? = some r → k = (if twodim then j + s.inferred.length else j) →
    s.amp[k]? = some a → s.phase[k]? = some φ → M n = a * cisd (-φ) * M r

theorem tiedScalar_rotary {sp : Option InferSpec} {A g : String → ℝ} (hT : TiedScalar sp A g) :
    TiedRotary sp false (fun n => ((A n / 2 : ℝ) : ℂ) * cisd (-(g n)))
      (fun n => conj (((A n / 2 : ℝ) : ℂ) * cisd (-(g n)))) := by
  constructor
  · intro s hs j n r a φ e1 e2 e3 e4
    obtain ⟨t1, t2⟩ := hT s hs j n r a φ e1 e2 e3 e4
    rw [t1, t2, neg_sub, show (φ : ℝ) - g r = φ + -(g r) by ring, cisd_add]
    push_cast; ring
  · intro s hs j k n r a φ e1 e2 e3 e4 e5
    simp only [Bool.false_eq_true, if_false] at e3
    subst e3
    obtain ⟨t1, t2⟩ := hT s hs _ n r a φ e1 e2 e4 e5
    rw [t1, t2, neg_sub, show (φ : ℝ) - g r = φ + -(g r) by ring, cisd_add]
    simp only [map_mul, Complex.conj_ofReal, conj_cisd]
    push_cast; ring

theorem tied_plus_conv {tref : ℝ} {minres : Fl} {con : Constit} {inf : Option InferSpec} {sel : Sel}
    (hsel : cnstitsel tref minres con inf = .ok sel) (P : String → ℂ) (hP : TiedBy sel InfCon.Rp P) :
    ∀ s, inf = some s → ∀ (j : ℕ) (n r : String) (a φ : ℚ), s.inferred[j]? = some n → s.reference[j]? = some r →
      s.amp[j]? = some a → s.phase[j]? = some φ → P n = a * cisd φ * P r := by
  rintro s rfl j n r a φ e1 e2 e3 e4
  obtain ⟨l0, -, -, -, -, hrefs, -⟩ := cnstitsel_some _ _ _ _ _ hsel
  obtain ⟨x, hx, hx'⟩ := mapM_mem _ _ _ hrefs r ((mem_firsts _ _).2 (List.mem_of_getElem? e2))
  obtain ⟨hxn, -, -, hinf⟩ := mkRef_ok _ _ _ _ hx'
  obtain ⟨q, hq, hq'⟩ := mapM_mem _ _ _ hinf j ((mem_refPositions _ _ _).2 e2)
  obtain ⟨a', ph, ha, hph, hRp, -, -, hname, -, -⟩ := mkInf_ok _ _ _ _ hq'
  rw [e1] at hname; rw [e3] at ha; rw [e4] at hph
  cases hname; cases ha; cases hph
  have := hP x hx q hq
  rw [hxn] at this
  rw [this, hRp, ← cexp_eq]

theorem tied_minus_conv {tref : ℝ} {minres : Fl} {con : Constit} {inf : Option InferSpec} {sel : Sel}
    (hsel : cnstitsel tref minres con inf = .ok sel) (P : String → ℂ) (hP : TiedBy sel InfCon.Rm P) (td : Bool)
    (hlen : ∀ s, inf = some s → s.amp.length = (if td then 2 * s.inferred.length else s.inferred.length)) :
    ∀ s, inf = some s → ∀ (j k : ℕ) (n r : String) (a φ : ℚ), s.inferred[j]? = some n → s.reference[j]? = some r →
      k = (if td then j + s.inferred.length else j) →
      s.amp[k]? = some a → s.phase[k]? = some φ → P n = a * cisd (-φ) * P r := by
  rintro s rfl j k n r a φ e1 e2 hk e3 e4
  obtain ⟨l0, -, -, -, -, hrefs, -⟩ := cnstitsel_some _ _ _ _ _ hsel
  obtain ⟨x, hx, hx'⟩ := mapM_mem _ _ _ hrefs r ((mem_firsts _ _).2 (List.mem_of_getElem? e2))
  obtain ⟨hxn, -, -, hinf⟩ := mkRef_ok _ _ _ _ hx'
  obtain ⟨q, hq, hq'⟩ := mapM_mem _ _ _ hinf j ((mem_refPositions _ _ _).2 e2)
  obtain ⟨a', ph, ha, hph, hRp, hlong, hshort, hname, -, -⟩ := mkInf_ok _ _ _ _ hq'
  rw [e1] at hname
  cases hname
  have h1 := hP x hx q hq
  rw [hxn] at h1
  have hl := hlen s rfl
  have hj : j < s.inferred.length := (List.getElem?_eq_some_iff.1 e1).1
  cases td with
  | true =>
    simp only [if_true] at hl hk
    subst hk
    obtain ⟨a', ph', ha', hph', hRm⟩ := hlong (by omega)
    rw [e3] at ha'; rw [e4] at hph'
    cases ha'; cases hph'
    rw [h1, hRm, ← cexp_neg_eq]
  | false =>
    simp only [Bool.false_eq_true, if_false] at hl hk
    subst hk
    rw [e3] at ha; rw [e4] at hph
    cases ha; cases hph
    rw [h1, hshort (by omega), hRp, ← cexp_eq, map_mul, conj_cisd]
    simp

/-! ## One run -/

section
variable {E : Env} {t : TimeArg} {u : Series} {v : Option Series} {lat : Option ℝ} {opts : Dict PyVal}
  {c : Coef} {opt : Opt} {p : Prep} {tn : List Fl} {constit : Constit} {m : List ℂ} {W : List ℝ}
  {rf : Option RobOut} {full : Coef} {o : Order} {ind : List ℕ}

theorem Facts.copt (F : Facts E t u v lat opts c opt p tn constit m W rf full o ind) : c.opt = opt := by
  rw [F.solved.result]; exact F.solved.head.opt.trans F.prep.hopt

theorem Facts.creftime (F : Facts E t u v lat opts c opt p tn constit m W rf full o ind) :
    c.reftime = p.ed.tref := by rw [F.solved.result]; exact F.solved.head.reftime

theorem Facts.clat (F : Facts E t u v lat opts c opt p tn constit m W rf full o ind) :
    c.lat = p.lat := by rw [F.solved.result]; exact F.solved.head.lat

theorem Facts.cname (F : Facts E t u v lat opts c opt p tn constit m W rf full o ind) :
    c.name = gather p.sel.name ind := by
  rw [← F.solved.name]
  conv_lhs => rw [F.solved.result]
  rfl

theorem Facts.inferLengths (F : Facts E t u v lat opts c opt p tn constit m W rf full o ind)
    (hnd : opts.keys.Nodup) (s : InferSpec) (hs : p.infer = some s) :
    s.inferred.length = s.reference.length ∧
      s.amp.length = (if v.isSome then 2 * s.inferred.length else s.inferred.length) ∧
      s.phase.length = (if v.isSome then 2 * s.inferred.length else s.inferred.length) := by
  have hq := getOpt_requests _ hnd _ _ F.hopt
  obtain ⟨x, hx⟩ := Option.isSome_iff_exists.1 (hq.some "infer" (by simp))
  exact infer_lengths x _ _ s (hq.infer x hx) (by rw [F.prep.hinfer, hs])

theorem Facts.tiedBy (F : Facts E t u v lat opts c opt p tn constit m W rf full o ind)
    (hnd : opts.keys.Nodup) (P M : String → ℂ) (hT : TiedRotary p.infer v.isSome P M) :
    TiedBy p.sel InfCon.Rp P ∧ TiedBy p.sel InfCon.Rm M := by
  have hsel := F.prep.hsel
  refine ⟨tied_plus hsel P hT.plus, tied_minus hsel M ?_ ?_⟩
  · intro s hs hle j n r a φ h1 h2 h3 h4
    obtain ⟨-, hl, -⟩ := F.inferLengths hnd s hs
    refine hT.minus s hs j j n r a φ h1 h2 ?_ h3 h4
    have : j < s.inferred.length := (List.getElem?_eq_some_iff.1 h1).1
    cases hv : v.isSome with
    | false => rfl
    | true => simp only [hv, if_true] at hl; omega
  · intro s hs hle j n r a φ h1 h2 h3 h4
    obtain ⟨-, hl, -⟩ := F.inferLengths hnd s hs
    refine hT.minus s hs j _ n r a φ h1 h2 ?_ h3 h4
    cases hv : v.isSome with
    | true => rfl
    | false => simp only [hv, Bool.false_eq_true, if_false] at hl; omega

theorem Facts.tiedRotary (F : Facts E t u v lat opts c opt p tn constit m W rf full o ind)
    (hnd : opts.keys.Nodup) (P M : String → ℂ) (hP : TiedBy p.sel InfCon.Rp P) (hM : TiedBy p.sel InfCon.Rm M) :
    TiedRotary p.infer v.isSome P M :=
  ⟨tied_plus_conv F.prep.hsel P hP,
   tied_minus_conv F.prep.hsel M hM v.isSome fun s hs => (F.inferLengths hnd s hs).2.1⟩

/-- The result belonging to given rotary coefficients. -/
theorem Facts.named (F : Facts E t u v lat opts c opt p tn constit m W rf full o ind) (hnd : opts.keys.Nodup)
    (P M : String → ℂ) (mean slope : ℂ) (hP : TiedBy p.sel InfCon.Rp P) (hM : TiedBy p.sel InfCon.Rm M)
    (hm : m = nameCoef p.sel (!opt.notrend) P M mean slope) :
    c.ell = ellOf v.isSome (c.name.map P) (c.name.map M) ∧
    c.mean = if v.isSome then .two mean.re mean.im (if opt.notrend then none else some
        (slope.re / p.ed.lor, slope.im / p.ed.lor))
      else .one mean.re (if opt.notrend then none else some (slope.re / p.ed.lor)) := by
  have hq := getOpt_requests _ hnd _ _ F.hopt
  have htd : p.opt.twodim = v.isSome := by rw [F.prep.hopt]; exact hq.twodim
  have hal := F.prep.aligned
  constructor
  · have h1 : c.ell = full.ell.permute ind := by rw [F.solved.result]; rfl
    rw [h1, F.solved.ell, htd, hm, nameCoef_allAp hal _ _ _ _ _ hP, nameCoef_allAm hal _ _ _ _ _ hM,
      ellOf_map_permute, ← F.cname]
  · have h1 : c.mean = full.mean := by rw [F.solved.result]; rfl
    rw [h1, F.solved.head.mean]
    show meanOf p.opt.twodim p.opt.notrend p.ed.lor p.nm m = _
    rw [htd, F.prep.hopt, F.prep.nm, hm, nameCoef_meanOf hal]

/-- Every result is of this form when the names are distinct. -/
theorem Facts.exists_named (F : Facts E t u v lat opts c opt p tn constit m W rf full o ind)
    (hn : p.sel.name.Nodup) :
    ∃ (P M : String → ℂ) (mean slope : ℂ), TiedBy p.sel InfCon.Rp P ∧ TiedBy p.sel InfCon.Rm M ∧
      m = nameCoef p.sel (!opt.notrend) P M mean slope :=
  exists_nameCoef F.prep.aligned hn _ m (by rw [F.mlen, F.prep.nm])

end

end

end UTide.Props
