import Verif.Props.RecProps
import Verif.Lemmas.Fit
import Verif.Lemmas.TotalInfer

/-!
# The fit as a whole: C01, C02, C03
-/

namespace UTide.Props

noncomputable section

open Classical

local notation "conj" => starRingEnd ℂ

/-! ## Specification -/

/-- The (nodally corrected) harmonic of the constituent called `n`, in the options, latitude and reference time of
`coef`. -/
def harmonic (c : Coef) (n : String) (τ : ℝ) : ℂ := nameBasis c.opt.flags c.reftime c.lat τ n

/-- A tidal curve: mean, slope, and an amplitude and phase (degrees) for each constituent of `coef`. -/
def scalarCurve (c : Coef) (A g : String → ℝ) (mean slope τ : ℝ) : ℝ :=
  mean + slope * (τ - c.reftime) + (c.name.map fun n => A n * (harmonic c n τ * cisd (-(g n))).re).sum

/-- A tidal current, as complex numbers `u + iv`: mean, slope, and an ellipse for each constituent of `coef`, run
through with phase `g`. -/
def vectorCurve (c : Coef) (e : String → Ell) (mean slope : ℂ) (τ : ℝ) : ℂ :=
  mean + slope * ((τ - c.reftime : ℝ) : ℂ) + (c.name.map fun n => cisd (e n).theta *
    ⟨(e n).Lsmaj * (harmonic c n τ * cisd (-(e n).g)).re, (e n).Lsmin * (harmonic c n τ * cisd (-(e n).g)).im⟩).sum

/-- Counter-clockwise and clockwise rotating part of an ellipse. -/
def ccw (e : Ell) : ℂ := (((e.Lsmaj + e.Lsmin) / 2 : ℝ) : ℂ) * cisd (e.theta - e.g)
def cw (e : Ell) : ℂ := (((e.Lsmaj - e.Lsmin) / 2 : ℝ) : ℂ) * cisd (e.theta + e.g)

/-- Inferred constituents have the prescribed amplitude ratio and phase offset to their references. -/
def TiedScalar (sp : Option InferSpec) (A g : String → ℝ) : Prop :=
  ∀ s, sp = some s → ∀ (j : ℕ) (n r : String) (a φ : ℚ), s.inferred[j]? = some n → s.reference[j]? = some r →
    s.amp[j]? = some a → s.phase[j]? = some φ → A n = a * A r ∧ g n = g r - φ

/-- The same for currents: the first half of the ratios and offsets is for the counter-clockwise, the second half for
the clockwise part. -/
def TiedVector (sp : Option InferSpec) (e : String → Ell) : Prop :=
  ∀ s, sp = some s → ∀ (j : ℕ) (n r : String) (a φ a' φ' : ℚ), s.inferred[j]? = some n →
    s.reference[j]? = some r → s.amp[j]? = some a → s.phase[j]? = some φ →
    s.amp[j + s.inferred.length]? = some a' → s.phase[j + s.inferred.length]? = some φ' →
    ccw (e n) = a * cisd φ * ccw (e r) ∧ cw (e n) = a' * cisd (-φ') * cw (e r)

/-- Squared difference to one sample, 0 if there is no sample or no value. -/
def sqDiff : Option ℂ → Option ℂ → ℝ
  | some x, some z => ‖x - z‖ ^ 2
  | _, _ => 0

/-- Sample `u` or `u + iv`; none if masked or not finite. -/
def sampleValues (u : List Cell) : Option (List Cell) → List (Option ℂ)
  | none => u.map fun a => a.value?.map fun x : ℝ => (x : ℂ)
  | some v => List.zipWith (fun a b => a.value?.bind fun x => b.value?.map fun y => (⟨x, y⟩ : ℂ)) u v

/-- Total squared misfit of a curve to the series. -/
def misfit (u : List Cell) (v : Option (List Cell)) (r : List (Option ℂ)) : ℝ :=
  (List.zipWith sqDiff (sampleValues u v) r).sum

/-! ## Lemmas -/

theorem misfit_usable (tn : List Fl) (u : List Cell) (v : Option (List Cell)) (hl : SameLength tn u v) (f : ℝ → ℂ) :
    misfit u v (tn.map fun x => x.toReal?.map f) = ((usable tn u v).map fun s => ‖s.2 - f s.1‖ ^ 2).sum := by
  unfold misfit
  cases v with
  | none =>
    obtain ⟨h1, -⟩ := hl
    simp only [sampleValues, usable, goodSamples]
    induction tn generalizing u with
    | nil => simp
    | cons x tn ih =>
      cases u with
      | nil => simp at h1
      | cons a u =>
        have := ih u (by simpa using h1)
        simp only [List.map_cons, List.zipWith_cons_cons, List.sum_cons, List.zip_cons_cons]
        rw [this, List.filterMap_cons]
        cases x.toReal? with
        | none => simp [sqDiff]
        | some τ =>
          cases a.value? with
          | none => simp [sqDiff]
          | some y => simp [sqDiff]
  | some v =>
    obtain ⟨h1, h2⟩ := hl
    replace h2 := h2 v rfl
    simp only [sampleValues, usable, goodSamples2]
    induction tn generalizing u v with
    | nil => simp
    | cons x tn ih =>
      cases u with
      | nil => simp at h1
      | cons a u =>
        cases v with
        | nil => simp at h2
        | cons b v =>
          have := ih u v (by simpa using h1) (by simpa using h2)
          simp only [List.map_cons, List.zipWith_cons_cons, List.sum_cons, List.zip_cons_cons]
          rw [this, List.filterMap_cons]
          cases x.toReal? with
          | none => simp [sqDiff]
          | some τ =>
            cases a.value? with
            | none => simp [sqDiff]
            | some y =>
              cases b.value? with
              | none => simp [sqDiff]
              | some w =>
                have : (⟨y, w⟩ : ℂ) = (y : ℂ) + Complex.I * (w : ℂ) := by apply Complex.ext <;> simp
                simp [sqDiff, this]

theorem cexp_eq (φ : ℚ) : cisd (φ : ℝ) = Complex.exp (Complex.I * (φ : ℂ) * Real.pi / 180) := by
  unfold cisd; congr 1; push_cast; ring

theorem cexp_neg_eq (φ : ℚ) : cisd (-(φ : ℝ)) = Complex.exp (-Complex.I * (φ : ℂ) * Real.pi / 180) := by
  unfold cisd; congr 1; push_cast; ring

section
variable {E : Env} {t : TimeArg} {u : Series} {v : Option Series} {lat : Option ℝ} {opts : Dict PyVal}
  {c : Coef} {opt : Opt} {p : Prep} {tn : List Fl} {constit : Constit} {m : List ℂ} {W : List ℝ}
  {rf : Option RobOut} {full : Coef} {o : Order} {ind : List ℕ}

/-- The usable samples. -/
theorem Facts.samples (F : Facts E t u v lat opts c opt p tn constit m W rf full o ind) (R : Ready E t u v) :
    SameLength tn u.data (v.map Series.data) ∧
    p.ed.t = (usable tn u.data (v.map Series.data)).map Prod.fst ∧
    xraw p.ed = (usable tn u.data (v.map Series.data)).map Prod.snd := by
  have hl := F.prep.init.same R.ht R.hu R.hv
  obtain ⟨-, h1, h2, -, -⟩ := editData_usable tn _ _ hl _ F.prep.init.edit
  exact ⟨hl, h1, h2⟩

/-- Ordinary least squares: the coefficients are the minimum-norm solution. -/
theorem Facts.minNorm (F : Facts E t u v lat opts c opt p tn constit m W rf full o ind) (R : Ready E t u v)
    (hols : opt.method = .ols) : IsMinNormSol p.nm p.B (xraw p.ed) m := by
  have hf := F.solved.fit
  unfold stageFit at hf
  rw [F.prep.hopt, hols] at hf
  have := (R.lstsq none p.nm p.B (xraw p.ed) F.prep.rows (F.prep.height R.ht R.hu R.hv)).2 trivial
  rw [show m = (E.num.lstsq none p.nm p.B (xraw p.ed)).b from ((Prod.mk.inj (Except.ok.inj hf)).1).symm]
  exact this.1

/-- The quotient in the exact inference formulas is defined. -/
theorem Facts.refNonzero (F : Facts E t u v lat opts c opt p tn constit m W rf full o ind)
    (hex : approxOf p.infer = false) : ∀ τ ∈ p.ed.t, ∀ r ∈ p.sel.refs,
      utE opt.flags p.ed.tref p.lat τ r.frq r.lind ≠ 0 := by
  intro τ hτ r hr
  have hc := F.prep.check
  unfold checkMatrix at hc
  simp only [bind_eq_ok] at hc
  obtain ⟨_, -, _, -, hc⟩ := hc
  cases hi : p.infer with
  | none =>
    have hsel := F.prep.hsel
    rw [hi] at hsel
    obtain ⟨-, -, h2, -⟩ := cnstitsel_none _ _ _ _ hsel
    rw [h2] at hr
    simp at hr
  | some s =>
    rw [hi] at hc hex
    have hs : s.approximate = false := hex
    simp only [hs, Bool.false_eq_true, if_false, bind_eq_ok] at hc
    obtain ⟨_, h1, -⟩ := hc
    rw [raiseIf_ok, List.any_eq_false] at h1
    have h2 := h1 τ hτ
    rw [Bool.not_eq_true, List.any_eq_false] at h2
    have h3 := h2 r hr
    simpa using h3

theorem Facts.lorNonzero (F : Facts E t u v lat opts c opt p tn constit m W rf full o ind)
    (htr : opt.notrend = false) : p.ed.lor ≠ 0 := by
  have hc := F.prep.check
  unfold checkMatrix at hc
  simp only [bind_eq_ok] at hc
  obtain ⟨_, -, _, -, hc⟩ := hc
  have key : ∀ x, raiseIf (!opt.notrend && decide (p.ed.lor = 0)) PyErr.nonFinite = .ok x → p.ed.lor ≠ 0 := by
    intro x h
    rw [raiseIf_ok, htr] at h
    simpa using h
  cases hi : p.infer with
  | none => rw [hi] at hc; simp only [] at hc; exact key _ hc
  | some s =>
    rw [hi] at hc
    cases hs : s.approximate with
    | true => simp only [hs, if_true, bind_eq_ok] at hc; obtain ⟨_, -, h⟩ := hc; exact key _ h
    | false => simp only [hs, Bool.false_eq_true, if_false, bind_eq_ok] at hc; obtain ⟨_, -, h⟩ := hc; exact key _ h

/-- The row of the model matrix at time `τ`. -/
def rowAt (p : Prep) (τ : ℝ) : List ℂ :=
  modelRow p.opt.flags p.ed.tref p.lat p.ed.lor (!p.opt.notrend) (approxOf p.infer) p.sel τ

theorem Facts.cost_eq (F : Facts E t u v lat opts c opt p tn constit m W rf full o ind) (R : Ready E t u v)
    (m' : List ℂ) : cost p.B (xraw p.ed) m' =
      ((usable tn u.data (v.map Series.data)).map fun s => ‖s.2 - dot (rowAt p s.1) m'‖ ^ 2).sum := by
  obtain ⟨-, h1, h2⟩ := F.samples R
  rw [F.prep.B, h1, h2, ← F.prep.hopt]
  exact cost_map _ (rowAt p) m'

/-- The reconstruction from the fitted coefficients. -/
theorem Facts.curve_full (F : Facts E t u v lat opts c opt p tn constit m W rf full o ind) (hnd : opts.keys.Nodup)
    (hex : approxOf p.infer = false) (τ : ℝ) (hτ : τ ∈ p.ed.t) :
    curve full (List.range p.sel.lind.length) τ =
      if v.isSome then dot (rowAt p τ) m else (((dot (rowAt p τ) m).re : ℝ) : ℂ) := by
  have hq := getOpt_requests _ hnd _ _ F.hopt
  have htd := hq.twodim
  have hal := F.prep.aligned
  have hco := F.coherent hnd
  have hn : p.sel.lind.length = p.sel.lind.length := rfl
  have hmlen : m.length = numCols (!opt.notrend) p.sel := by rw [F.mlen, F.prep.nm]
  have hrow := row_signal opt.flags p.ed.tref p.lat p.ed.lor (!opt.notrend) p.sel τ m hal hmlen
    (F.refNonzero hex τ hτ)
  have hpo := F.prep.hopt
  have hfo : full.opt = opt := F.solved.head.opt.trans hpo
  have hft : full.reftime = p.ed.tref := F.solved.head.reftime
  have hfl : full.lat = p.lat := F.solved.head.lat
  have hmean : full.mean = meanOf opt.twodim opt.notrend p.ed.lor p.nm m := by rw [← hpo]; exact F.solved.head.mean
  have hell : full.ell = ellOf opt.twodim (allAp p.sel m) (allAm p.sel m) := by rw [← hpo]; exact F.solved.ell
  have hbasis : full.basis τ = selBasis opt.flags p.ed.tref p.lat p.sel τ := by
    unfold Coef.basis
    rw [hfo, hft, hfl, F.solved.frq, F.solved.lind, selBasis_names hal, hal.frq, hal.name, List.map_map]
    have : List.zipWith (utE opt.flags p.ed.tref p.lat τ) (p.sel.lind.map (linFreqs p.ed.tref)) p.sel.lind =
        p.sel.lind.map fun i => utE opt.flags p.ed.tref p.lat τ (linFreqs p.ed.tref i) i := by
      conv_lhs => rw [show p.sel.lind = p.sel.lind.map id by simp]
      rw [List.map_map]
      exact zipWith_map_same _ _ _ _
    rw [this]
    exact List.map_congr_left fun i hi => (nameBasis_nameAt _ _ _ _ (hal.lt i hi)).symm
  obtain ⟨hap, ham⟩ : (allAp p.sel m).length = p.sel.lind.length ∧ (allAm p.sel m).length = p.sel.lind.length := by
    obtain ⟨a, b, cc, d, e, f, hb⟩ := exists_blocks p.sel (!opt.notrend) m hmlen
    have h1 : cc.length = p.sel.refs.length := by rw [hb.c, hal.nR]
    have h2 : d.length = p.sel.refs.length := by rw [hb.d, hal.nR]
    have key : ∀ (Rr : InfCon → ℂ) (x : List ℂ), x.length = p.sel.refs.length →
        ((p.sel.refs.zip x).flatMap fun q => q.1.inf.map fun i => Rr i * q.2).length =
          (p.sel.refs.flatMap fun r => r.inf.map InfCon.lind).length := by
      intro Rr
      generalize p.sel.refs = refs
      induction refs with
      | nil => intros; simp
      | cons r refs ih =>
        intro x hx
        cases x with
        | nil => simp at hx
        | cons y x => simp only [List.zip_cons_cons, List.flatMap_cons, List.length_append, List.length_map,
                        ih x (by simpa using hx)]
    unfold allAp allAm
    rw [hb.ap, hb.am, inferredCoef_eq _ _ _ _ hb.a h1, inferredCoef_eq _ _ _ _ hb.b h2, hal.lind_eq]
    simp only [List.length_append, key _ _ h1, key _ _ h2, hb.a, hb.b, h1, h2, List.length_map, hal.nNR]
    exact ⟨trivial, trivial⟩
  have hbl : (selBasis opt.flags p.ed.tref p.lat p.sel τ).length = p.sel.lind.length := by
    rw [selBasis_names hal, List.length_map, hal.name, List.length_map]
  have hsum : ∀ f : ℕ → ℂ, (∀ i < p.sel.lind.length, f i = (contribs full τ).getD i 0) →
      ((List.range p.sel.lind.length).map f).sum = (contribs full τ).sum := by
    intro f hf
    have hl := contribs_length F.len τ
    congr 1
    apply List.ext_getElem
    · simp [hl]
    · intro i h1 h2
      simp only [List.getElem_map, List.getElem_range]
      rw [hf i (by simpa using h1), List.getD_eq_getElem _ _ h2]
  have hcontr : contribs full τ = List.zipWith (fun z e => z * (if opt.twodim then recAp2 e else recAp1 e) +
      conj z * (if opt.twodim then recAm2 e else recAm1 e)) (selBasis opt.flags p.ed.tref p.lat p.sel τ)
      (List.zipWith (if opt.twodim then ell2 else ell1) (allAp p.sel m) (allAm p.sel m)) := by
    unfold contribs
    rw [hfo, hbasis, hell, zipWith_ell_toEll]
  have hrow' : dot (rowAt p τ) m = rotary (selBasis opt.flags p.ed.tref p.lat p.sel τ) (allAp p.sel m) (allAm p.sel m)
      + m.getD (2 * (p.sel.nNR + p.sel.nR)) 0 +
      (if !opt.notrend then (((τ - p.ed.tref) / p.ed.lor : ℝ) : ℂ) * m.getD (2 * (p.sel.nNR + p.sel.nR) + 1) 0
        else 0) := by
    rw [← hrow]
    unfold rowAt
    rw [hex, hpo]
  have hk : p.nm = 2 * (p.sel.nNR + p.sel.nR) + 1 + (if opt.notrend then 0 else 1) := by
    rw [F.prep.nm]; unfold numCols; cases opt.notrend <;> rfl
  rcases hco.kind with ⟨h1, A, g, mm, s, he, hm, hs⟩ | ⟨h1, M, mi, th, g, um, vm, s, he, hm, hs⟩
  · rw [hfo] at h1
    rw [h1] at htd hcontr hmean
    rw [← htd]
    simp only [Bool.false_eq_true, if_false] at hcontr ⊢
    have hre : (contribs full τ).sum.re =
        (rotary (selBasis opt.flags p.ed.tref p.lat p.sel τ) (allAp p.sel m) (allAm p.sel m)).re := by
      rw [hcontr]
      exact contribs_rotary1 _ _ _ (by rw [hap, ham]) (by rw [hap, hbl])
    unfold curve
    have htw : full.opt.twodim = false := by rw [hfo]; exact h1
    have h3 : ((List.range p.sel.lind.length).map (tide full τ)).sum = (((contribs full τ).sum.re : ℝ) : ℂ) := by
      apply Complex.ext
      · rw [Complex.ofReal_re, re_sum_map]
        have h4 := hsum (fun i => (contribs full τ).getD i 0) fun i _ => rfl
        rw [← h4, re_sum_map]
        exact congrArg List.sum (List.map_congr_left fun i hi =>
          ((tide_one F.len htw he τ i (List.mem_range.1 hi)).1).symm)
      · rw [Complex.ofReal_im, im_sum_map, List.map_congr_left fun i hi =>
          (tide_one F.len htw he τ i (List.mem_range.1 hi)).2]
        simp
    rw [h3, hre, hrow']
    unfold level
    rw [hmean, hft]
    unfold meanOf
    simp only [Bool.false_eq_true, if_false]
    cases hnt : opt.notrend with
    | true =>
      rw [hnt] at hk
      simp only [if_true, add_zero] at hk
      simp only [if_true, Bool.not_true, Bool.false_eq_true, if_false, Option.getD_none, add_zero, Complex.add_re]
      rw [show p.nm - 1 = 2 * (p.sel.nNR + p.sel.nR) by omega]
      push_cast
      ring
    | false =>
      rw [hnt] at hk
      simp only [Bool.false_eq_true, if_false] at hk
      simp only [Bool.false_eq_true, if_false, Bool.not_false, if_true, Option.getD_some, Complex.add_re]
      rw [show p.nm - 2 = 2 * (p.sel.nNR + p.sel.nR) by omega,
        show p.nm - 1 = 2 * (p.sel.nNR + p.sel.nR) + 1 by omega, Complex.re_ofReal_mul]
      push_cast
      ring
  · rw [hfo] at h1
    rw [h1] at htd hcontr hmean
    rw [← htd]
    simp only [if_true] at hcontr ⊢
    have hsig : (contribs full τ).sum =
        rotary (selBasis opt.flags p.ed.tref p.lat p.sel τ) (allAp p.sel m) (allAm p.sel m) := by
      rw [hcontr]
      exact contribs_rotary2 _ _ _ (by rw [hap, ham]) (by rw [hap, hbl])
    unfold curve
    have htw : full.opt.twodim = true := by rw [hfo]; exact h1
    rw [hsum (tide full τ) fun i hi => (tide_two F.len htw he τ i hi).symm, hsig, hrow']
    unfold level
    rw [hmean, hft]
    unfold meanOf
    simp only [if_true]
    cases hnt : opt.notrend with
    | true =>
      rw [hnt] at hk
      simp only [if_true, add_zero] at hk
      simp only [if_true, Bool.not_true, Bool.false_eq_true, if_false, Option.getD_none, add_zero]
      rw [show p.nm - 1 = 2 * (p.sel.nNR + p.sel.nR) by omega]
      apply Complex.ext <;> simp <;> ring
    | false =>
      rw [hnt] at hk
      simp only [Bool.false_eq_true, if_false] at hk
      simp only [Bool.false_eq_true, if_false, Bool.not_false, if_true, Option.getD_some]
      rw [show p.nm - 2 = 2 * (p.sel.nNR + p.sel.nR) by omega,
        show p.nm - 1 = 2 * (p.sel.nNR + p.sel.nR) + 1 by omega]
      apply Complex.ext
      · simp only [Complex.add_re, Complex.re_ofReal_mul]; ring
      · simp only [Complex.add_im, Complex.im_ofReal_mul]; ring

/-- Exact ties, spelled with the specification of the inference. -/
theorem tied_plus {tref : ℝ} {minres : Fl} {con : Constit} {inf : Option InferSpec} {sel : Sel}
    (hsel : cnstitsel tref minres con inf = .ok sel) (P : String → ℂ)
    (h : ∀ s, inf = some s → ∀ (j : ℕ) (n r : String) (a φ : ℚ), s.inferred[j]? = some n → s.reference[j]? = some r →
      s.amp[j]? = some a → s.phase[j]? = some φ → P n = a * cisd φ * P r) : TiedBy sel InfCon.Rp P := by
  intro r hr q hq
  cases inf with
  | none =>
    obtain ⟨-, -, h2, -⟩ := cnstitsel_none _ _ _ _ hsel
    rw [h2] at hr; simp at hr
  | some s =>
    obtain ⟨l0, -, -, -, -, hrefs, -⟩ := cnstitsel_some _ _ _ _ _ hsel
    obtain ⟨n, -, hn⟩ := mapM_mem' _ _ _ hrefs _ hr
    obtain ⟨rfl, -, -, hinf⟩ := mkRef_ok _ _ _ _ hn
    obtain ⟨j, hj, hq'⟩ := mapM_mem' _ _ _ hinf _ hq
    rw [mem_refPositions] at hj
    obtain ⟨a, ph, ha, hph, hRp, -, -, hname, -, -⟩ := mkInf_ok _ _ _ _ hq'
    rw [h s rfl j _ _ a ph hname hj ha hph, hRp, ← cexp_eq]

theorem tied_minus {tref : ℝ} {minres : Fl} {con : Constit} {inf : Option InferSpec} {sel : Sel}
    (hsel : cnstitsel tref minres con inf = .ok sel) (P : String → ℂ)
    (h1 : ∀ s, inf = some s → s.amp.length ≤ s.inferred.length → ∀ (j : ℕ) (n r : String) (a φ : ℚ),
      s.inferred[j]? = some n → s.reference[j]? = some r →
      s.amp[j]? = some a → s.phase[j]? = some φ → P n = a * cisd (-φ) * P r)
    (h2 : ∀ s, inf = some s → s.inferred.length < s.amp.length → ∀ (j : ℕ) (n r : String) (a φ : ℚ),
      s.inferred[j]? = some n → s.reference[j]? = some r →
      s.amp[j + s.inferred.length]? = some a → s.phase[j + s.inferred.length]? = some φ →
        P n = a * cisd (-φ) * P r) : TiedBy sel InfCon.Rm P := by
  intro r hr q hq
  cases inf with
  | none =>
    obtain ⟨-, -, h2, -⟩ := cnstitsel_none _ _ _ _ hsel
    rw [h2] at hr; simp at hr
  | some s =>
    obtain ⟨l0, -, -, -, -, hrefs, -⟩ := cnstitsel_some _ _ _ _ _ hsel
    obtain ⟨n, -, hn⟩ := mapM_mem' _ _ _ hrefs _ hr
    obtain ⟨rfl, -, -, hinf⟩ := mkRef_ok _ _ _ _ hn
    obtain ⟨j, hj, hq'⟩ := mapM_mem' _ _ _ hinf _ hq
    rw [mem_refPositions] at hj
    obtain ⟨a, ph, ha, hph, hRp, hlong, hshort, hname, -, -⟩ := mkInf_ok _ _ _ _ hq'
    rcases Nat.lt_or_ge s.inferred.length s.amp.length with hl | hl
    · obtain ⟨a', ph', ha', hph', hRm⟩ := hlong hl
      rw [h2 s rfl hl j _ _ a' ph' hname hj ha' hph', hRm, ← cexp_neg_eq]
    · rw [h1 s rfl hl j _ _ a ph hname hj ha hph, hshort hl, hRp, ← cexp_eq, map_mul, conj_cisd]
      simp

/-- Best among all tied competitors. -/
theorem Facts.best (F : Facts E t u v lat opts c opt p tn constit m W rf full o ind) (R : Ready E t u v)
    (hols : opt.method = .ols) (hex : approxOf p.infer = false) (P M : String → ℂ) (mean slope : ℂ)
    (hP : TiedBy p.sel InfCon.Rp P) (hM : TiedBy p.sel InfCon.Rm M) (hs : opt.notrend = true → slope = 0) :
    cost p.B (xraw p.ed) m ≤ ((usable tn u.data (v.map Series.data)).map fun s => ‖s.2 -
      ((p.sel.name.map fun n => nameBasis opt.flags p.ed.tref p.lat s.1 n * P n +
        conj (nameBasis opt.flags p.ed.tref p.lat s.1 n) * M n).sum + mean +
        slope * ((s.1 - p.ed.tref : ℝ) : ℂ))‖ ^ 2).sum := by
  have hal := F.prep.aligned
  have hmin := F.minNorm R hols
  have hb := nameCoef_blocks hal (!opt.notrend) P M mean (slope * (p.ed.lor : ℂ))
  refine le_trans (hmin.optimal _ (by rw [F.prep.nm]; exact hb.length)) (le_of_eq ?_)
  rw [F.cost_eq R]
  refine congrArg List.sum (List.map_congr_left fun s hs' => ?_)
  have hτ : s.1 ∈ p.ed.t := by rw [(F.samples R).2.1]; exact List.mem_map_of_mem hs'
  congr 3
  unfold rowAt
  rw [hex, F.prep.hopt]
  exact row_nameCoef hal _ _ _ _ _ (F.refNonzero hex _ hτ) P M mean slope hP hM
    (fun h => F.lorNonzero (by simpa using h)) (fun h => hs (by simpa using h))

/-- All constituents are asked for. -/
def RecArgs.Everything (a : RecArgs) : Prop := a.constit = none ∧ a.minSNR = 0 ∧ a.minPE = 0

/-- `reconstruct` of everything at the sample times. -/
theorem Facts.reconstruct_all (F : Facts E t u v lat opts c opt p tn constit m W rf full o ind) (R : Ready E t u v)
    (hnd : opts.keys.Nodup) (hk : AllKept c) (a : RecArgs) (ha : RecArgs.Everything a) (E' : Env) (t' : TimeArr) :
    reconstruct E' t' c a = (normalizeTime E'.dt64 t' a.epoch).map fun tn => tn.map fun x =>
      x.toReal?.map (curve full (List.range p.sel.lind.length)) := by
  have hperm := F.kept hnd R hk
  have hco := F.coherent hnd
  have hci : ∀ x, full.ci = some x → x.Len p.sel.lind.length := fun x hx => F.solved.ciLen F.prep F.mlen x hx
  rw [F.solved.result, C35_permutation _ full F.len hci ind hperm]
  refine reconstruct_eq hco E' t' a _ ?_
  unfold recIndex
  obtain ⟨h1, h2, h3⟩ := ha
  rw [h1]
  dsimp only
  rw [if_pos (.inl ⟨h2, h3⟩), F.len.name]

/-- The misfit of the reconstruction is at most the cost of the fit. -/
theorem Facts.misfit_le (F : Facts E t u v lat opts c opt p tn constit m W rf full o ind) (R : Ready E t u v)
    (hnd : opts.keys.Nodup) (hex : approxOf p.infer = false) :
    misfit u.data (v.map Series.data) (tn.map fun x => x.toReal?.map (curve full (List.range p.sel.lind.length))) ≤
      cost p.B (xraw p.ed) m := by
  rw [misfit_usable _ _ _ (F.samples R).1, F.cost_eq R]
  refine List.sum_le_sum fun s hs => ?_
  have hτ : s.1 ∈ p.ed.t := by rw [(F.samples R).2.1]; exact List.mem_map_of_mem hs
  rw [F.curve_full hnd hex _ hτ]
  cases hv : v with
  | some w => simp
  | none =>
    have him : s.2.im = 0 := by
      rw [hv] at hs
      simp only [Option.map_none, usable, List.mem_map] at hs
      obtain ⟨q, -, rfl⟩ := hs
      simp
    simp only [Option.isSome_none, Bool.false_eq_true, if_false]
    generalize dot (rowAt p s.1) m = z
    rw [← Complex.normSq_eq_norm_sq, ← Complex.normSq_eq_norm_sq, Complex.normSq_apply, Complex.normSq_apply]
    simp only [Complex.sub_re, Complex.sub_im, Complex.ofReal_re, Complex.ofReal_im, him]
    nlinarith [mul_self_nonneg z.im]

theorem Facts.perm_names (F : Facts E t u v lat opts c opt p tn constit m W rf full o ind) (R : Ready E t u v)
    (hnd : opts.keys.Nodup) (hk : AllKept c) : c.name.Perm p.sel.name := by
  have hperm := F.kept hnd R hk
  have : c.name = gather full.name ind := by rw [F.solved.result]; rfl
  rw [this, ← F.solved.name]
  exact gather_perm _ (by rw [F.len.name]; exact hperm)

theorem Facts.harmonic_eq (F : Facts E t u v lat opts c opt p tn constit m W rf full o ind) (n : String) (τ : ℝ) :
    harmonic c n τ = nameBasis opt.flags p.ed.tref p.lat τ n := by
  unfold harmonic
  have h1 : c.opt = opt := by rw [F.solved.result]; exact F.solved.head.opt.trans F.prep.hopt
  have h2 : c.reftime = p.ed.tref := by rw [F.solved.result]; exact F.solved.head.reftime
  have h3 : c.lat = p.lat := by rw [F.solved.result]; exact F.solved.head.lat
  rw [h1, h2, h3]

end

/-- What C01 and C02 have in common: a competitor with rotary coefficients `P`, `M`. -/
theorem best_rotary (E : Env) (t : TimeArg) (u : Series) (v : Option Series) (lat : Option ℝ) (opts : Dict PyVal)
    (R : Ready E t u v) (hnd : opts.keys.Nodup) (hm : ∃ x, requested opts "method" = some x ∧ IsStr x "ols")
    (c : Coef) (h : solve E t u v lat opts = .ok c) (hk : AllKept c)
    (sp : Option InferSpec) (hi : readInfer c.opt.infer = .ok sp) (hex : ∀ s, sp = some s → s.approximate = false)
    (a : RecArgs) (hae : a.epoch = c.opt.epoch) (hall : RecArgs.Everything a) :
    ∃ tn r, normalizeTime E.dt64 t.arr c.opt.epoch = .ok tn ∧ reconstruct E t.arr c a = .ok r ∧
      SameLength tn u.data (v.map Series.data) ∧ r.length = tn.length ∧
      (∀ i : ℕ, ∀ τ : ℝ, tn[i]? = some (.fin τ) → ∃ z : ℂ, r[i]? = some (some z)) ∧
      (∀ s, sp = some s → s.inferred.length = s.reference.length ∧
        s.amp.length = (if v.isSome then 2 * s.inferred.length else s.inferred.length) ∧
        s.phase.length = (if v.isSome then 2 * s.inferred.length else s.inferred.length)) ∧
      ∀ (P M : String → ℂ) (mean slope : ℂ),
        (∀ s, sp = some s → ∀ (j : ℕ) (n r : String) (a φ : ℚ), s.inferred[j]? = some n → s.reference[j]? = some r →
          s.amp[j]? = some a → s.phase[j]? = some φ → P n = a * cisd φ * P r) →
        (∀ s, sp = some s → ∀ (j k : ℕ) (n r : String) (a φ : ℚ), s.inferred[j]? = some n →
          s.reference[j]? = some r → k = (if v.isSome then j + s.inferred.length else j) →
          s.amp[k]? = some a → s.phase[k]? = some φ → M n = a * cisd (-φ) * M r) →
        (c.opt.notrend = true → slope = 0) →
        misfit u.data (v.map Series.data) r ≤ misfit u.data (v.map Series.data) (tn.map fun x => x.toReal?.map
          fun τ => (c.name.map fun n => harmonic c n τ * P n + conj (harmonic c n τ) * M n).sum + mean +
            slope * ((τ - c.reftime : ℝ) : ℂ)) := by
  obtain ⟨opt, p, tn, constit, m, W, rf, full, o, ind, F⟩ := solve_facts R h
  have hq := getOpt_requests _ hnd _ _ F.hopt
  have hc1 : c.opt = opt := by rw [F.solved.result]; exact F.solved.head.opt.trans F.prep.hopt
  have hc2 : c.reftime = p.ed.tref := by rw [F.solved.result]; exact F.solved.head.reftime
  have hols : opt.method = .ols := by
    obtain ⟨x, hx, hs⟩ := hm
    exact hq.ols x hx (by rcases hs with rfl | rfl <;> simp [PyVal.eqStr])
  rw [hc1, F.prep.hinfer] at hi
  have hi := (Except.ok.inj hi)
  have hex' : approxOf p.infer = false := by
    rw [hi]
    cases hsp : sp with
    | none => rfl
    | some s => exact hex s hsp
  have hlen : ∀ s, sp = some s → s.inferred.length = s.reference.length ∧
        s.amp.length = (if v.isSome then 2 * s.inferred.length else s.inferred.length) ∧
        s.phase.length = (if v.isSome then 2 * s.inferred.length else s.inferred.length) := by
    rintro s rfl
    obtain ⟨x, hx⟩ := Option.isSome_iff_exists.1 (hq.some "infer" (by simp))
    exact infer_lengths x _ _ s (hq.infer x hx) (by rw [F.prep.hinfer, hi])
  refine ⟨tn, tn.map fun x => x.toReal?.map (curve full (List.range p.sel.lind.length)),
    by rw [hc1]; exact F.prep.init.time, ?_, (F.samples R).1, ?_, ?_, hlen, ?_⟩
  · rw [F.reconstruct_all R hnd hk a hall, hae, hc1, F.prep.init.time]; rfl
  · simp
  · intro i τ hτ
    simp [List.getElem?_map, hτ, Fl.toReal?]
  · intro P M mean slope hP hM hs
    refine le_trans (F.misfit_le R hnd hex') ?_
    have hsel := F.prep.hsel
    rw [hi] at hsel
    refine le_trans (F.best R hols hex' P M mean slope (tied_plus hsel P hP) (tied_minus hsel M ?_ ?_)
      (fun hh => hs (by rw [hc1]; exact hh))) (le_of_eq ?_)
    · intro s hs hle j n r a φ h1 h2 h3 h4
      obtain ⟨-, hl, -⟩ := hlen s hs
      cases v with
      | none => exact hM s hs j j n r a φ h1 h2 rfl h3 h4
      | some w =>
        simp only [Option.isSome_some, if_true] at hl
        have : j < s.inferred.length := (List.getElem?_eq_some_iff.1 h1).1
        omega
    · intro s hs hle j n r a φ h1 h2 h3 h4
      obtain ⟨-, hl, -⟩ := hlen s hs
      cases v with
      | none =>
        simp only [Option.isSome_none, Bool.false_eq_true, if_false] at hl
        omega
      | some w => exact hM s hs j _ n r a φ h1 h2 rfl h3 h4
    · rw [misfit_usable _ _ _ (F.samples R).1]
      refine congrArg List.sum (List.map_congr_left fun s _ => ?_)
      rw [hc2]
      congr 5
      refine (List.Perm.sum_eq ?_).symm
      simp only [F.harmonic_eq]
      exact (F.perm_names R hnd hk).map _

/-! ## C01 -/

theorem ofReal_sum_map {α : Type} (l : List α) (f : α → ℝ) :
    (((l.map f).sum : ℝ) : ℂ) = (l.map fun x => (f x : ℂ)).sum := by
  induction l with
  | nil => simp
  | cons x l ih => simp [ih]

theorem scalar_rotary (z : ℂ) (A g : ℝ) : z * (((A / 2 : ℝ) : ℂ) * cisd (-g)) +
    conj z * conj (((A / 2 : ℝ) : ℂ) * cisd (-g)) = ((A * (z * cisd (-g)).re : ℝ) : ℂ) := by
  rw [← map_mul, Complex.add_conj]
  rw [show z * (((A / 2 : ℝ) : ℂ) * cisd (-g)) = ((A / 2 : ℝ) : ℂ) * (z * cisd (-g)) by ring, Complex.re_ofReal_mul]
  push_cast; ring

/-- The best tidal curve: no other curve of the same constituents, tied in the same way, misfits less. -/
theorem C01_best (E : Env) (t : TimeArg) (u : Series) (lat : Option ℝ) (opts : Dict PyVal)
    (R : Ready E t u none) (hnd : opts.keys.Nodup) (hm : ∃ x, requested opts "method" = some x ∧ IsStr x "ols")
    (c : Coef) (h : solve E t u none lat opts = .ok c) (hk : AllKept c)
    (sp : Option InferSpec) (hi : readInfer c.opt.infer = .ok sp) (hex : ∀ s, sp = some s → s.approximate = false)
    (a : RecArgs) (hae : a.epoch = c.opt.epoch) (hall : RecArgs.Everything a) :
    ∃ tn r, normalizeTime E.dt64 t.arr c.opt.epoch = .ok tn ∧ reconstruct E t.arr c a = .ok r ∧
      r.length = tn.length ∧ u.data.length = tn.length ∧
      (∀ i : ℕ, ∀ τ : ℝ, tn[i]? = some (.fin τ) → ∃ z : ℂ, r[i]? = some (some z)) ∧
      ∀ (A g : String → ℝ) (mean slope : ℝ), TiedScalar sp A g → (c.opt.notrend = true → slope = 0) →
        misfit u.data none r ≤ misfit u.data none
          (tn.map fun x => x.toReal?.map fun τ => ((scalarCurve c A g mean slope τ : ℝ) : ℂ)) := by
  obtain ⟨tn, r, h1, h2, h3, h4, h5, h6, h7⟩ := best_rotary E t u none lat opts R hnd hm c h hk sp hi hex a hae hall
  refine ⟨tn, r, h1, h2, h4, h3.1.symm, h5, fun A g mean slope hT hs => ?_⟩
  have h8 := h7 (fun n => ((A n / 2 : ℝ) : ℂ) * cisd (-(g n))) (fun n => conj (((A n / 2 : ℝ) : ℂ) * cisd (-(g n))))
    mean slope ?_ ?_ ?_
  · refine le_trans h8 (le_of_eq ?_)
    congr 1
    refine List.map_congr_left fun x _ => ?_
    congr 1
    funext τ
    unfold scalarCurve
    simp only [scalar_rotary]
    push_cast
    rw [ofReal_sum_map]
    push_cast
    ring
  · intro s hs j n r a φ e1 e2 e3 e4
    obtain ⟨t1, t2⟩ := hT s hs j n r a φ e1 e2 e3 e4
    rw [t1, t2, neg_sub, show (φ : ℝ) - g r = φ + -(g r) by ring, cisd_add]
    push_cast; ring
  · intro s hs j k n r a φ e1 e2 e3 e4 e5
    simp only [Option.isSome_none, Bool.false_eq_true, if_false] at e3
    subst e3
    obtain ⟨t1, t2⟩ := hT s hs _ n r a φ e1 e2 e4 e5
    rw [t1, t2, neg_sub, show (φ : ℝ) - g r = φ + -(g r) by ring, cisd_add]
    simp only [map_mul, Complex.conj_ofReal, conj_cisd]
    push_cast; ring
  · intro hh; rw [hs hh]; simp

/-! ## C02 -/

theorem vector_rotary (z : ℂ) (e : Ell) : z * ccw e + conj z * cw e =
    cisd e.theta * ⟨e.Lsmaj * (z * cisd (-e.g)).re, e.Lsmin * (z * cisd (-e.g)).im⟩ := by
  have h : (⟨e.Lsmaj * (z * cisd (-e.g)).re, e.Lsmin * (z * cisd (-e.g)).im⟩ : ℂ) =
      (((e.Lsmaj + e.Lsmin) / 2 : ℝ) : ℂ) * (z * cisd (-e.g)) +
      (((e.Lsmaj - e.Lsmin) / 2 : ℝ) : ℂ) * conj (z * cisd (-e.g)) := by
    apply Complex.ext
    · simp only [Complex.add_re, Complex.re_ofReal_mul, Complex.conj_re]; ring
    · simp only [Complex.add_im, Complex.im_ofReal_mul, Complex.conj_im]; ring
  rw [h, map_mul, conj_cisd, neg_neg]
  unfold ccw cw
  rw [sub_eq_add_neg, cisd_add, cisd_add]
  ring

/-- The best tidal current. -/
theorem C02_best (E : Env) (t : TimeArg) (u w : Series) (lat : Option ℝ) (opts : Dict PyVal)
    (R : Ready E t u (some w)) (hnd : opts.keys.Nodup)
    (hm : ∃ x, requested opts "method" = some x ∧ IsStr x "ols")
    (c : Coef) (h : solve E t u (some w) lat opts = .ok c) (hk : AllKept c)
    (sp : Option InferSpec) (hi : readInfer c.opt.infer = .ok sp) (hex : ∀ s, sp = some s → s.approximate = false)
    (a : RecArgs) (hae : a.epoch = c.opt.epoch) (hall : RecArgs.Everything a) :
    ∃ tn r, normalizeTime E.dt64 t.arr c.opt.epoch = .ok tn ∧ reconstruct E t.arr c a = .ok r ∧
      r.length = tn.length ∧ u.data.length = tn.length ∧ w.data.length = tn.length ∧
      (∀ i : ℕ, ∀ τ : ℝ, tn[i]? = some (.fin τ) → ∃ z : ℂ, r[i]? = some (some z)) ∧
      ∀ (e : String → Ell) (mean slope : ℂ), TiedVector sp e → (c.opt.notrend = true → slope = 0) →
        misfit u.data (some w.data) r ≤ misfit u.data (some w.data)
          (tn.map fun x => x.toReal?.map fun τ => vectorCurve c e mean slope τ) := by
  obtain ⟨tn, r, h1, h2, h3, h4, h5, h6, h7⟩ := best_rotary E t u (some w) lat opts R hnd hm c h hk sp hi hex a hae
    hall
  refine ⟨tn, r, h1, h2, h4, h3.1.symm, (h3.1.trans (h3.2 w.data rfl)).symm, h5, fun e mean slope hT hs => ?_⟩
  have h8 := h7 (fun n => ccw (e n)) (fun n => cw (e n)) mean slope ?_ ?_ hs
  · refine le_trans h8 (le_of_eq ?_)
    simp only [Option.map_some]
    congr 1
    refine List.map_congr_left fun x _ => ?_
    congr 1
    funext τ
    unfold vectorCurve
    simp only [vector_rotary]
    ring
  · intro s hs j n r a φ e1 e2 e3 e4
    obtain ⟨-, l2, l3⟩ := h6 s hs
    simp only [Option.isSome_some, if_true] at l2 l3
    have hj : j < s.inferred.length := (List.getElem?_eq_some_iff.1 e1).1
    exact (hT s hs j n r a φ _ _ e1 e2 e3 e4 (List.getElem?_eq_getElem (by omega))
      (List.getElem?_eq_getElem (by omega))).1
  · intro s hs j k n r a φ e1 e2 e3 e4 e5
    obtain ⟨-, l2, l3⟩ := h6 s hs
    simp only [Option.isSome_some, if_true] at l2 l3 e3
    subst e3
    have hj : j < s.inferred.length := (List.getElem?_eq_some_iff.1 e1).1
    exact (hT s hs j n r _ _ a φ e1 e2 (List.getElem?_eq_getElem (by omega))
      (List.getElem?_eq_getElem (by omega)) e4 e5).2

/-! ## C03 -/

theorem misfit_nonneg_terms (x z : List (Option ℂ)) : ∀ y ∈ List.zipWith sqDiff x z, 0 ≤ y := by
  intro y hy
  obtain ⟨i, hi, rfl⟩ := List.mem_iff_getElem.1 hy
  rw [List.getElem_zipWith]
  unfold sqDiff
  split
  · positivity
  · exact le_rfl

theorem misfit_zero (u : List Cell) (v : Option (List Cell)) (r : List (Option ℂ)) (h : misfit u v r ≤ 0)
    (i : ℕ) (x z : ℂ) (hx : (sampleValues u v)[i]? = some (some x)) (hz : r[i]? = some (some z)) : z = x := by
  unfold misfit at h
  have h0 := le_antisymm h (List.sum_nonneg (misfit_nonneg_terms _ _))
  have hi : (List.zipWith sqDiff (sampleValues u v) r)[i]? = some (‖x - z‖ ^ 2) := by
    rw [List.getElem?_zipWith, hx, hz]; rfl
  have hmem := List.mem_of_getElem? hi
  have := List.all_zero_of_le_zero_le_of_sum_eq_zero (misfit_nonneg_terms _ _) h0 hmem
  have h2 : ‖x - z‖ = 0 := by simpa using this
  rw [norm_eq_zero, sub_eq_zero] at h2
  exact h2.symm

theorem misfit_exact (u : List Cell) (v : Option (List Cell)) (tn : List Fl) (f : ℝ → ℂ)
    (h : ∀ (i : ℕ) (x : ℂ) (τ : ℝ), (sampleValues u v)[i]? = some (some x) → tn[i]? = some (.fin τ) → x = f τ) :
    misfit u v (tn.map fun x => x.toReal?.map f) = 0 := by
  unfold misfit
  refine List.sum_eq_zero fun y hy => ?_
  obtain ⟨i, hi, rfl⟩ := List.mem_iff_getElem.1 hy
  rw [List.getElem_zipWith, List.getElem_map]
  rw [List.length_zipWith, List.length_map] at hi
  have h1 : (sampleValues u v)[i]? = some ((sampleValues u v)[i]'(by omega)) := List.getElem?_eq_getElem _
  have h2 : tn[i]? = some (tn[i]'(by omega)) := List.getElem?_eq_getElem _
  generalize (sampleValues u v)[i]'(by omega) = a at *
  generalize tn[i]'(by omega) = b at *
  cases a with
  | none => rfl
  | some x =>
    cases b with
    | fin τ => rw [h i x τ h1 h2]; simp [sqDiff, Fl.toReal?]
    | _ => rfl

/-- A purely tidal elevation record comes back from `reconstruct`, separable constituents or not. -/
theorem C03_scalar (E : Env) (t : TimeArg) (u : Series) (lat : Option ℝ) (opts : Dict PyVal)
    (R : Ready E t u none) (hnd : opts.keys.Nodup) (hm : ∃ x, requested opts "method" = some x ∧ IsStr x "ols")
    (c : Coef) (h : solve E t u none lat opts = .ok c) (hk : AllKept c)
    (sp : Option InferSpec) (hi : readInfer c.opt.infer = .ok sp) (hex : ∀ s, sp = some s → s.approximate = false)
    (a : RecArgs) (hae : a.epoch = c.opt.epoch) (hall : RecArgs.Everything a)
    (tn : List Fl) (htn : normalizeTime E.dt64 t.arr c.opt.epoch = .ok tn)
    (A g : String → ℝ) (mean slope : ℝ) (hT : TiedScalar sp A g) (hs : c.opt.notrend = true → slope = 0)
    (hu : ∀ (i : ℕ) (x τ : ℝ), (u.data[i]?.bind Cell.value?) = some x → tn[i]? = some (.fin τ) →
      x = scalarCurve c A g mean slope τ) :
    ∃ r, reconstruct E t.arr c a = .ok r ∧ ∀ (i : ℕ) (x τ : ℝ), (u.data[i]?.bind Cell.value?) = some x →
      tn[i]? = some (.fin τ) → r[i]? = some (some (x : ℂ)) := by
  obtain ⟨tn', r, h1, h2, -, -, h5, h6⟩ := C01_best E t u lat opts R hnd hm c h hk sp hi hex a hae hall
  rw [htn] at h1
  cases Except.ok.inj h1
  refine ⟨r, h2, fun i x τ hx hτ => ?_⟩
  have key : ∀ (i : ℕ) (x : ℝ), (u.data[i]?.bind Cell.value?) = some x →
      (sampleValues u.data none)[i]? = some (some (x : ℂ)) := by
    intro i x hx
    obtain ⟨y, hy, hyx⟩ := Option.bind_eq_some_iff.1 hx
    simp only [sampleValues, List.getElem?_map, hy, Option.map_some, hyx]
  obtain ⟨z, hz⟩ := h5 i τ hτ
  have h7 := h6 A g mean slope hT hs
  rw [misfit_exact _ _ _ (fun τ => ((scalarCurve c A g mean slope τ : ℝ) : ℂ))] at h7
  · rw [hz, misfit_zero _ _ _ h7 i x z (key i x hx) hz]
  · intro i x τ hx hτ
    simp only [sampleValues, List.getElem?_map, Option.map_eq_some_iff] at hx
    obtain ⟨y, hy, w, hw, rfl⟩ := hx
    rw [hu i w τ (by rw [hy]; exact hw) hτ]

/-- A purely tidal current record comes back from `reconstruct`. -/
theorem C03_vector (E : Env) (t : TimeArg) (u w : Series) (lat : Option ℝ) (opts : Dict PyVal)
    (R : Ready E t u (some w)) (hnd : opts.keys.Nodup)
    (hm : ∃ x, requested opts "method" = some x ∧ IsStr x "ols")
    (c : Coef) (h : solve E t u (some w) lat opts = .ok c) (hk : AllKept c)
    (sp : Option InferSpec) (hi : readInfer c.opt.infer = .ok sp) (hex : ∀ s, sp = some s → s.approximate = false)
    (a : RecArgs) (hae : a.epoch = c.opt.epoch) (hall : RecArgs.Everything a)
    (tn : List Fl) (htn : normalizeTime E.dt64 t.arr c.opt.epoch = .ok tn)
    (e : String → Ell) (mean slope : ℂ) (hT : TiedVector sp e) (hs : c.opt.notrend = true → slope = 0)
    (hu : ∀ (i : ℕ) (x y τ : ℝ), (u.data[i]?.bind Cell.value?) = some x → (w.data[i]?.bind Cell.value?) = some y →
      tn[i]? = some (.fin τ) → (⟨x, y⟩ : ℂ) = vectorCurve c e mean slope τ) :
    ∃ r, reconstruct E t.arr c a = .ok r ∧ ∀ (i : ℕ) (x y τ : ℝ), (u.data[i]?.bind Cell.value?) = some x →
      (w.data[i]?.bind Cell.value?) = some y → tn[i]? = some (.fin τ) → r[i]? = some (some (⟨x, y⟩ : ℂ)) := by
  obtain ⟨tn', r, h1, h2, -, -, -, h5, h6⟩ := C02_best E t u w lat opts R hnd hm c h hk sp hi hex a hae hall
  rw [htn] at h1
  cases Except.ok.inj h1
  refine ⟨r, h2, fun i x y τ hx hy hτ => ?_⟩
  have key : ∀ (i : ℕ) (x y : ℝ), (u.data[i]?.bind Cell.value?) = some x → (w.data[i]?.bind Cell.value?) = some y →
      (sampleValues u.data (some w.data))[i]? = some (some (⟨x, y⟩ : ℂ)) := by
    intro i x y hx hy
    obtain ⟨a, ha, hax⟩ := Option.bind_eq_some_iff.1 hx
    obtain ⟨b, hb, hby⟩ := Option.bind_eq_some_iff.1 hy
    simp only [sampleValues, List.getElem?_zipWith, ha, hb, hax, hby, Option.bind_some, Option.map_some]
  obtain ⟨z, hz⟩ := h5 i τ hτ
  have h7 := h6 e mean slope hT hs
  rw [misfit_exact _ _ _ (fun τ => vectorCurve c e mean slope τ)] at h7
  · rw [hz, misfit_zero _ _ _ h7 i _ z (key i x y hx hy) hz]
  · intro i z τ hz hτ
    simp only [sampleValues, List.getElem?_zipWith] at hz
    cases ha : u.data[i]? with
    | none => simp [ha] at hz
    | some a =>
      cases hb : w.data[i]? with
      | none => simp [ha, hb] at hz
      | some b =>
        simp only [ha, hb, Option.some.injEq, Option.bind_eq_some_iff, Option.map_eq_some_iff] at hz
        obtain ⟨x, hx, y, hy, rfl⟩ := hz
        exact hu i x y τ (by rw [ha]; exact hx) (by rw [hb]; exact hy) hτ

/-! ## Examples -/

/-- Options with constituents M2 and N2, NU2 being inferred from N2. -/
def tiedDict (k : ℕ) : PyVal :=
  .dict true [("inferred_names", .seq .list [.str "NU2"]), ("reference_names", .seq .list [.str "N2"]),
    ("amp_ratios", .seq .list (List.replicate k (.num (1 / 5)))),
    ("phase_offsets", .seq .list (List.replicate k (.num 30)))]

def tiedOpts (k : ℕ) : Dict PyVal :=
  [("constit", .seq .list [.str "M2", .str "N2"]), ("conf_int", .str "none"), ("trend", .bool false),
   ("nodal", .bool false), ("phase", .str "raw"), ("order_constit", .str "frequency"), ("epoch", .str "python"),
   ("infer", tiedDict k)]

def tiedOpt (twodim : Bool) : Opt := { exOpt twodim with
    cnstit := .seq .list [.str "M2", .str "N2"], ordercnstit := .str "frequency"
    infer := .dict true [("inferred_names", .seq .list [.str "NU2"]), ("reference_names", .seq .list [.str "N2"]),
      ("amp_ratios", .seq .list (List.replicate (if twodim then 2 else 1) (.num (1 / 5)))),
      ("phase_offsets", .seq .list (List.replicate (if twodim then 2 else 1) (.num 30))),
      ("approximate", .bool false)] }

theorem tiedOpt_eq (twodim : Bool) : getOpt (tiedOpts (if twodim then 2 else 1)) twodim = .ok (tiedOpt twodim) := by
  cases twodim <;> kernel_rfl

def tiedSpec (twodim : Bool) : InferSpec :=
  ⟨["NU2"], ["N2"], List.replicate (if twodim then 2 else 1) (1 / 5), List.replicate (if twodim then 2 else 1) 30,
    false⟩

theorem tied_read (twodim : Bool) : readInfer (tiedOpt twodim).infer = .ok (some (tiedSpec twodim)) := by
  cases twodim <;> rfl

theorem utE_raw_ne (fl : Flags) (h : fl.nodsatnone = true ∧ fl.gwchnone = true) (tref lat t f : ℝ) (k : ℕ) :
    utE fl tref lat t f k ≠ 0 := by
  unfold utE
  rw [if_pos h]
  simp [Complex.exp_ne_zero]

theorem tied_returns (E : Env) (v : Option Series) (hv : ∀ w, v = some w → w.WF)
    (hs : GoodShapes dayT dayU v) (hne : usable [.fin 0, .fin 0.5, .fin 1] dayU.data (v.map Series.data) ≠ []) :
    ∃ c, solve E dayT dayU v (some 45) (tiedOpts (if v.isSome then 2 else 1)) = .ok c := by
  refine solve_total_infer E _ _ v 45 _ (tiedOpt v.isSome) [.fin 0, .fin 0.5, .fin 1] (.names ["M2", "N2"]) .frequency
    (tiedSpec v.isSome) (tiedOpt_eq _) rfl rfl rfl (tied_read _) ⟨?_, rfl, ?_, ?_⟩
    (readConstit_list .list (by simp) ["M2", "N2"]) ⟨?_, .inr ⟨rfl, rfl⟩⟩ (.inl ⟨rfl, rfl⟩) rfl (.inr rfl) hs dayReady.ht
    dayReady.hu hv ?_ hne (fun k => by simp [nodalSingular, tiedOpt, exOpt]) (fun h => by simp [tiedOpt, exOpt] at h)
    (fun _ _ _ _ _ _ _ _ => utE_raw_ne _ ⟨rfl, rfl⟩ _ _ _ _ _) (fun h => by simp [tiedSpec] at h)
  · show ∀ n ∈ ["NU2", "N2"], n ∈ constitNames
    decide +kernel
  · cases v <;> simp [tiedSpec]
  · cases v <;> simp [tiedSpec]
  · decide +kernel
  · show (Except.ok (List.map _ _) : Except PyErr (List Fl)) = _
    congr 1

theorem tied_opt {E : Env} {t : TimeArg} {u : Series} {v : Option Series} {lat : Option ℝ} (R : Ready E t u v)
    {c : Coef} (h : solve E t u v lat (tiedOpts (if v.isSome then 2 else 1)) = .ok c) :
    c.opt = tiedOpt v.isSome ∧ AllKept c := by
  obtain ⟨opt, p, tn, constit, m, W, rf, full, o, ind, F⟩ := solve_facts R h
  have h1 : c.opt = p.opt := by rw [F.solved.result]; exact F.solved.head.opt
  have h2 := F.hopt
  rw [tiedOpt_eq] at h2
  have h3 : c.opt = tiedOpt v.isSome := by rw [h1, F.prep.hopt, ← Except.ok.inj h2]
  refine ⟨h3, ?_⟩
  left; right; left; left
  rw [h3]; rfl

/-- C01 with an inferred constituent: three samples, M2 and N2 fitted, NU2 tied to N2. -/
example : ∃ c r, solve idealEnv dayT dayU none (some 45) (tiedOpts 1) = .ok c ∧
    reconstruct idealEnv dayT.arr c recAll = .ok r ∧
    ∀ (A g : String → ℝ) (mean : ℝ), A "NU2" = (1 / 5 : ℚ) * A "N2" → g "NU2" = g "N2" - (30 : ℚ) →
      misfit dayU.data none r ≤ misfit dayU.data none
        [some ((scalarCurve c A g mean 0 0 : ℝ) : ℂ), some ((scalarCurve c A g mean 0 0.5 : ℝ) : ℂ),
         some ((scalarCurve c A g mean 0 1 : ℝ) : ℂ)] := by
  obtain ⟨c, hc⟩ := tied_returns idealEnv none (by simp) ⟨rfl, rfl, by simp⟩
    (by simp [usable, goodSamples, Fl.toReal?, Cell.value?, dayU])
  obtain ⟨hco, hk⟩ := tied_opt dayReady hc
  obtain ⟨tn, r, h1, h2, -, -, -, h6⟩ := C01_best idealEnv dayT dayU (some 45) (tiedOpts 1) dayReady
    (by decide) ⟨_, rfl, .inl rfl⟩ c hc hk (some (tiedSpec false)) (by rw [hco]; exact tied_read _)
    (by rintro s h; cases h; rfl) recAll (by rw [hco]; rfl) ⟨rfl, rfl, rfl⟩
  refine ⟨c, r, hc, h2, fun A g mean hA hg => ?_⟩
  have h7 := h6 A g mean 0 ?_ (fun _ => rfl)
  · have e : tn = [.fin 0, .fin 0.5, .fin 1] := by
      rw [hco] at h1
      have : normalizeTime idealEnv.dt64 dayT.arr (tiedOpt false).epoch = .ok [.fin 0, .fin 0.5, .fin 1] := by
        show (Except.ok (List.map _ _) : Except PyErr (List Fl)) = _
        congr 1
      exact Except.ok.inj (h1.symm.trans this)
    rw [e] at h7
    exact h7
  · rintro s h j n r a φ e1 e2 e3 e4
    cases h
    cases j with
    | zero =>
      simp [tiedSpec] at e1 e2 e3 e4
      subst e1 e2 e3 e4
      exact ⟨by rw [hA]; norm_num, by rw [hg]⟩
    | succ j => simp [tiedSpec] at e1

theorem day_times : normalizeTime idealEnv.dt64 dayT.arr (.str "python") = .ok [.fin 0, .fin 0.5, .fin 1] := by
  show (Except.ok (List.map _ _) : Except PyErr (List Fl)) = _
  congr 1

theorem dayReady2 : Ready idealEnv dayT dayU (some dayU) :=
  idealReady _ _ _ dayReady.ht dayReady.hu (by rintro w h; cases h; exact dayReady.hu)

/-- C02 with an inferred constituent. -/
example : ∃ c r, solve idealEnv dayT dayU (some dayU) (some 45) (tiedOpts 2) = .ok c ∧
    reconstruct idealEnv dayT.arr c recAll = .ok r ∧
    ∀ (e : String → Ell) (mean : ℂ), ccw (e "NU2") = (1 / 5 : ℚ) * cisd (30 : ℚ) * ccw (e "N2") →
      cw (e "NU2") = (1 / 5 : ℚ) * cisd (-(30 : ℚ)) * cw (e "N2") →
      misfit dayU.data (some dayU.data) r ≤ misfit dayU.data (some dayU.data)
        [some (vectorCurve c e mean 0 0), some (vectorCurve c e mean 0 0.5), some (vectorCurve c e mean 0 1)] := by
  obtain ⟨c, hc⟩ := tied_returns idealEnv (some dayU) (by rintro w h; cases h; exact dayReady.hu)
    ⟨rfl, rfl, by rintro w h; cases h; rfl⟩ (by simp [usable, goodSamples2, Fl.toReal?, Cell.value?, dayU])
  obtain ⟨hco, hk⟩ := tied_opt dayReady2 hc
  obtain ⟨tn, r, h1, h2, -, -, -, -, h6⟩ := C02_best idealEnv dayT dayU dayU (some 45) (tiedOpts 2) dayReady2
    (by decide) ⟨_, rfl, .inl rfl⟩ c hc hk (some (tiedSpec true)) (by rw [hco]; exact tied_read _)
    (by rintro s h; cases h; rfl) recAll (by rw [hco]; rfl) ⟨rfl, rfl, rfl⟩
  refine ⟨c, r, hc, h2, fun e mean hA hg => ?_⟩
  have h7 := h6 e mean 0 ?_ (fun _ => rfl)
  · rw [hco] at h1
    rw [Except.ok.inj (h1.symm.trans day_times)] at h7
    exact h7
  · rintro s h j n r a φ a' φ' e1 e2 e3 e4 e5 e6
    cases h
    cases j with
    | zero =>
      simp [tiedSpec] at e1 e2 e3 e4 e5 e6
      subst e1 e2 e3 e4 e5 e6
      exact ⟨by rw [hA]; norm_num, by rw [hg]; norm_num⟩
    | succ j => simp [tiedSpec] at e1

/-- The M2 harmonic of the example below, without nodal corrections and with phases relative to time 0.5. -/
def m2 (τ : ℝ) : ℂ := nameBasis ⟨false, true, false, true⟩ 0.5 45 τ "M2"

def tideU : Series := ⟨[3], [⟨.fin (7 + 3 * (m2 0 * cisd (-40)).re), false⟩, ⟨.nan, false⟩,
  ⟨.fin (7 + 3 * (m2 1 * cisd (-40)).re), false⟩]⟩

/-- C03: two samples of an M2 tide of amplitude 3 and phase 40 about mean level 7, the sample in the middle missing.
(Two samples cannot separate mean, amplitude and phase.) -/
example : ∃ c r, solve idealEnv dayT tideU none (some 45) exOpts = .ok c ∧
    reconstruct idealEnv dayT.arr c recAll = .ok r ∧
    r[0]? = some (some ((7 + 3 * (m2 0 * cisd (-40)).re : ℝ) : ℂ)) ∧
    r[2]? = some (some ((7 + 3 * (m2 1 * cisd (-40)).re : ℝ) : ℂ)) := by
  obtain ⟨c, hc⟩ := ex_returns idealEnv [.fin 0, .fin 0.5, .fin 1] [] tideU.data rfl
    (by simp [usable, goodSamples, Fl.toReal?, Cell.value?, tideU])
  have R : Ready idealEnv dayT tideU none :=
    idealReady _ _ _ dayReady.ht (by simp [Series.WF, tideU]) (by simp)
  obtain ⟨opt, p, tn, constit, m, W, rf, full, o, ind, F⟩ := solve_facts R hc
  have hopt : opt = exOpt false := Except.ok.inj (F.hopt.symm.trans (exOpt_eq false))
  subst hopt
  have htn : tn = [.fin 0, .fin 0.5, .fin 1] := Except.ok.inj (F.prep.init.time.symm.trans day_times)
  subst htn
  have hco : c.opt = exOpt false := by rw [F.solved.result]; exact F.solved.head.opt.trans F.prep.hopt
  have hk : AllKept c := by left; right; left; left; rw [hco]; rfl
  have href : c.reftime = 0.5 := by
    rw [F.solved.result]
    refine F.solved.head.reftime.trans ?_
    obtain ⟨-, -, -, -, h5⟩ := editData_usable _ _ _ (F.samples R).1 _ F.prep.init.edit
    have e1 : finiteTimes [.fin 0, .fin 0.5, .fin 1] = [0, 0.5, 1] := by simp [finiteTimes, Fl.toReal?]
    have e2 : (usable [.fin 0, .fin 0.5, .fin 1] tideU.data (Option.map Series.data none)).map Prod.fst = [0, 1] := by
      simp [usable, tideU, goodSamples, Fl.toReal?, Cell.value?]
    rw [e1, e2] at h5
    unfold timeStats at h5
    by_cases he : isEqui [0, 0.5, 1]
    · simp only [he, if_true] at h5
      have h6 := congrArg Prod.fst (Except.ok.inj h5)
      exact h6.symm.trans (by show (0.5 : ℝ) * (0 + 1) = 0.5; norm_num)
    · simp only [he] at h5
      have h6 := congrArg Prod.fst (Except.ok.inj h5)
      exact h6.symm.trans (by show (0.5 : ℝ) * (0 + 1) = 0.5; norm_num)
  have hlat : c.lat = 45 := by
    rw [F.solved.result]
    refine F.solved.head.lat.trans ?_
    exact (Option.some.inj F.prep.init.hlat).symm
  have hname : c.name = ["M2"] := List.perm_singleton.1 ((C17_honoured idealEnv dayT tideU none (some 45) exOpts R
    (by decide) .list (by simp) ["M2"] rfl rfl (.str "frequency") rfl c hc).1 (.inr ⟨_, rfl⟩))
  have hcurve : ∀ τ, scalarCurve c (fun _ => 3) (fun _ => 40) 7 0 τ = 7 + 3 * (m2 τ * cisd (-40)).re := by
    intro τ
    unfold scalarCurve harmonic m2
    rw [hname, href, hlat, hco]
    simp [exOpt]
  obtain ⟨r, h1, h2⟩ := C03_scalar idealEnv dayT tideU (some 45) exOpts R (by decide) ⟨_, rfl, .inl rfl⟩ c hc hk none
    (by rw [hco]; rfl) (by simp) recAll (by rw [hco]; rfl) ⟨rfl, rfl, rfl⟩ _
    (by rw [hco]; exact day_times) (fun _ => 3) (fun _ => 40) 7 0 (by intro s h; cases h) (fun _ => rfl) (by
      intro i x τ hx hτ
      rw [hcurve]
      match i with
      | 0 => simp at hτ; subst hτ; exact (Option.some.inj hx).symm
      | 1 => cases hx
      | 2 => simp at hτ; subst hτ; exact (Option.some.inj hx).symm
      | i + 3 => simp at hτ)
  exact ⟨c, r, hc, h1, h2 0 _ 0 rfl rfl, h2 2 _ 1 rfl rfl⟩

end

end UTide.Props
