import Verif.Props.FourierProps
import Verif.Props.RepeatCi
import Verif.Props.NestedProps

/-!
# More samples, more constituents, and the intervals: C135

Relative to the noise level, additional samples never widen the interval of a constituent, and additional constituents
never narrow it.
-/

namespace UTide.Props

noncomputable section

open Classical

/-! ## Specification -/

/-- All rows `(time, u)` of the first record are rows of the second, which may have more; in any order. -/
def Extended (tn : List Fl) (u : Series) (tn' : List Fl) (u' : Series) : Prop :=
  ∃ T, (tn'.zip (sampleValues u'.data none)).Perm (tn.zip (sampleValues u.data none) ++ T)

/-- The squares of the two half-widths of the interval `r` about amplitude `A` and its phase, both in units of the
amplitude, add up to `x`. -/
def ErrorSq (A : ℝ) (r : Ci1) (x : ℝ) : Prop :=
  ∃ m g : ℝ, r.maj = .fin m ∧ r.g = .fin g ∧ x = m ^ 2 + (Real.pi / 180 * (A * g)) ^ 2

/-- For the rows `i` of the result `c` and `j` of `c'`: both have intervals, and `x'/s2' ≤ x/s2` for their squared
half-widths `x`, `x'` and the noise variances `s2`, `s2'` of the two analyses. -/
def NoWider (c : Coef) (tn : List Fl) (u : Series) (i : ℕ) (c' : Coef) (tn' : List Fl) (u' : Series) (j : ℕ) : Prop :=
  ∃ ci ci' r r' e e' s2 s2', c.ci = some ci ∧ c'.ci = some ci' ∧ intervalAt ci i = some r ∧ intervalAt ci' j = some r' ∧
    ellipseAt c.ell i = some e ∧ ellipseAt c'.ell j = some e' ∧
    NoiseVariance c (sampleTimes tn u none) (sampleU tn u none) s2 ∧
    NoiseVariance c' (sampleTimes tn' u' none) (sampleU tn' u' none) s2' ∧
    (e.Lsmaj ≠ 0 → e'.Lsmaj ≠ 0 → ∃ x x', ErrorSq e.Lsmaj r x ∧ ErrorSq e'.Lsmaj r' x' ∧ x' * s2 ≤ x * s2')

/-! ## Lemmas -/

/-- The two half-widths together do not depend on the phase. -/
theorem errorSq_scalar (X Y a b : ℝ) (ha : 0 ≤ a) (hb : 0 ≤ b) (h : (cs2cep1 X Y).Lsmaj ≠ 0) :
    ErrorSq (cs2cep1 X Y).Lsmaj (linear1 none X Y a b).1 (1.96 ^ 2 * (a + b)) := by
  have hL : (cs2cep1 X Y).Lsmaj = Real.sqrt (X ^ 2 + Y ^ 2) := by
    show ‖(X : ℂ) - Complex.I * (Y : ℂ)‖ = _
    rw [Complex.norm_def, Complex.normSq_apply]
    congr 1
    simp
    ring
  have hpos : 0 < X ^ 2 + Y ^ 2 := by
    by_contra hc
    apply h
    rw [hL, Real.sqrt_eq_zero_of_nonpos (not_lt.1 hc)]
  obtain ⟨u1, u2⟩ := utLinci_scalar X Y (Real.sqrt a) (Real.sqrt b) hpos.ne'
  rw [linear1_none _ _ _ _ ha hb, u1, u2]
  refine ⟨_, _, rfl, rfl, ?_⟩
  rw [hL, Real.sq_sqrt ha, Real.sq_sqrt hb]
  have p1 : 0 ≤ (X ^ 2 * a + Y ^ 2 * b) / (X ^ 2 + Y ^ 2) := by positivity
  have p2 : 0 ≤ (Y ^ 2 * a + X ^ 2 * b) / (X ^ 2 + Y ^ 2) ^ 2 := by positivity
  have hpi := Real.pi_pos.ne'
  have e1 : Real.pi / 180 * (Real.sqrt (X ^ 2 + Y ^ 2) * (1.96 * (180 / Real.pi *
      Real.sqrt ((Y ^ 2 * a + X ^ 2 * b) / (X ^ 2 + Y ^ 2) ^ 2)))) =
      1.96 * (Real.sqrt (X ^ 2 + Y ^ 2) * Real.sqrt ((Y ^ 2 * a + X ^ 2 * b) / (X ^ 2 + Y ^ 2) ^ 2)) := by
    field_simp
  rw [e1, mul_pow, mul_pow, mul_pow, Real.sq_sqrt p1, Real.sq_sqrt p2, Real.sq_sqrt hpos.le]
  field_simp
  ring

/-- The best estimate from more samples is at least as precise. -/
theorem blue_more {c : Coef} {τ τ' T : List ℝ} {par : CurvePar → ℝ} {a a' : List ℝ} (hP : τ'.Perm (τ ++ T))
    (h : Blue c τ par a) (h' : Blue c τ' par a') : sumSq a' ≤ sumSq a := by
  obtain ⟨q, hq, rfl⟩ := h.curve
  obtain ⟨q', hq', rfl⟩ := h'.curve
  have e1 := h.unbiased q' hq'
  have e2 := h'.unbiased q' hq'
  rw [combine_maps] at e1
  rw [combine_self] at e2
  have e3 : sumSq (τ'.map (linCurve c q')) = sumSq (τ.map (linCurve c q')) + sumSq (T.map (linCurve c q')) := by
    unfold sumSq
    rw [((hP.map _).map _).sum_eq, List.map_append, List.map_append, List.sum_append]
  have e4 := sumSq_nonneg (T.map (linCurve c q'))
  have e5 : 0 ≤ sumSq (τ.map (linCurve c q)) - 2 * (τ.map fun τ => linCurve c q τ * linCurve c q' τ).sum +
      sumSq (τ.map (linCurve c q')) := by
    unfold sumSq
    generalize τ = l
    induction l with
    | nil => simp
    | cons x l ih =>
      simp only [List.map_cons, List.sum_cons]
      nlinarith [sq_nonneg (linCurve c q x - linCurve c q' x)]
  linarith

/-- The best estimate in a larger model is at most as precise. -/
theorem blue_larger {c c' : Coef} {τ : List ℝ} {n : String} (par : CurvePar → ℝ)
    (hsub : ∀ q, Admissible c q → ∃ q', Admissible c' q' ∧ linCurve c' q' = linCurve c q ∧ par q' = par q)
    {a a' : List ℝ} (h : Blue c τ par a) (h' : Blue c' τ par a') : sumSq a ≤ sumSq a' := by
  refine h.best a' h'.length fun q hq => ?_
  obtain ⟨q', hq', hl, hp⟩ := hsub q hq
  rw [← hl, h'.unbiased q' hq', hp]

/-- A curve of some constituents is a curve of more. -/
theorem linCurve_larger {c c' : Coef} (hn : c.name.Nodup) (hn' : c'.name.Nodup) (hsub : ∀ n ∈ c.name, n ∈ c'.name)
    (hh : ∀ n τ, harmonic c' n τ = harmonic c n τ) (href : c'.reftime = c.reftime)
    (htr : c'.opt.notrend = true → c.opt.notrend = true) (q : CurvePar) (hq : Admissible c q) :
    ∃ q', Admissible c' q' ∧ linCurve c' q' = linCurve c q ∧ ∀ n ∈ c.name, q'.X n = q.X n ∧ q'.Y n = q.Y n := by
  refine ⟨⟨fun n => if n ∈ c.name then q.X n else 0, fun n => if n ∈ c.name then q.Y n else 0, q.mean, q.slope⟩,
    fun h => hq (htr h), ?_, fun n hm => by simp [hm]⟩
  funext τ
  unfold linCurve
  rw [href]
  dsimp only
  congr 1
  have e : (fun n => (if n ∈ c.name then q.X n else 0) * (harmonic c' n τ).re +
      (if n ∈ c.name then q.Y n else 0) * (harmonic c' n τ).im) =
      fun n => if n ∈ c.name then q.X n * (harmonic c n τ).re + q.Y n * (harmonic c n τ).im else 0 := by
    funext n
    split_ifs <;> simp [hh]
  rw [e, ← List.sum_toFinset _ hn', ← List.sum_toFinset _ hn]
  have hs : c.name.toFinset ⊆ c'.name.toFinset := by
    intro n hm
    rw [List.mem_toFinset] at hm ⊢
    exact hsub n hm
  rw [← Finset.sum_subset hs (fun n _ hm => by rw [List.mem_toFinset] at hm; simp [hm])]
  refine Finset.sum_congr rfl fun n hm => ?_
  rw [List.mem_toFinset] at hm
  simp [hm]

/-! ## C135 -/

/-- **C135.** Scalar series, ordinary least squares without inference, linearised intervals with a white noise floor: a
record with additional samples, same constituents and reference time. -/
theorem C135_more_samples {E : Env} {t t' : TimeArg} {u u' : Series} {lat : Option ℝ} {opts : Dict PyVal} {c c' : Coef}
    {tn tn' : List Fl} (R : Ready E t u none) (R' : Ready E t' u' none) (hI : InvOk E.num.inv)
    (H : WhiteRun E t u none lat opts c tn) (H' : WhiteRun E t' u' none lat opts c' tn') (hS : Extended tn u tn' u')
    (hn : c'.name.Perm c.name) (href : c'.reftime = c.reftime) (i j : ℕ) (n : String) (hi : c.name[i]? = some n)
    (hj : c'.name[j]? = some n) : NoWider c tn u i c' tn' u' j := by
  obtain ⟨p, constit, m, W, rf, full, o, ind, F, -⟩ :=
    run_facts R H.keys H.ols H.returned none H.infer (fun s hs => by cases hs) tn H.time
  obtain ⟨p', constit', m', W', rf', full', o', ind', F', -⟩ :=
    run_facts R' H'.keys H'.ols H'.returned none H'.infer (fun s hs => by cases hs) tn' H'.time
  have hoo : c'.opt = c.opt := by
    have := F'.hopt
    rw [F.hopt] at this
    exact (Except.ok.inj this).symm
  have C : SameCurves c c' := ⟨by rw [hoo], by rw [hoo], href,
    by rw [F.clat, F'.clat, Option.some.inj (F'.prep.init.hlat.symm.trans F.prep.init.hlat)], hn⟩
  obtain ⟨T, hT⟩ := hS
  have hP : ∃ T', (sampleTimes tn' u' none).Perm (sampleTimes tn u none ++ T') := by
    have h1 := hT.filterMap fun p : Fl × Option ℂ => p.1.toReal?.bind fun τ => p.2.map fun x => (τ, x)
    rw [List.filterMap_append] at h1
    unfold sampleTimes
    have l1 := (F.samples R).1
    have l2 := (F'.samples R').1
    rw [usable_samples _ _ _ l1, usable_samples _ _ _ l2]
    refine ⟨_, (h1.map Prod.fst).trans (by rw [List.map_append]; exact List.Perm.refl _)⟩
  obtain ⟨T', hP⟩ := hP
  obtain ⟨ci, qu, qv, hci, -, -, hall⟩ := white_facts R hI H
  obtain ⟨ci', qu', qv', hci', -, -, hall'⟩ := white_facts R' hI H'
  obtain ⟨a, b, su, sv, -, k1, k2, k3, -, k5, -, k7, k8⟩ := hall i n hi
  obtain ⟨a', b', su', sv', -, k1', k2', k3', -, k5', -, k7', k8'⟩ := hall' j n hj
  simp only [Option.isSome_none, Bool.false_eq_true, if_false] at k7 k8 k7' k8'
  refine ⟨ci, ci', _, _, _, _, su, su', hci, hci', k8, k8', k7, k7', k3, k3', fun h0 h0' => ?_⟩
  have v1 := mul_nonneg k5 (sumSq_nonneg a)
  have v2 := mul_nonneg k5 (sumSq_nonneg b)
  have v1' := mul_nonneg k5' (sumSq_nonneg a')
  have v2' := mul_nonneg k5' (sumSq_nonneg b')
  refine ⟨_, _, errorSq_scalar _ _ _ _ v1 v2 h0, errorSq_scalar _ _ _ _ v1' v2' h0', ?_⟩
  have w1 := blue_more hP k1 (C.blue k1')
  have w2 := blue_more hP k2 (C.blue k2')
  have w3 := mul_nonneg k5 k5'
  nlinarith [mul_le_mul_of_nonneg_left w1 w3, mul_le_mul_of_nonneg_left w2 w3]

/-- **C135.** The same record analysed with further constituents (or a trend). -/
theorem C135_more_constituents {E : Env} {t : TimeArg} {u : Series} {lat : Option ℝ} {opts opts' : Dict PyVal}
    {c c' : Coef} {tn tn' : List Fl} (R : Ready E t u none) (hI : InvOk E.num.inv)
    (H : WhiteRun E t u none lat opts c tn) (H' : WhiteRun E t u none lat opts' c' tn') (hn : c.name.Nodup)
    (hn' : c'.name.Nodup) (hsub : ∀ n ∈ c.name, n ∈ c'.name)
    (hsame : ∀ k ∈ ["nodal", "phase", "epoch"], requested opts k = requested opts' k)
    (htr : c'.opt.notrend = true → c.opt.notrend = true) (i j : ℕ) (n : String) (hi : c.name[i]? = some n)
    (hj : c'.name[j]? = some n) : NoWider c' tn' u j c tn u i := by
  obtain ⟨p, constit, m, W, rf, full, o, ind, F, -⟩ :=
    run_facts R H.keys H.ols H.returned none H.infer (fun s hs => by cases hs) tn H.time
  obtain ⟨p', constit', m', W', rf', full', o', ind', F', -⟩ :=
    run_facts R H'.keys H'.ols H'.returned none H'.infer (fun s hs => by cases hs) tn' H'.time
  have hfl : c'.opt.flags = c.opt.flags ∧ c'.opt.epoch = c.opt.epoch := by
    obtain ⟨e1, e2, -⟩ := getOpt_fields opts opts' H.keys H'.keys _ _ _ F.hopt F'.hopt
    exact ⟨e1 (hsame _ (by simp)) (hsame _ (by simp)), e2 (hsame _ (by simp))⟩
  have htn : tn' = tn := by
    have h1 := H'.time
    rw [hfl.2, H.time] at h1
    exact (Except.ok.inj h1).symm
  subst htn
  have hed : p'.ed = p.ed := Except.ok.inj (F'.prep.init.edit.symm.trans F.prep.init.edit)
  have hlat : p'.lat = p.lat := Option.some.inj (F'.prep.init.hlat.symm.trans F.prep.init.hlat)
  have href : c'.reftime = c.reftime := by rw [F.creftime, F'.creftime, hed]
  have hh : ∀ n τ, harmonic c' n τ = harmonic c n τ := by
    intro n τ
    rw [F.harmonic_eq, F'.harmonic_eq, hed, hlat, hfl.1]
  have hm : n ∈ c.name := List.mem_of_getElem? hi
  have hX := fun q hq => linCurve_larger hn hn' hsub hh href htr q hq
  obtain ⟨ci, qu, qv, hci, -, -, hall⟩ := white_facts R hI H
  obtain ⟨ci', qu', qv', hci', -, -, hall'⟩ := white_facts R hI H'
  obtain ⟨a, b, su, sv, -, k1, k2, k3, -, k5, -, k7, k8⟩ := hall i n hi
  obtain ⟨a', b', su', sv', -, k1', k2', k3', -, k5', -, k7', k8'⟩ := hall' j n hj
  simp only [Option.isSome_none, Bool.false_eq_true, if_false] at k7 k8 k7' k8'
  refine ⟨ci', ci, _, _, _, _, su', su, hci', hci, k8', k8, k7', k7, k3', k3, fun h0' h0 => ?_⟩
  have v1 := mul_nonneg k5 (sumSq_nonneg a)
  have v2 := mul_nonneg k5 (sumSq_nonneg b)
  have v1' := mul_nonneg k5' (sumSq_nonneg a')
  have v2' := mul_nonneg k5' (sumSq_nonneg b')
  refine ⟨_, _, errorSq_scalar _ _ _ _ v1' v2' h0', errorSq_scalar _ _ _ _ v1 v2 h0, ?_⟩
  have w1 := blue_larger (n := n) (fun q => q.X n) (fun q hq => by
    obtain ⟨q', g1, g2, g3⟩ := hX q hq; exact ⟨q', g1, g2, (g3 n hm).1⟩) k1 k1'
  have w2 := blue_larger (n := n) (fun q => q.Y n) (fun q hq => by
    obtain ⟨q', g1, g2, g3⟩ := hX q hq; exact ⟨q', g1, g2, (g3 n hm).2⟩) k2 k2'
  have w3 := mul_nonneg k5 k5'
  nlinarith [mul_le_mul_of_nonneg_left w1 w3, mul_le_mul_of_nonneg_left w2 w3]

end

end UTide.Props
