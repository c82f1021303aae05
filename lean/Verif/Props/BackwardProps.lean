import Verif.Props.ConvertProps
import Verif.Props.LinearTime
import Verif.Props.AliasProps
import Verif.Props.ShuffleProps

/-!
# Records played backwards: C134

A record mirrored in time about its reference time: every constituent keeps its axes and orientation, is run through in
the opposite direction with the opposite phase, the trend changes sign, and the prediction is the mirrored one.
-/

namespace UTide.Props

noncomputable section

open Classical

local notation "conj" => starRingEnd ℂ

/-! ## Specification -/

/-- A time mirrored about `r`. -/
def mirrorTime (r : ℝ) : Fl → Fl
  | .fin x => .fin (2 * r - x)
  | x => x

/-- The rows `(time, u, v)` of the second record are those of the first with times mirrored about `r`, in any order. -/
def Backwards (r : ℝ) (tn : List Fl) (u : Series) (v : Option Series) (tn' : List Fl) (u' : Series)
    (v' : Option Series) : Prop :=
  (tn'.zip (sampleValues u'.data (v'.map Series.data))).Perm
    ((tn.zip (sampleValues u.data (v.map Series.data))).map fun p => (mirrorTime r p.1, p.2))

/-- Angle of the harmonic of a constituent at the reference time, in degrees: Greenwich argument and nodal phase. -/
def startAngle (c : Coef) (n : String) : ℝ := angleDeg (harmonic c n c.reftime)

/-- `e'` is `e` run through backwards: same axes, opposite sense of rotation, and (unless it is a circle) the same
orientation and the phase that, counted from `s`, is the opposite one. -/
structure ReversedEllipse (s : ℝ) (e e' : Ell) : Prop where
  major : e'.Lsmaj = e.Lsmaj
  minor : e'.Lsmin = -e.Lsmin
  theta : |e.Lsmin| < e.Lsmaj → e'.theta = e.theta
  phase : |e.Lsmin| < e.Lsmaj → ∃ k : ℤ, e'.g = 2 * s - e.g + 360 * k

/-! ## Lemmas -/

theorem mirror_twice (r x : ℝ) : 2 * r - (2 * r - x) = x := by ring

theorem Backwards.samples {r : ℝ} {tn tn' : List Fl} {u u' : Series} {v v' : Option Series}
    (h : Backwards r tn u v tn' u' v') :
    (samples tn' (sampleValues u'.data (v'.map Series.data))).Perm
      ((samples tn (sampleValues u.data (v.map Series.data))).map fun s => (2 * r - s.1, s.2)) := by
  unfold UTide.Props.samples
  refine (h.filterMap _).trans ?_
  rw [List.filterMap_map, List.map_filterMap]
  refine List.Perm.of_eq (List.filterMap_congr ?_)
  rintro ⟨x, y⟩ -
  cases x <;> cases y <;> rfl

theorem Backwards.away {r : ℝ} {tn tn' : List Fl} {u u' : Series} {v v' : Option Series}
    (h : Backwards r tn u v tn' u' v') (K : ℝ → ℂ) : away tn' u' v' K = away tn u v fun τ => K (2 * r - τ) := by
  unfold UTide.Props.away
  rw [(h.samples.map _).sum_eq, List.map_map]
  rfl

theorem Backwards.sampleTime {r : ℝ} {tn tn' : List Fl} {u u' : Series} {v v' : Option Series}
    (h : Backwards r tn u v tn' u' v') (τ : ℝ) (hτ : SampleTime tn u.data (v.map Series.data) τ) :
    SampleTime tn' u'.data (v'.map Series.data) (2 * r - τ) := by
  obtain ⟨i, x, h1, h2⟩ := hτ
  have hm : (τ, x) ∈ UTide.Props.samples tn (sampleValues u.data (v.map Series.data)) := (mem_samples _ _ _).2 ⟨i, h1, h2⟩
  have hm' : (2 * r - τ, x) ∈ UTide.Props.samples tn' (sampleValues u'.data (v'.map Series.data)) :=
    h.samples.mem_iff.2 (List.mem_map.2 ⟨_, hm, rfl⟩)
  obtain ⟨j, j1, j2⟩ := (mem_samples _ _ _).1 hm'
  exact ⟨j, x, j1, j2⟩

/-- The harmonic at the mirrored time. -/
theorem harmonic_mirror {E : Env} {t : TimeArg} {u : Series} {v : Option Series} {lat : Option ℝ} {opts : Dict PyVal}
    {c : Coef} (R : Ready E t u v) (hnd : opts.keys.Nodup) (h : solve E t u v lat opts = .ok c) (hst : Steady opts)
    (n : String) (hn : n ∈ c.name) (τ : ℝ) :
    harmonic c n (2 * c.reftime - τ) = cisd (2 * startAngle c n) * conj (harmonic c n τ) := by
  obtain ⟨e1, e2, -⟩ := permute_aligned h
  obtain ⟨i, hi⟩ := List.mem_iff_getElem?.1 hn
  obtain ⟨f, hf⟩ : ∃ f, c.frq[i]? = some f := by
    rw [e1, List.getElem?_map, Option.map_eq_some_iff] at hi
    obtain ⟨k, hk, -⟩ := hi
    exact ⟨_, by rw [e2, List.getElem?_map, hk]; rfl⟩
  have s1 := grid_step E t u v lat opts R hnd c h hst (τ - c.reftime) c.reftime i n f hi hf 1
  have s2 := grid_step E t u v lat opts R hnd c h hst (τ - c.reftime) c.reftime i n f hi hf (-1)
  rw [show c.reftime + ((1 : ℤ) : ℝ) * (τ - c.reftime) = τ by push_cast; ring] at s1
  rw [show c.reftime + ((-1 : ℤ) : ℝ) * (τ - c.reftime) = 2 * c.reftime - τ by push_cast; ring] at s2
  have h0 := norm_mul_cisd_angle (harmonic c n c.reftime)
  rw [s1, s2, map_mul, conj_cyc]
  have h1 : harmonic c n c.reftime = cisd (2 * startAngle c n) * conj (harmonic c n c.reftime) := by
    unfold startAngle
    rw [show 2 * angleDeg (harmonic c n c.reftime) = angleDeg (harmonic c n c.reftime) + angleDeg (harmonic c n c.reftime)
      by ring, cisd_add]
    generalize angleDeg (harmonic c n c.reftime) = a at *
    rw [← h0, map_mul, Complex.conj_ofReal, conj_cisd]
    have : cisd a * cisd (-a) = 1 := by rw [← cisd_add, add_neg_cancel]; simp [cisd]
    linear_combination (-(‖harmonic c n c.reftime‖ : ℂ) * cisd a) * this
  conv_lhs => rw [h1]
  push_cast
  rw [show -1 * (24 * (τ - c.reftime) * f) = -(1 * (24 * (τ - c.reftime) * f)) by ring]
  ring

theorem reversed_of_rotary (s : ℝ) (e e' : Ell) (h : |e.Lsmin| ≤ e.Lsmaj) (h' : |e'.Lsmin| ≤ e'.Lsmaj)
    (ht : 0 ≤ e.theta ∧ e.theta < 180) (ht' : 0 ≤ e'.theta ∧ e'.theta < 180)
    (hp : ccw e' = cisd (-(2 * s)) * cw e) (hm : cw e' = cisd (2 * s) * ccw e) : ReversedEllipse s e e' := by
  have h1 : ccw ⟨e.Lsmaj, -e.Lsmin, e.theta, -e.g⟩ = cw e := by
    unfold ccw cw; simp [sub_eq_add_neg]
  have h2 : cw ⟨e.Lsmaj, -e.Lsmin, e.theta, -e.g⟩ = ccw e := by
    unfold ccw cw; simp [sub_eq_add_neg]
  have C := convertedBy_of_rotary (cisd (-(2 * s))) (cisd_ne_zero _) e' ⟨e.Lsmaj, -e.Lsmin, e.theta, -e.g⟩ h'
    (by simpa using h) ht' ht (by rw [h1, hp]) (by rw [h2, hm, conj_cisd, neg_neg])
  refine ⟨by simpa [norm_cisd] using C.major, by simpa [norm_cisd] using C.minor, fun hlt => C.theta (by simpa using hlt),
    fun hlt => ?_⟩
  have := C.phase (by simpa using hlt)
  rw [norm_cisd, Complex.ofReal_one, one_mul, ← cisd_add] at this
  obtain ⟨k, hk⟩ := (cisd_eq_iff _ _).1 this
  dsimp only at hk
  exact ⟨-k, by push_cast; linarith⟩

/-! ## C134 -/

/-- The best curve of the mirrored record is the mirrored best curve. -/
theorem backward_core {E : Env} {lat : Option ℝ} {opts : Dict PyVal} {t t' : TimeArg} {u u' : Series}
    {v v' : Option Series} {tn tn' : List Fl} {c c' : Coef} (H : OlsRun E lat opts none t u v tn c)
    (H' : OlsRun E lat opts none t' u' v' tn' c') (hv : v'.isSome = v.isSome) (hn : c'.name.Perm c.name)
    (href : c'.reftime = c.reftime) (hst : Steady opts) (hB : Backwards c.reftime tn u v tn' u' v')
    (hsep : Separated c none v.isSome (SampleTime tn u.data (v.map Series.data))) :
    (∀ n ∈ c.name, ∀ τ, harmonic c' n (2 * c.reftime - τ) = cisd (2 * startAngle c n) * conj (harmonic c n τ)) ∧
    (∀ (i j : ℕ) (n : String), c.name[i]? = some n → c'.name[j]? = some n → ∃ e e', ellipseAt c.ell i = some e ∧
      ellipseAt c'.ell j = some e' ∧ ccw e' = cisd (-(2 * startAngle c n)) * cw e ∧
      cw e' = cisd (2 * startAngle c n) * ccw e ∧ ReversedEllipse (startAngle c n) e e') ∧
    ∀ τ, level c' τ = level c (2 * c.reftime - τ) := by
  obtain ⟨hopt, -, hcurve⟩ := H.transfer H' hv hn (.inr href)
  replace hcurve : ∀ P M mean slope, rotaryCurve c' P M mean slope = rotaryCurve c P M mean slope := by
    intro P M mean slope
    rw [hcurve, href]; simp
  have hharm : ∀ n τ, harmonic c' n τ = harmonic c n τ := by
    intro n τ
    obtain ⟨o1, p1, q1, r1, m1, W1, f1, g1, k1, l1, F⟩ := solve_facts H.ready H.returned
    obtain ⟨o2, p2, q2, r2, m2, W2, f2, g2, k2, l2, F'⟩ := solve_facts H'.ready H'.returned
    unfold harmonic
    rw [hopt, href, F.clat, F'.clat, Option.some.inj (F'.prep.init.hlat.symm.trans F.prep.init.hlat)]
  have hmir := fun n hn' τ => harmonic_mirror H.ready H.keys H.returned hst n hn' τ
  have hinv : ∀ s : ℝ, cisd (-(2 * s)) * cisd (2 * s) = 1 := by
    intro s
    rw [← cisd_add, neg_add_cancel]; simp [cisd]
  -- curves at mirrored times
  have hK : ∀ (P M : String → ℂ) (mean slope : ℂ) (τ : ℝ), rotaryCurve c P M mean slope (2 * c.reftime - τ) =
      rotaryCurve c (fun n => cisd (-(2 * startAngle c n)) * M n) (fun n => cisd (2 * startAngle c n) * P n) mean (-slope)
        τ := by
    intro P M mean slope τ
    unfold rotaryCurve
    have : (c.name.map fun n => harmonic c n (2 * c.reftime - τ) * P n + conj (harmonic c n (2 * c.reftime - τ)) * M n) =
        c.name.map fun n => harmonic c n τ * (cisd (-(2 * startAngle c n)) * M n) +
          conj (harmonic c n τ) * (cisd (2 * startAngle c n) * P n) := by
      refine List.map_congr_left fun n hn' => ?_
      rw [hmir n hn', map_mul, Complex.conj_conj, conj_cisd]
      ring
    rw [this]
    push_cast
    ring
  obtain ⟨P, M, mean, slope, hT, hs, -, hE, hL, -, hbest⟩ := H.best
  have hback : ∀ τ, rotaryCurve c (fun n => cisd (-(2 * startAngle c n)) * M n) (fun n => cisd (2 * startAngle c n) * P n)
      mean (-slope) (2 * c.reftime - τ) = rotaryCurve c P M mean slope τ := by
    intro τ
    rw [hK, neg_neg]
    congr 1
    · funext n
      linear_combination P n * hinv (startAngle c n)
    · funext n
      linear_combination M n * hinv (startAngle c n)
  have hsep' : Separated c' none v'.isSome (SampleTime tn' u'.data (v'.map Series.data)) := by
    refine ⟨hn.nodup_iff.2 hsep.names, fun P M mean slope _ hs hz => ?_⟩
    obtain ⟨z1, z2, z3⟩ := hsep.indep (fun n => cisd (-(2 * startAngle c n)) * M n)
      (fun n => cisd (2 * startAngle c n) * P n) mean (-slope) (tiedRotary_none _ _ _)
      (fun h => by rw [hs (by rw [hopt]; exact h), neg_zero]) (fun τ hτ => by
        rw [← hK, ← hcurve]
        exact hz _ (hB.sampleTime τ hτ))
    refine ⟨z1, neg_eq_zero.1 z2, fun n hn' => ?_⟩
    obtain ⟨a, b⟩ := z3 n (hn.mem_iff.1 hn')
    exact ⟨(mul_eq_zero.1 b).resolve_left (cisd_ne_zero _), (mul_eq_zero.1 a).resolve_left (cisd_ne_zero _)⟩
  obtain ⟨r1, r2⟩ := H'.unique hsep' (fun n => cisd (-(2 * startAngle c n)) * M n)
    (fun n => cisd (2 * startAngle c n) * P n) mean (-slope) (tiedRotary_none _ _ _)
    (fun h => by rw [hs (by rw [← hopt]; exact h), neg_zero]) (by
      intro P' M' mean' slope' _ hs'
      rw [hcurve, hcurve, hB.away, hB.away]
      simp only [hback, hK]
      exact hbest _ _ _ _ (tiedRotary_none _ _ _) (fun h => by rw [hs' (by rw [hopt]; exact h), neg_zero]))
  obtain ⟨n1, n2⟩ := H.normal
  refine ⟨fun n hn' τ => by rw [hharm, hmir n hn'], ?_, ?_⟩
  · intro i j n hi hj
    obtain ⟨e, he, hp, hm⟩ := hE i n hi
    refine ⟨e, _, he, r1 j n hj, ?_⟩
    have hne := n1 i n e hi he
    rw [hv, ← hp, ← hm]
    cases htd : v.isSome with
    | true =>
      simp only [htd, if_true] at hne ⊢
      have g1 := ccw_ell2 (cisd (-(2 * startAngle c n)) * cw e) (cisd (2 * startAngle c n) * ccw e)
      have g2 := cw_ell2 (cisd (-(2 * startAngle c n)) * cw e) (cisd (2 * startAngle c n) * ccw e)
      refine ⟨g1, g2, reversed_of_rotary _ _ _ ?_ ?_ ?_ ?_ g1 g2⟩
      · rw [hne]; exact ell2_minor _ _
      · exact ell2_minor _ _
      · rw [hne, ell2_eq]; exact ⟨pymod_nonneg _ (by norm_num), pymod_lt _ (by norm_num)⟩
      · rw [ell2_eq]; exact ⟨pymod_nonneg _ (by norm_num), pymod_lt _ (by norm_num)⟩
    | false =>
      simp only [htd, Bool.false_eq_true, if_false] at hne ⊢
      have hc : cw e = conj (ccw e) := by
        rw [hne, cw_ell1, ccw_ell1]
      have g1 : ccw (ell1 (cisd (-(2 * startAngle c n)) * cw e) (cisd (2 * startAngle c n) * ccw e)) =
          cisd (-(2 * startAngle c n)) * cw e := by
        rw [ccw_ell1, map_mul, conj_cisd, ← hc]; ring
      have g2 : cw (ell1 (cisd (-(2 * startAngle c n)) * cw e) (cisd (2 * startAngle c n) * ccw e)) =
          cisd (2 * startAngle c n) * ccw e := by
        rw [cw_ell1, ← ccw_ell1, g1, map_mul, conj_cisd, neg_neg, hc, Complex.conj_conj]
      refine ⟨g1, g2, reversed_of_rotary _ _ _ ?_ ?_ ?_ ?_ g1 g2⟩
      · rw [hne]; simp [ell1_eq]
      · simp [ell1_eq]
      · rw [hne]; simp [ell1_eq]
      · simp [ell1_eq]
  · intro τ
    have key : mean + -slope * ((τ - c.reftime : ℝ) : ℂ) = level c (2 * c.reftime - τ) := by
      rw [hL]; push_cast; ring
    rw [r2, href, key, hv]
    cases htd : v.isSome with
    | true => simp
    | false =>
      simp only [Bool.false_eq_true, if_false]
      exact (n2 htd _).symm

section
variable (E : Env) (lat : Option ℝ) (opts : Dict PyVal) (t t' : TimeArg) (u u' : Series)
    (v v' : Option Series) (tn tn' : List Fl) (c c' : Coef) (H : OlsRun E lat opts none t u v tn c)
    (H' : OlsRun E lat opts none t' u' v' tn' c') (hv : v'.isSome = v.isSome) (hn : c'.name.Perm c.name)
    (href : c'.reftime = c.reftime) (hst : Steady opts) (hB : Backwards c.reftime tn u v tn' u' v')
    (hsep : Separated c none v.isSome (SampleTime tn u.data (v.map Series.data)))
include H H' hv hn href hst hB hsep

/-- **C134**: the ellipses of the record played backwards, and its mean and trend. -/
theorem C134_backwards :
    (∀ (i j : ℕ) (n : String), c.name[i]? = some n → c'.name[j]? = some n → ∃ e e', ellipseAt c.ell i = some e ∧
      ellipseAt c'.ell j = some e' ∧ ReversedEllipse (startAngle c n) e e') ∧
    ∀ τ, level c' τ = level c (2 * c.reftime - τ) := by
  obtain ⟨-, h1, h2⟩ := backward_core H H' hv hn href hst hB hsep
  refine ⟨fun i j n hi hj => ?_, h2⟩
  obtain ⟨e, e', a1, a2, -, -, a3⟩ := h1 i j n hi hj
  exact ⟨e, e', a1, a2, a3⟩

/-- **C134**, raw phases without nodal corrections: the phases change sign. -/
theorem C134_raw (hno : (requested opts "nodal").bind nodalMode = some .off)
    (hph : (requested opts "phase").bind phaseMode = some .off) (i j : ℕ) (n : String) (hi : c.name[i]? = some n)
    (hj : c'.name[j]? = some n) : ∃ e e', ellipseAt c.ell i = some e ∧ ellipseAt c'.ell j = some e' ∧
      ReversedEllipse 0 e e' := by
  obtain ⟨e, e', a1, a2, a3⟩ := (C134_backwards E lat opts t t' u u' v v' tn tn' c c' H H' hv hn href hst hB hsep).1 i j n
    hi hj
  have h0 : startAngle c n = 0 := by
    obtain ⟨e1, -, e3⟩ := permute_aligned H.returned
    obtain ⟨opt, p, tn0, constit, m, W, rf, full, o, ind, F⟩ := solve_facts H.ready H.returned
    have hco := F.copt
    subst hco
    obtain ⟨q1, q2⟩ := C20_modes opts H.keys _ _ F.hopt
    have w1 : c.opt.flags.nodsatnone = true := by
      have := q1 _ hno
      cases ha : c.opt.flags.nodsatlint <;> cases hb : c.opt.flags.nodsatnone <;> simp [ha, hb, flagMode] at this ⊢
    have w2 : c.opt.flags.gwchnone = true := by
      have := q2 _ hph
      cases ha : c.opt.flags.gwchlint <;> cases hb : c.opt.flags.gwchnone <;> simp [ha, hb, flagMode] at this ⊢
    rw [e1, List.getElem?_map, Option.map_eq_some_iff] at hi
    obtain ⟨k, hk, rfl⟩ := hi
    unfold startAngle harmonic
    rw [nameBasis_nameAt _ _ _ _ (e3 _ (List.mem_of_getElem? hk))]
    unfold utE angleDeg
    simp [w1, w2]
  rw [h0] at a3
  exact ⟨e, e', a1, a2, a3⟩

/-- **C134**, prediction: `reconstruct` gives for the record played backwards the values it gives for the record at the
mirrored times. -/
theorem C134_prediction (a : RecArgs) (ha : RecArgs.Everything a) : ∃ f : ℝ → ℂ, PredictedBy c a f ∧
    PredictedBy c' a fun τ => f (2 * c.reftime - τ) := by
  obtain ⟨h0, h1, h2⟩ := backward_core H H' hv hn href hst hB hsep
  obtain ⟨P, M, mean, slope, -, -, -, hE, -, -, -⟩ := H.best
  refine ⟨fun τ => level c τ + (c.name.map fun n => harmonic c n τ * P n + conj (harmonic c n τ) * M n).sum, ?_, ?_⟩
  · intro E' t0 ep
    exact predicted H.ready H.keys H.returned H.kept P M hE { a with epoch := ep } ha E' t0
  · intro E' t0 ep
    rw [predicted H'.ready H'.keys H'.returned H'.kept (fun n => cisd (-(2 * startAngle c n)) * M n)
      (fun n => cisd (2 * startAngle c n) * P n) (by
        intro j n hj
        obtain ⟨i, hi⟩ := List.mem_iff_getElem?.1 (hn.mem_iff.1 (List.mem_of_getElem? hj))
        obtain ⟨e, e', a1, a2, a3, a4, -⟩ := h1 i j n hi hj
        obtain ⟨e₀, b1, b2, b3⟩ := hE i n hi
        rw [a1] at b1
        cases b1
        exact ⟨e', a2, by rw [a3, b3], by rw [a4, b2]⟩) { a with epoch := ep } ha E' t0]
    congr 1
    funext l
    refine List.map_congr_left fun x _ => ?_
    congr 1
    funext τ
    rw [h2, (hn.map _).sum_eq]
    congr 2
    refine List.map_congr_left fun n hn' => ?_
    have k := h0 n hn' (2 * c.reftime - τ)
    rw [mirror_twice] at k
    rw [k, map_mul, Complex.conj_conj, conj_cisd]
    have hinv : cisd (-(2 * startAngle c n)) * cisd (2 * startAngle c n) = 1 := by
      rw [← cisd_add, neg_add_cancel]; simp [cisd]
    linear_combination (conj (harmonic c n (2 * c.reftime - τ)) * M n + harmonic c n (2 * c.reftime - τ) * P n) * hinv

end

/-- Currents `1+i`, `5`, `3+2i` and the same in the opposite order. -/
example : ∃ c c' e e', solve idealEnv dayT (daySeries 1 5 3) (some (daySeries 1 0 2)) (some 45) exOpts = .ok c ∧
    solve idealEnv dayT (daySeries 3 5 1) (some (daySeries 2 0 1)) (some 45) exOpts = .ok c' ∧
    ellipseAt c.ell 0 = some e ∧ ellipseAt c'.ell 0 = some e' ∧ ReversedEllipse 0 e e' := by
  have hv : ∀ a b c, some (daySeries a b c) = none ∨ ∃ d e f, some (daySeries a b c) = some (daySeries d e f) :=
    fun _ _ _ => .inr ⟨_, _, _, rfl⟩
  obtain ⟨c, hc, D⟩ := day_run 1 5 3 _ (hv 1 0 2)
  obtain ⟨c', hc', D'⟩ := day_run 3 5 1 _ (hv 2 0 1)
  have H : OlsRun idealEnv (some 45) exOpts none dayT (daySeries 1 5 3) (some (daySeries 1 0 2)) [.fin 0, .fin 0.5, .fin 1]
      c := ⟨day_ready _ _ _ _ (hv _ _ _), by decide, ⟨_, rfl, .inl rfl⟩, hc, D.kept, by rw [D.opt]; rfl, by simp,
        by rw [D.opt]; exact day_times, by rw [D.name]; simp⟩
  have H' : OlsRun idealEnv (some 45) exOpts none dayT (daySeries 3 5 1) (some (daySeries 2 0 1))
      [.fin 0, .fin 0.5, .fin 1] c' := ⟨day_ready _ _ _ _ (hv _ _ _), by decide, ⟨_, rfl, .inl rfl⟩, hc', D'.kept,
        by rw [D'.opt]; rfl, by simp, by rw [D'.opt]; exact day_times, by rw [D'.name]; simp⟩
  have s := day_sampleTime2 1 5 3 1 0 2
  obtain ⟨e, e', h1, h2, h3⟩ := C134_raw idealEnv (some 45) exOpts dayT dayT _ _ _ _ _ _ c c' H H' rfl
    (by rw [D.name, D'.name]) (by rw [D.reftime, D'.reftime]) ⟨.inl rfl, .inl rfl⟩ (by
      unfold Backwards
      rw [D.reftime]
      simp [sampleValues, daySeries, Cell.value?, Fl.toReal?, mirrorTime]
      norm_num
      exact List.reverse_perm [_, _, _]) (day_separated D _ _ s.1 s.2.1 s.2.2) rfl rfl 0 0 "M2" (by rw [D.name]; rfl) (by rw [D'.name]; rfl)
  exact ⟨c, c', e, e', hc, hc', h1, h2, h3⟩

end

end UTide.Props
