import Verif.Props.ComponentProps

/-!
# Mirrored currents: C100
-/

namespace UTide.Props

noncomputable section

open Classical

local notation "conj" => starRingEnd ℂ

/-! ## Specification -/

/-- Mirror image of a vector: the first axis is kept, then everything is turned by `φ` degrees. `φ = 0` changes the sign
of the second component, `φ = 180` that of the first, `φ = 90` exchanges the components. -/
def mirror (φ : ℝ) (z : ℂ) : ℂ := cisd φ * conj z

/-- Mean and slope mirrored. -/
def mirrorMean (φ : ℝ) : MeanSlope → MeanSlope
  | .one m s => .one m s
  | .two a b s => .two (mirror φ ⟨a, b⟩).re (mirror φ ⟨a, b⟩).im
      (s.map fun p => ((mirror φ ⟨p.1, p.2⟩).re, (mirror φ ⟨p.1, p.2⟩).im))

/-- The ellipse `e'` is the mirror image of `e`: the same major axis, traversed in the opposite direction (minor axis of
opposite sign); where the ellipse is not a circle, orientation `φ` minus the former and the same phase, up to half turns
of both together. For circles, where the two angles are not determined separately, the combination that matters. -/
def Mirrored (φ : ℝ) (e e' : Ell) : Prop :=
  e'.Lsmaj = e.Lsmaj ∧ e'.Lsmin = -e.Lsmin ∧
  (|e.Lsmin| < e.Lsmaj → ∃ a b : ℤ, e'.theta = φ - e.theta + 180 * a ∧ e'.g = e.g + 180 * b ∧ Even (a - b)) ∧
  (e.Lsmaj - e.Lsmin ≠ 0 → ∃ k : ℤ, e'.theta - e'.g = φ - e.theta - e.g + 360 * k) ∧
  (e.Lsmaj + e.Lsmin ≠ 0 → ∃ k : ℤ, e'.theta + e'.g = φ - e.theta + e.g + 360 * k)

/-! ## Lemmas -/

theorem mirrored_ell2 (φ : ℝ) (a b : ℂ) : Mirrored φ (ell2 a b) (ell2 (mirror φ b) (mirror φ a)) := by
  have hn : ∀ z, ‖mirror φ z‖ = ‖z‖ := fun z => by unfold mirror; simp [norm_cisd]
  have h1 : (ell2 (mirror φ b) (mirror φ a)).Lsmaj = (ell2 a b).Lsmaj := by
    rw [ell2_eq, ell2_eq]; simp only [hn]; ring
  have h2 : (ell2 (mirror φ b) (mirror φ a)).Lsmin = -(ell2 a b).Lsmin := by
    rw [ell2_eq, ell2_eq]; simp only [hn]; ring
  generalize hE : (⟨(ell2 a b).Lsmaj, -(ell2 a b).Lsmin, φ - (ell2 a b).theta, (ell2 a b).g⟩ : Ell) = E
  have hp : ccw (ell2 (mirror φ b) (mirror φ a)) = ccw E := by
    rw [ccw_ell2]
    conv_lhs => rw [← cw_ell2 a b]
    subst hE
    unfold ccw cw mirror
    simp only [map_mul, Complex.conj_ofReal, conj_cisd]
    rw [show φ - (ell2 a b).theta - (ell2 a b).g = φ + -((ell2 a b).theta + (ell2 a b).g) by ring, cisd_add φ]
    push_cast
    ring
  have hq : cw (ell2 (mirror φ b) (mirror φ a)) = cw E := by
    rw [cw_ell2]
    conv_lhs => rw [← ccw_ell2 a b]
    subst hE
    unfold ccw cw mirror
    simp only [map_mul, Complex.conj_ofReal, conj_cisd]
    rw [show φ - (ell2 a b).theta + (ell2 a b).g = φ + -((ell2 a b).theta - (ell2 a b).g) by ring, cisd_add φ]
    push_cast
    ring
  obtain ⟨k3, k4⟩ := same_angles E _ (by subst hE; exact h1) (by subst hE; exact h2) hp hq
  have k5 := fun h h' => same_angles180 (e := E) (k3 h) (k4 h')
  subst hE
  dsimp only at k3 k4 k5
  refine ⟨h1, h2, fun hlt => ?_, fun h => k3 (by simpa [sub_eq_add_neg] using h), fun h => k4 (by simpa using h)⟩
  have hl := abs_lt.1 hlt
  exact k5 (by linarith) (by linarith)

/-- Mirrored data have mirrored coefficients. -/
theorem mirror_sol {tref : ℝ} {sel : Sel} (hal : SelAligned tref sel) (hc : sel.Conj) (fl : Flags) (tr lat lor : ℝ)
    (trend ap : Bool) (ts : List ℝ) (x : List ℂ) (m : List ℂ)
    (h : IsMinNormSol (numCols trend sel) (ts.map (modelRow fl tr lat lor trend ap sel)) x m)
    (a b c d : List ℂ) (e : ℂ) (f : List ℂ) (hbl : Blocks sel trend m a b c d e f) :
    IsMinNormSol (numCols trend sel) (ts.map (modelRow fl tr lat lor trend ap sel)) (x.map conj)
      (b.map conj ++ a.map conj ++ d.map conj ++ c.map conj ++ [conj e] ++ f.map conj) := by
  have hmir : ∀ (x : List ℂ) (a b c d : List ℂ) (e : ℂ) (f : List ℂ),
      Blocks sel trend (a ++ b ++ c ++ d ++ [e] ++ f) a b c d e f →
      cost (ts.map (modelRow fl tr lat lor trend ap sel)) (x.map conj)
        (b.map conj ++ a.map conj ++ d.map conj ++ c.map conj ++ [conj e] ++ f.map conj) =
      cost (ts.map (modelRow fl tr lat lor trend ap sel)) x (a ++ b ++ c ++ d ++ [e] ++ f) := by
    intro x a b c d e f hbl
    unfold cost
    congr 1
    apply List.ext_getElem
    · simp
    · intro i h1 h2
      simp only [List.getElem_zipWith, List.getElem_map]
      rw [row_mirror hal hc _ _ _ _ _ _ _ _ _ _ _ _ _ hbl.a hbl.b hbl.c hbl.d, ← map_sub, RCLike.norm_conj]
  have hns : ∀ (a b c d : List ℂ) (e : ℂ) (f : List ℂ),
      normSq (b.map conj ++ a.map conj ++ d.map conj ++ c.map conj ++ [conj e] ++ f.map conj) =
      normSq (a ++ b ++ c ++ d ++ [e] ++ f) := by
    intro a b c d e f
    unfold normSq
    simp only [List.map_append, List.sum_append, List.map_map, List.map_cons, List.map_nil, Function.comp_def,
      RCLike.norm_conj]
    ring
  have hcc : ∀ l : List ℂ, (l.map conj).map conj = l := by intro l; simp [Function.comp_def]
  obtain ⟨rfl, la, lb, lc, ld, lf⟩ := hbl
  have hbl : Blocks sel trend (a ++ b ++ c ++ d ++ [e] ++ f) a b c d e f := ⟨rfl, la, lb, lc, ld, lf⟩
  -- competitors
  have key : ∀ m', m'.length = numCols trend sel → ∃ m'', m''.length = numCols trend sel ∧ normSq m'' = normSq m' ∧
      cost (ts.map (modelRow fl tr lat lor trend ap sel)) x m'' =
      cost (ts.map (modelRow fl tr lat lor trend ap sel)) (x.map conj) m' := by
    intro m' hm'
    obtain ⟨a', b', c', d', e', f', hb'⟩ := exists_blocks sel trend m' hm'
    obtain ⟨rfl, la', lb', lc', ld', lf'⟩ := hb'
    refine ⟨b'.map conj ++ a'.map conj ++ d'.map conj ++ c'.map conj ++ [conj e'] ++ f'.map conj, ?_, hns _ _ _ _ _ _, ?_⟩
    · rw [← hm']; simp [la', lb', lc', ld']
    · have := hmir (x.map conj) a' b' c' d' e' f' ⟨rfl, la', lb', lc', ld', lf'⟩
      rw [hcc] at this
      exact this
  refine ⟨?_, fun m' hm' => ?_, fun m' hm' he => ?_⟩
  · rw [← h.length]; simp [la, lb, lc, ld]
  · rw [hmir _ _ _ _ _ _ _ hbl]
    obtain ⟨m'', h1, -, h2⟩ := key m' hm'
    rw [← h2]
    exact h.optimal m'' h1
  · rw [hmir _ _ _ _ _ _ _ hbl] at he
    obtain ⟨m'', h1, h2, h3⟩ := key m' hm'
    rw [hns, ← h2]
    exact h.minimal m'' h1 (h3.trans he)

/-! ## C100 -/

/-- **C100.** Reversing an axis, exchanging the components or any other reflection of a current mirrors the mean, the
trend, the ellipses and the predictions. With inference the same ratio and offset are given for both directions of
rotation. -/
theorem C100_mirror (E : Env) (t : TimeArg) (u w u' w' : Series) (lat : Option ℝ) (opts : Dict PyVal)
    (R : Ready E t u (some w)) (R' : Ready E t u' (some w')) (hnd : opts.keys.Nodup)
    (hm : ∃ x, requested opts "method" = some x ∧ IsStr x "ols")
    (c c' : Coef) (h : solve E t u (some w) lat opts = .ok c) (h' : solve E t u' (some w') lat opts = .ok c')
    (hkept : AllKept c) (hn : c.name.Nodup)
    (sp : Option InferSpec) (hi : readInfer c.opt.infer = .ok (sp.map doubled))
    (tn : List Fl) (htn : normalizeTime E.dt64 t.arr c.opt.epoch = .ok tn)
    (φ : ℝ) (hu : Transformed (fun _ x => mirror φ x) tn u (some w) u' (some w')) :
    c'.name.Perm c.name ∧ c'.mean = mirrorMean φ c.mean ∧
    (∀ i j n, c.name[i]? = some n → c'.name[j]? = some n → ∃ e e', ellipseAt c.ell i = some e ∧
      ellipseAt c'.ell j = some e' ∧ Mirrored φ e e') ∧
    ∀ (E' : Env) (t' : TimeArr) (x : RecArgs), RecArgs.Everything x →
      reconstruct E' t' c' x = (reconstruct E' t' c x).map fun r => r.map fun z => z.map (mirror φ) := by
  obtain ⟨opt, p, tn0, constit, m, W, rf, full, o, ind, F⟩ := solve_facts R h
  obtain ⟨opt', p', tn', constit', m', W', rf', full', o', ind', F'⟩ := solve_facts R' h'
  have hc := F.copt
  subst hc
  cases Except.ok.inj (F.prep.init.time.symm.trans htn)
  obtain ⟨hopt, rfl, rfl, hinf, T⟩ := twin' F F' R R' rfl _ hu
  subst hopt
  have hq := getOpt_requests _ hnd _ _ F.hopt
  have hols : c.opt.method = .ols := by
    obtain ⟨x, hx, hs⟩ := hm
    exact hq.ols x hx ((eqStr_iff _ _).2 hs)
  have hin : p.infer = sp.map doubled := Except.ok.inj (F.prep.hinfer.symm.trans hi)
  have hconj : p.sel.Conj := by
    have hs := F.prep.hsel
    have hl := fun s hs => F.inferLengths hnd s hs
    rw [hin] at hs hl
    cases hsp : sp with
    | none => rw [hsp] at hs; exact sel_conj hs (fun s hs => by cases hs)
    | some s =>
      rw [hsp] at hs hl
      obtain ⟨l1, l2, l3⟩ := hl _ rfl
      simp only [doubled, Option.isSome_some, if_true, List.length_append] at l1 l2 l3
      rw [Option.map_some, cnstitsel_doubled _ _ _ s (by omega) (by omega) l1] at hs
      exact sel_conj hs (fun s' hs' => by cases hs'; omega)
  have hal := F.prep.aligned
  have hn' : p.sel.name.Nodup := (F.perm_names R hnd hkept).nodup_iff.1 hn
  obtain ⟨P, M, mean, slope, hP, hM, hs, hmc⟩ := F.exists_coef hn' m F.mlen
  obtain ⟨r1, r2⟩ := F.read hnd P M mean slope hP hM hmc
  -- the coefficients of the mirror image
  have hx : xraw p'.ed = vscale (cisd φ) ((xraw p.ed).map conj) := by
    obtain ⟨us, x1, x2, x3⟩ := T.x
    rw [x2, x3, vscale, List.map_map, List.map_map]
    rfl
  have a1 := F.minNorm R hols
  have a2 := F'.minNorm R' hols
  have hh := F.prep.height R.ht R.hu R.hv
  have hh' := F'.prep.height R'.ht R'.hu R'.hv
  have hnB := F.prep.nm
  have hB := F.prep.B
  rw [T.nm, T.B, hx, hnB, hB] at a2
  rw [hnB, hB] at a1
  have hbl := nameCoef_blocks hal (!c.opt.notrend) P M mean (slope * (p.ed.lor : ℂ))
  rw [← hmc] at hbl
  have a3 := (mirror_sol hal hconj _ _ _ _ _ _ _ _ m a1 _ _ _ _ _ _ hbl).scale (cisd φ) (cisd_ne_zero φ)
  have hmm := IsMinNormSol.unique (by rw [← hB, ← T.B, ← hx]; exact hh') a2 a3
  have hmm' : m' = nameCoef p'.sel (!c.opt.notrend) (fun n => mirror φ (M n)) (fun n => mirror φ (P n)) (mirror φ mean)
      (mirror φ slope * (p'.ed.lor : ℂ)) := by
    rw [hmm, T.sel, T.lor]
    unfold vscale nameCoef mirror
    cases c.opt.notrend <;> simp [List.map_append, Function.comp_def, mul_assoc]
  have hP' : TiedBy p'.sel InfCon.Rp fun n => mirror φ (M n) := by
    rw [T.sel]; intro r hr q hq
    dsimp only
    unfold mirror
    rw [hM r hr q hq, hconj r hr q hq, map_mul, Complex.conj_conj]; ring
  have hM' : TiedBy p'.sel InfCon.Rm fun n => mirror φ (P n) := by
    rw [T.sel]; intro r hr q hq
    dsimp only
    unfold mirror
    rw [hP r hr q hq, hconj r hr q hq, map_mul]; ring
  obtain ⟨r3, r4⟩ := F'.read hnd _ _ _ _ hP' hM' hmm'
  have hnm := same_names F F' R R' hnd T.sel hkept rfl
  have hk' : AllKept c' := hkept.transfer hnm (by rw [F'.copt]) (by rw [F'.counts, F.counts, T.sel])
  have ec : ∀ j n, c.name[j]? = some n → ∃ e, ellipseAt c.ell j = some e ∧ ccw e = P n ∧ cw e = M n := by
    intro j n hj
    refine ⟨_, by rw [r1, ellipseAt_map, hj]; rfl, ?_, ?_⟩
    · simp only [Option.isSome_some, if_true, ccw_ell2]
    · simp only [Option.isSome_some, if_true, cw_ell2]
  have ec' : ∀ j n, c'.name[j]? = some n → ∃ e, ellipseAt c'.ell j = some e ∧ ccw e = mirror φ (M n) ∧
      cw e = mirror φ (P n) := by
    intro j n hj
    refine ⟨_, by rw [r3, ellipseAt_map, hj]; rfl, ?_, ?_⟩
    · simp only [Option.isSome_some, if_true, ccw_ell2]
    · simp only [Option.isSome_some, if_true, cw_ell2]
  have hlin : ∀ z y, mirror φ (z + y) = mirror φ z + mirror φ y := fun z y => by unfold mirror; rw [map_add, mul_add]
  refine ⟨hnm, ?_, ?_, ?_⟩
  · rw [r2, r4]
    unfold meanRec
    cases c.opt.notrend <;> simp [mirrorMean]
  · intro i j n hi hj
    refine ⟨_, _, by rw [r1, ellipseAt_map, hi]; rfl, by rw [r3, ellipseAt_map, hj]; rfl, ?_⟩
    simp only [Option.isSome_some, if_true]
    exact mirrored_ell2 φ _ _
  · intro E' t' x hx
    rw [predicted R hnd h hkept _ _ ec x hx E' t', predicted R' hnd h' hk' _ _ ec' x hx E' t']
    cases normalizeTime E'.dt64 t' x.epoch with
    | error e => rfl
    | ok tn1 =>
      simp only [Except.map, List.map_map]
      congr 1
      refine List.map_congr_left fun y _ => ?_
      simp only [Function.comp]
      cases y.toReal? with
      | none => rfl
      | some τ =>
        simp only [Option.map_some, Option.some.injEq]
        have hf : ∀ n, harmonic c' n τ = harmonic c n τ := by
          intro n; unfold harmonic
          rw [F'.creftime, F.creftime, F'.clat, F.clat, T.tref, T.lat, F'.copt]
        have hr : c'.reftime = c.reftime := by rw [F'.creftime, F.creftime, T.tref]
        have hms : c.opt.notrend = true → mirror φ slope = 0 := by
          intro h0; rw [hs h0]; simp [mirror]
        simp only [hf]
        have ho' : c'.opt = c.opt := F'.copt
        rw [hlin, level_meanRec c _ _ _ _ hs r2 τ, level_meanRec c' _ _ _ _ hms r4 τ, hr, (hnm.map _).sum_eq]
        congr 1
        · simp only [Option.isSome_some, if_true]
          rw [hlin]
          congr 1
          unfold mirror
          rw [map_mul, Complex.conj_ofReal]
          ring
        · generalize c.name = l
          induction l with
          | nil => simp [mirror]
          | cons n l ih =>
            rw [List.map_cons, List.sum_cons, List.map_cons, List.sum_cons, hlin, ih]
            congr 1
            unfold mirror
            simp only [map_add, map_mul, Complex.conj_conj]
            ring

/-- Exchanging the components of a current of three samples. -/
example : ∃ c c' e e', solve idealEnv dayT (daySeries 1 0 2) (some (daySeries 0 1 1)) (some 45) exOpts = .ok c ∧
    solve idealEnv dayT (daySeries 0 1 1) (some (daySeries 1 0 2)) (some 45) exOpts = .ok c' ∧
    c'.mean = mirrorMean 90 c.mean ∧ ellipseAt c.ell 0 = some e ∧ ellipseAt c'.ell 0 = some e' ∧ Mirrored 90 e e' := by
  have hv : ∀ a b c, some (daySeries a b c) = none ∨ ∃ d e f, some (daySeries a b c) = some (daySeries d e f) :=
    fun _ _ _ => .inr ⟨_, _, _, rfl⟩
  obtain ⟨c, hc, D⟩ := day_run 1 0 2 _ (hv 0 1 1)
  obtain ⟨c', hc', D'⟩ := day_run 0 1 1 _ (hv 1 0 2)
  obtain ⟨-, h1, h2, -⟩ := C100_mirror idealEnv dayT _ _ _ _ (some 45) exOpts (day_ready _ _ _ _ (hv _ _ _))
    (day_ready _ _ _ _ (hv _ _ _)) (by decide) ⟨_, rfl, .inl rfl⟩ c c' hc hc' D.kept (by rw [D.name]; simp) none
    (by rw [D.opt]; rfl) _ (by rw [D.opt]; exact day_times) 90 (by
      intro i τ hτ
      match i with
      | 0 => simp [sampleValues, daySeries, Cell.value?, Fl.toReal?, mirror, cisd_90, Complex.ext_iff]
      | 1 => simp [sampleValues, daySeries, Cell.value?, Fl.toReal?, mirror, cisd_90, Complex.ext_iff]
      | 2 => simp [sampleValues, daySeries, Cell.value?, Fl.toReal?, mirror, cisd_90, Complex.ext_iff]
      | i + 3 => simp at hτ)
  obtain ⟨e, e', h3, h4, h5⟩ := h2 0 0 "M2" (by rw [D.name]; rfl) (by rw [D'.name]; rfl)
  exact ⟨c, c', e, e', hc, hc', h1, h3, h4, h5⟩

end

end UTide.Props
