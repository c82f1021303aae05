import Verif.Props.UnitsProps

/-!
# Intervals of a record with an offset or a drift: C85
-/

namespace UTide.Props

noncomputable section

open Classical

local notation "conj" => starRingEnd ℂ

/-! ## Lemmas -/

/-- The computation of the covariances from the sums of the data. -/
def covFrom (N : Num) (nm : ℕ) (B : List (List ℂ)) (W : List ℝ) (n : ℕ) (s : ℝ) (q : ℂ) :
    Except PyErr (Matrix (Fin nm) (Fin nm) ℂ × Matrix (Fin nm) (Fin nm) ℂ) :=
  let dof : ℝ := (n : ℝ) - nm
  if dof = 0 then .error .nonFinite
  else
    match N.inv nm (gram true nm B W), N.inv nm (gram false nm B W) with
    | some iC, some iP =>
      let gamC := ((s / dof : ℝ) : ℂ) • iC
      let gamP := (q / (dof : ℂ)) • iP
      .ok (gamC + gamP, gamC - gamP)
    | _, _ => .error .linAlgError

theorem covariances_from (N : Num) (i : ConfIn) :
    covariances N i = covFrom N i.nm i.B i.W i.xraw.length (msmNum i) (pseudoNum i) := by
  unfold covariances covFrom
  dsimp only
  by_cases h : (i.xraw.length : ℝ) - i.nm = 0
  · rw [if_pos h, if_pos h]
  · rw [if_neg h, if_neg h]
    cases N.inv i.nm (gram true i.nm i.B i.W) with
    | none => rfl
    | some a => cases N.inv i.nm (gram false i.nm i.B i.W) <;> rfl

/-- The record enters the intervals through the residual, the two sums of line 193 and 200, the times and the number of
samples. -/
theorem confidence_data (N : Num) (i : ConfIn) (ed' : Edited) (x' y' : List ℂ) (ht : ed'.t = i.ed.t)
    (htin : ed'.tin = i.ed.tin) (he : ed'.equi = i.ed.equi) (hel : ed'.elor = i.ed.elor) (hl : x'.length = i.xraw.length)
    (hm : msmNum { i with ed := ed', xraw := x', xmod := y' } = msmNum i)
    (hp : pseudoNum { i with ed := ed', xraw := x', xmod := y' } = pseudoNum i) :
    confidence N { i with ed := ed', xraw := x', xmod := y' } = confidence N i := by
  have h1 : residualPower N ed' i.e i.frq = residualPower N i.ed i.e i.frq := by
    unfold residualPower
    rw [ht, htin, he, hel]
  have h2 : covariances N { i with ed := ed', xraw := x', xmod := y' } = covariances N i := by
    rw [covariances_from, covariances_from, hm, hp]
    dsimp only
    rw [hl]
  unfold confidence
  dsimp only
  rw [h1, h2]
  rfl

theorem zipWith_ones (n : ℕ) (x : List ℂ) (h : x.length = n) :
    List.zipWith (fun (w : ℝ) z => (w : ℂ) * z) (List.replicate n 1) x = x := by
  apply List.ext_getElem
  · simp [h]
  · intro i h1 h2; simp

theorem wdot_ones (a x : List ℂ) (n : ℕ) (h : x.length = n) : wdot a (List.replicate n 1) x = dot a x := by
  unfold wdot
  rw [zipWith_ones n x h]

theorem dot_map_sub (f : ℂ → ℂ) (hf : ∀ a b, f a - f b = f (a - b)) (x y z : List ℂ) (h1 : x.length = z.length)
    (h2 : y.length = z.length) :
    dot (x.map f) z - dot (y.map f) z = (List.zipWith (fun a b => f a * b) (List.zipWith (fun a b => a - b) x y) z).sum := by
  induction z generalizing x y with
  | nil => simp [dot]
  | cons c z ih =>
    obtain ⟨a, x, rfl⟩ := List.exists_cons_of_length_eq_add_one (by simpa using h1)
    obtain ⟨b, y, rfl⟩ := List.exists_cons_of_length_eq_add_one (by simpa using h2)
    have := ih x y (by simpa using h1) (by simpa using h2)
    simp only [List.map_cons, dot_cons, List.zipWith_cons_cons, List.sum_cons, ← this, ← hf]
    ring

theorem sum_zipWith_vadd (f : ℂ → ℂ) (e x y : List ℂ) (h1 : x.length = e.length) (h2 : y.length = e.length) :
    (List.zipWith (fun a b => f a * b) e (vadd x y)).sum =
      (List.zipWith (fun a b => f a * b) e x).sum + (List.zipWith (fun a b => f a * b) e y).sum := by
  induction e generalizing x y with
  | nil => simp
  | cons a e ih =>
    obtain ⟨b, x, rfl⟩ := List.exists_cons_of_length_eq_add_one (by simpa using h1)
    obtain ⟨c, y, rfl⟩ := List.exists_cons_of_length_eq_add_one (by simpa using h2)
    have := ih x y (by simpa using h1) (by simpa using h2)
    unfold vadd at this ⊢
    simp only [List.zipWith_cons_cons, List.sum_cons, this]
    ring

section
variable {E : Env} {t : TimeArg} {u : Series} {v : Option Series} {lat : Option ℝ} {opts : Dict PyVal}
  {c : Coef} {p : Prep} {tn : List Fl} {constit : Constit} {m : List ℂ} {W : List ℝ}
  {rf : Option RobOut} {full : Coef} {o : Order} {ind : List ℕ}
  {u' : Series} {v' : Option Series} {c' : Coef} {p' : Prep} {constit' : Constit} {m' : List ℂ} {W' : List ℝ}
  {rf' : Option RobOut} {full' : Coef} {ind' : List ℕ}

theorem Facts.xraw_im {opt : Opt} (F : Facts E t u v lat opts c opt p tn constit m W rf full o ind) (R : Ready E t u v)
    (hv : v.isSome = false) : ∀ z ∈ xraw p.ed, z.im = 0 := by
  intro z hz
  rw [(F.samples R).2.2] at hz
  cases v with
  | some v => simp at hv
  | none =>
    simp only [Option.map_none, usable, List.mem_map] at hz
    obtain ⟨s, ⟨q, -, rfl⟩, hq⟩ := hz
    rw [← hq]
    simp

/-- The residual is orthogonal to offsets and drifts. -/
theorem drift_orthogonal (F : Facts E t u v lat opts c c.opt p tn constit m W rf full o ind)
    (F' : Facts E t u' v' lat opts c' c.opt p' tn constit' m' W' rf' full' o ind') (R : Ready E t u v) (R' : Ready E t u' v')
    (hv : v'.isSome = v.isSome)
    (hnd : opts.keys.Nodup) (hols : c.opt.method = .ols) (hk : AllKept c) (hex' : approxOf p.infer = false)
    (a b : ℂ) (hb : c.opt.notrend = true → b = 0)
    (us : List (ℝ × ℂ)) (h1 : p.ed.t = us.map Prod.fst) (h2 : xraw p.ed = us.map Prod.snd)
    (h3 : xraw p'.ed = us.map fun s => s.2 + (a + b * ((s.1 - c.reftime : ℝ) : ℂ))) :
    (us.map fun s => conj (s.2 - if p.opt.twodim then dot (rowAt p s.1) m else (((dot (rowAt p s.1) m).re : ℝ) : ℂ)) *
      (a + b * ((s.1 - c.reftime : ℝ) : ℂ))).sum = 0 ∧
    (us.map fun s => (s.2 - if p.opt.twodim then dot (rowAt p s.1) m else (((dot (rowAt p s.1) m).re : ℝ) : ℂ)) *
      (a + b * ((s.1 - c.reftime : ℝ) : ℂ))).sum = 0 := by
  have hh := F.prep.height R.ht R.hu R.hv
  have hB : p.B = us.map fun s => rowAt p s.1 := by rw [F.rows_at, h1, List.map_map]; rfl
  have hm := F.minNorm R hols
  have key : ∀ a b : ℂ, (c.opt.notrend = true → b = 0) →
      (us.map fun s => conj (a + b * ((s.1 - c.reftime : ℝ) : ℂ)) * (s.2 - dot (rowAt p s.1) m)).sum = 0 := by
    intro a b hb
    have := hm.orthogonal hh (driftCoef c p a b) (F.drift_length a b)
    rw [h2, hB, zipWith_map_same] at this
    rw [← this]
    congr 1
    refine List.map_congr_left fun s hs => ?_
    rw [F.drift_row R hnd hk hex' a b hb s.1 (by rw [h1]; exact List.mem_map_of_mem hs)]
  have k1 := key a b hb
  have k2 := key (conj a) (conj b) (fun h => by rw [hb h]; simp)
  simp only [map_add, map_mul, Complex.conj_conj, Complex.conj_ofReal] at k1 k2
  by_cases htd : p.opt.twodim = true
  · simp only [htd, if_true]
    constructor
    · have := congrArg conj k1
      rw [map_list_sum, List.map_map, map_zero] at this
      rw [← this]
      congr 1
      refine List.map_congr_left fun s _ => ?_
      simp only [Function.comp, map_mul, map_add, map_sub, Complex.conj_conj, Complex.conj_ofReal]
      ring
    · rw [← k2]
      congr 1
      refine List.map_congr_left fun s _ => ?_
      ring
  · have hvn : v.isSome = false := by rw [← F.td hnd]; simpa using htd
    simp only [htd]
    have him : ∀ s ∈ us, s.2.im = 0 ∧ (a + b * ((s.1 - c.reftime : ℝ) : ℂ)).im = 0 := by
      intro s hs
      have i1 := F.xraw_im R hvn s.2 (by rw [h2]; exact List.mem_map_of_mem hs)
      have i2 := F'.xraw_im R' (hv.trans hvn) (s.2 + (a + b * ((s.1 - c.reftime : ℝ) : ℂ)))
        (by rw [h3]; exact List.mem_map.2 ⟨s, hs, rfl⟩)
      rw [Complex.add_im, i1, zero_add] at i2
      exact ⟨i1, i2⟩
    have hre : (us.map fun s => ((s.2.re - (dot (rowAt p s.1) m).re) * (a + b * ((s.1 - c.reftime : ℝ) : ℂ)).re : ℝ)).sum = 0 := by
      have := congrArg Complex.re k2
      rw [← Complex.coe_reAddGroupHom, map_list_sum, List.map_map, map_zero] at this
      rw [← this]
      congr 1
      refine List.map_congr_left fun s hs => ?_
      simp only [Function.comp, Complex.coe_reAddGroupHom]
      rw [Complex.mul_re, (him s hs).2]
      simp only [Complex.sub_re]
      ring
    have hre' := congrArg (fun x : ℝ => (x : ℂ)) hre
    rw [← Complex.ofRealHom_eq_coe, map_list_sum, List.map_map, Complex.ofReal_zero] at hre'
    have hx : ∀ s ∈ us, (s.2 - ((dot (rowAt p s.1) m).re : ℂ)) * (a + b * ((s.1 - c.reftime : ℝ) : ℂ)) =
        (((s.2.re - (dot (rowAt p s.1) m).re) * (a + b * ((s.1 - c.reftime : ℝ) : ℂ)).re : ℝ) : ℂ) := by
      intro s hs
      obtain ⟨i1, i2⟩ := him s hs
      have e1 : s.2 = (s.2.re : ℂ) := Complex.ext rfl (by simpa using i1)
      have e2 : a + b * ((s.1 - c.reftime : ℝ) : ℂ) = ((a + b * ((s.1 - c.reftime : ℝ) : ℂ)).re : ℂ) :=
        Complex.ext rfl (by simpa using i2)
      rw [Complex.ofReal_mul, ← e2]
      push_cast
      rw [← e1]
    have hy : ∀ s ∈ us, conj (s.2 - ((dot (rowAt p s.1) m).re : ℂ)) = s.2 - ((dot (rowAt p s.1) m).re : ℂ) := by
      intro s hs
      apply Complex.conj_eq_iff_im.2
      simp [(him s hs).1]
    constructor
    · rw [← hre']
      congr 1
      refine List.map_congr_left fun s hs => ?_
      simp only [Function.comp]
      rw [Complex.ofRealHom_eq_coe, ← hx s hs, if_neg (by simp), hy s hs]
    · rw [← hre']
      congr 1
      refine List.map_congr_left fun s hs => ?_
      simp only [Function.comp]
      rw [Complex.ofRealHom_eq_coe, ← hx s hs, if_neg (by simp)]

/-- What the intervals are computed from, for a record with an offset or a drift. -/
theorem confIn_drift (F : Facts E t u v lat opts c c.opt p tn constit m W rf full o ind)
    (F' : Facts E t u' v' lat opts c' c.opt p' tn constit' m' W' rf' full' o ind') (R : Ready E t u v) (R' : Ready E t u' v')
    (hv : v'.isSome = v.isSome)
    (hnd : opts.keys.Nodup) (hols : c.opt.method = .ols) (hk : AllKept c) (hex' : approxOf p.infer = false)
    (hsep : Separated c p.infer v.isSome (SampleTime tn u.data (v.map Series.data)))
    (a b : ℂ) (hb : c.opt.notrend = true → b = 0) (hinf : p'.infer = p.infer)
    (T : Twin (fun τ x => x + (a + b * ((τ - c.reftime : ℝ) : ℂ))) p p') :
    full'.ell = full.ell ∧ confidence E.num (confIn p' m' W') = confidence E.num (confIn p m W) := by
  obtain ⟨hx, hm⟩ := offset_coef F F' R R' hnd hols hk hex' hsep a b hb T
  obtain ⟨us, h1, h2, h3⟩ := T.x
  obtain ⟨o1, o2⟩ := drift_orthogonal F F' R R' hv hnd hols hk hex' a b hb us h1 h2 h3
  have hn : p.sel.name.Nodup := (F.perm_names R hnd hk).nodup_iff.1 hsep.names
  obtain ⟨P, M, mean, slope, hP, hM, -, hmc⟩ := F.exists_coef hn m F.mlen
  have hmc' : m' = nameCoef p.sel (!c.opt.notrend) P M (mean + a) ((slope + b) * (p.ed.lor : ℂ)) := by
    rw [hm, hmc, driftCoef, vadd_nameCoef, add_mul]
  have hal := F.prep.aligned
  have e1 : allAp p.sel m' = allAp p.sel m := by
    rw [hmc', hmc, nameCoef_allAp hal _ _ _ _ _ hP, nameCoef_allAp hal _ _ _ _ _ hP]
  have e2 : allAm p.sel m' = allAm p.sel m := by
    rw [hmc', hmc, nameCoef_allAm hal _ _ _ _ _ hM, nameCoef_allAm hal _ _ _ _ _ hM]
  have e3 : apOf p.sel m' = apOf p.sel m := by
    have b1 := nameCoef_blocks hal (!c.opt.notrend) P M (mean + a) ((slope + b) * (p.ed.lor : ℂ))
    have b2 := nameCoef_blocks hal (!c.opt.notrend) P M mean (slope * (p.ed.lor : ℂ))
    rw [hmc', hmc, b1.ap, b2.ap]
  have e4 : amOf p.sel m' = amOf p.sel m := by
    have b1 := nameCoef_blocks hal (!c.opt.notrend) P M (mean + a) ((slope + b) * (p.ed.lor : ℂ))
    have b2 := nameCoef_blocks hal (!c.opt.notrend) P M mean (slope * (p.ed.lor : ℂ))
    rw [hmc', hmc, b1.am, b2.am]
  refine ⟨?_, ?_⟩
  · rw [F.solved.ell, F'.solved.ell, F.prep.hopt, F'.prep.hopt, T.sel, e1, e2]
  set β : ℝ × ℂ → ℂ := fun s => a + b * ((s.1 - c.reftime : ℝ) : ℂ) with hβ
  set φ : ℝ × ℂ → ℂ := fun s => if p.opt.twodim then dot (rowAt p s.1) m else (((dot (rowAt p s.1) m).re : ℝ) : ℂ) with hφ
  have hB : p.B = us.map fun s => rowAt p s.1 := by rw [F.rows_at, h1, List.map_map]; rfl
  have hy : xmodOf p.opt.twodim p.B m = us.map φ := by
    unfold xmodOf
    rw [hB, List.map_map]
    rfl
  have hrow : ∀ s ∈ us, dot (rowAt p s.1) m' = dot (rowAt p s.1) m + β s := by
    intro s hs
    rw [hm, dot_vadd _ _ _ (by rw [F.mlen, F.drift_length]),
      F.drift_row R hnd hk hex' a b hb s.1 (by rw [h1]; exact List.mem_map_of_mem hs)]
  have hy' : xmodOf p.opt.twodim p.B m' = us.map fun s => φ s + β s := by
    unfold xmodOf
    rw [hB, List.map_map]
    refine List.map_congr_left fun s hs => ?_
    simp only [Function.comp, hφ, hrow s hs]
    by_cases htd : p.opt.twodim = true
    · simp [htd]
    · have hvn : v.isSome = false := by rw [← F.td hnd]; simpa using htd
      have i1 := F.xraw_im R hvn s.2 (by rw [h2]; exact List.mem_map_of_mem hs)
      have i2 := F'.xraw_im R' (hv.trans hvn) (s.2 + β s) (by rw [h3]; exact List.mem_map.2 ⟨s, hs, rfl⟩)
      rw [Complex.add_im, i1, zero_add] at i2
      have e : β s = ((β s).re : ℂ) := Complex.ext rfl (by simpa using i2)
      simp only [htd, Complex.add_re, Complex.ofReal_add]
      rw [← e]
      rfl
  have hW : W = List.replicate us.length 1 := by rw [F.ones hols, List.map_const', hB, List.length_map]
  have hW' : W' = W := by rw [F'.ones hols, F.ones hols, T.B]
  obtain ⟨d1, d2, d3⟩ := twin_times F F' R R' _ T
  have hI : confIn p' m' W' = { confIn p m W with ed := p'.ed, xraw := xraw p'.ed, xmod := xmodOf p.opt.twodim p.B m' } := by
    unfold confIn
    dsimp only
    rw [hW', T.sel, T.nm, T.B, hinf, F.prep.hopt, F'.prep.hopt, e1, e2, e3, e4]
    congr 1
    rw [← F.prep.hopt, hy, hy', h2, h3, hW]
    unfold weightedResidual
    rw [zipWith_map_same, zipWith_map_same]
    congr 1
    refine List.map_congr_left fun s _ => ?_
    simp only [hβ]
    ring
  have hsum : ∀ (f : ℂ → ℂ) (x y : List ℂ), (∀ a b, f a - f b = f (a - b)) → x.length = us.length → y.length = us.length →
      wdot (x.map f) W x - wdot (y.map f) W x =
        (List.zipWith (fun a b => f a * b) (List.zipWith (fun a b => a - b) x y) x).sum := by
    intro f x y hf l1 l2
    rw [hW, wdot_ones _ _ _ l1, wdot_ones _ _ _ l1, dot_map_sub f hf _ _ _ rfl (l2.trans l1.symm)]
  have hgen : ∀ f : ℂ → ℂ, (∀ a b, f a - f b = f (a - b)) → (us.map fun s => f (s.2 - φ s) * β s).sum = 0 →
      wdot ((us.map fun s => s.2 + β s).map f) W (us.map fun s => s.2 + β s) -
        wdot ((us.map fun s => φ s + β s).map f) W (us.map fun s => s.2 + β s) =
      wdot ((us.map Prod.snd).map f) W (us.map Prod.snd) - wdot ((us.map φ).map f) W (us.map Prod.snd) := by
    intro f hf h0
    rw [hsum f _ _ hf (by simp) (by simp), hsum f _ _ hf (by simp) (by simp)]
    simp only [zipWith_map_same, List.zipWith_map_left, List.zipWith_map_right, List.zipWith_self]
    conv_rhs => rw [← add_zero (List.map _ _).sum, ← h0, ← List.sum_map_add]
    congr 1
    refine List.map_congr_left fun s _ => ?_
    have : s.2 + β s - (φ s + β s) = s.2 - φ s := by ring
    rw [this]
    ring
  rw [hI]
  refine confidence_data _ _ _ _ _ T.t d1 d2 d3 ?_ ?_ ?_
  · show (xraw p'.ed).length = (xraw p.ed).length
    rw [h2, h3]; simp
  · show (wdot ((xraw p'.ed).map conj) W (xraw p'.ed) - wdot ((xmodOf p.opt.twodim p.B m').map conj) W (xraw p'.ed)).re =
      (wdot ((xraw p.ed).map conj) W (xraw p.ed) - wdot ((xmodOf p.opt.twodim p.B m).map conj) W (xraw p.ed)).re
    rw [h3, hy', h2, hy]
    exact congrArg Complex.re (hgen conj (fun a b => (map_sub _ _ _).symm) o1)
  · show wdot (xraw p'.ed) W (xraw p'.ed) - wdot (xmodOf p.opt.twodim p.B m') W (xraw p'.ed) =
      wdot (xraw p.ed) W (xraw p.ed) - wdot (xmodOf p.opt.twodim p.B m) W (xraw p.ed)
    rw [h3, hy', h2, hy]
    have := hgen id (fun a b => rfl) o2
    rwa [List.map_id, List.map_id, List.map_id, List.map_id] at this

end

/-! ## C85 -/

/-- C85: a constant offset, and a linear drift if a trend is fitted, change neither the ellipses nor their intervals,
signal-to-noise ratios and diagnostics, whatever the kind of interval, of noise and the order asked for. -/
theorem C85_drift (E : Env) (t : TimeArg) (u u' : Series) (v v' : Option Series) (lat : Option ℝ) (opts : Dict PyVal)
    (R : Ready E t u v) (R' : Ready E t u' v') (hv : v'.isSome = v.isSome) (hnd : opts.keys.Nodup)
    (hm : ∃ x, requested opts "method" = some x ∧ IsStr x "ols")
    (c c' : Coef) (h : solve E t u v lat opts = .ok c) (h' : solve E t u' v' lat opts = .ok c') (hk : AllKept c)
    (sp : Option InferSpec) (hi : readInfer c.opt.infer = .ok sp) (hex : ∀ s, sp = some s → s.approximate = false)
    (tn : List Fl) (htn : normalizeTime E.dt64 t.arr c.opt.epoch = .ok tn)
    (hsep : Separated c sp v.isSome (SampleTime tn u.data (v.map Series.data)))
    (a b : ℂ) (hb : c.opt.notrend = true → b = 0)
    (hu : Transformed (fun τ x => x + (a + b * ((τ - c.reftime : ℝ) : ℂ))) tn u v u' v') :
    c'.name = c.name ∧ c'.frq = c.frq ∧ c'.lind = c.lind ∧ c'.ell = c.ell ∧ c'.ci = c.ci ∧ c'.PE = c.PE ∧
      c'.SNR = c.SNR ∧ c'.diagn = c.diagn := by
  obtain ⟨p, constit, m, W, rf, full, o, ind, F, hols, rfl, hex'⟩ := run_facts R hnd hm h sp hi hex tn htn
  obtain ⟨opt', p', tn', constit', m', W', rf', full', o', ind', F'⟩ := solve_facts R' h'
  obtain ⟨rfl, rfl, rfl, hinf, T⟩ := twin' F F' R R' hv _ hu
  obtain ⟨hfe, hconf⟩ := confIn_drift F F' R R' hv hnd hols hk hex' hsep a b hb hinf T
  have hpe : pe full'.ell = pe full.ell := by rw [hfe]
  have hname : full'.name = full.name := by rw [F.solved.name, F'.solved.name, T.sel]
  have hfrq : full'.frq = full.frq := by rw [F.solved.frq, F'.solved.frq, T.sel]
  have hlind : full'.lind = full.lind := by rw [F.solved.lind, F'.solved.lind, T.sel]
  have hci : full'.ci = full.ci := by
    rcases F.solved.ci with ⟨h1, h2⟩ | ⟨h1, ci, h2, h3⟩
    · rcases F'.solved.ci with ⟨h1', h2'⟩ | ⟨h1', ci', h2', h3'⟩
      · rw [h2, h2']
      · rw [F.prep.hopt] at h1; rw [F'.prep.hopt, h1] at h1'; cases h1'
    · rcases F'.solved.ci with ⟨h1', h2'⟩ | ⟨h1', ci', h2', h3'⟩
      · rw [F.prep.hopt] at h1; rw [F'.prep.hopt, h1] at h1'; cases h1'
      · rw [hconf, h2] at h2'
        rw [h3, h3', Except.ok.inj h2']
  have hsn : full'.SNR = full.SNR ∧ full'.diagn = full.diagn := by
    rcases F.solved.SNR with ⟨h1, h2, h3⟩ | ⟨h1, s, h2, h3, h4⟩
    · rcases F'.solved.SNR with ⟨h1', h2', h3'⟩ | ⟨h1', s', h2', h3', h4'⟩
      · exact ⟨by rw [h2, h2'], by rw [h3, h3']⟩
      · rw [F.prep.hopt] at h1; rw [F'.prep.hopt, h1] at h1'; cases h1'
    · rcases F'.solved.SNR with ⟨h1', h2', h3'⟩ | ⟨h1', s', h2', h3', h4'⟩
      · rw [F.prep.hopt] at h1; rw [F'.prep.hopt, h1] at h1'; cases h1'
      · rw [hfe, hci, h2] at h2'
        cases Except.ok.inj h2'
        exact ⟨by rw [h3, h3'], by rw [h4, h4', hpe, hname]⟩
  have hind : ind' = ind := by
    by_cases ho : o' = .SNR
    · obtain ⟨a, ha, ha'⟩ := F.solved.indSNR ho
      obtain ⟨b, hb, hb'⟩ := F'.solved.indSNR ho
      rw [hsn.1, ha] at hb
      cases hb
      rw [ha', hb']
    · exact same_ind F.solved F'.solved rfl ho hname hfrq hpe
  subst hind
  have hPE : full'.PE = full.PE := by rw [F.solved.PE, F'.solved.PE, hpe, F.prep.hopt, F'.prep.hopt]
  rw [F.solved.result, F'.solved.result]
  refine ⟨?_, ?_, ?_, ?_, ?_, ?_, ?_, hsn.2⟩
  · show gather full'.name ind' = gather full.name ind'; rw [hname]
  · show gather full'.frq ind' = gather full.frq ind'; rw [hfrq]
  · show gather full'.lind ind' = gather full.lind ind'; rw [hlind]
  · show full'.ell.permute ind' = full.ell.permute ind'; rw [hfe]
  · show full'.ci.map _ = full.ci.map _; rw [hci]
  · show full'.PE.map _ = full.PE.map _; rw [hPE]
  · show full'.SNR.map _ = full.SNR.map _; rw [hsn.1]

/-- Non-vacuity: four samples of M2 that leave a residual, and the same on another datum. -/
example : ∃ c c' ci, solve idealEnv quadT (quadSeries 1 0 2 5) none (some 45) (ciOpts "linear" true) = .ok c ∧
    solve idealEnv quadT (quadSeries 4 3 5 8) none (some 45) (ciOpts "linear" true) = .ok c' ∧ c.name = ["M2"] ∧
    c.ci = some ci ∧ c'.ci = some ci ∧ c'.SNR = c.SNR := by
  obtain ⟨c, Q, hn⟩ := quad_ci 1 0 2 5 none (.inl rfl) true
  obtain ⟨c', Q', -⟩ := quad_ci 4 3 5 8 none (.inl rfl) true
  obtain ⟨-, -, -, -, h5, -, h7, -⟩ := C85_drift idealEnv quadT _ _ none none (some 45)
    (ciOpts "linear" true) (quad_ready 1 0 2 5 none (.inl rfl)) (quad_ready 4 3 5 8 none (.inl rfl)) rfl (by decide)
    ⟨.str "ols", rfl, .inl rfl⟩ c c' Q.returned Q'.returned Q.kept none (by rw [Q.opt]; rfl) (by simp) quadTn
    (by rw [Q.opt]; exact quad_times) Q.over.separated 3 0 (fun _ => rfl) (by
      intro i τ _
      rcases i with _ | _ | _ | _ | i <;> simp [sampleValues, quadSeries, Cell.value?, Fl.toReal?] <;> norm_num)
  obtain ⟨ci, hci⟩ := Option.ne_none_iff_exists'.1 hn
  exact ⟨c, c', ci, Q.returned, Q'.returned, Q.name, hci, h5.trans hci, h7⟩

/-- Currents with Monte-Carlo intervals. -/
example : ∃ c c' ci, solve idealEnv quadT (quadSeries 1 0 2 5) (some (quadSeries 0 1 1 0)) (some 45) (ciOpts "MC" true) = .ok c ∧
    solve idealEnv quadT (quadSeries 4 3 5 8) (some (quadSeries 2 3 3 2)) (some 45) (ciOpts "MC" true) = .ok c' ∧
    c.ci = some ci ∧ c'.ci = some ci := by
  have hv : ∀ x y z w : ℝ, some (quadSeries x y z w) = none ∨ ∃ a b c d, some (quadSeries x y z w) = some (quadSeries a b c d) :=
    fun x y z w => .inr ⟨_, _, _, _, rfl⟩
  obtain ⟨c, Q, hn⟩ := quad_ci 1 0 2 5 (some (quadSeries 0 1 1 0)) (hv _ _ _ _) false
  obtain ⟨c', Q', -⟩ := quad_ci 4 3 5 8 (some (quadSeries 2 3 3 2)) (hv _ _ _ _) false
  obtain ⟨-, -, -, -, h5, -, -, -⟩ := C85_drift idealEnv quadT _ _ (some (quadSeries 0 1 1 0)) (some (quadSeries 2 3 3 2)) (some 45)
    (ciOpts "MC" true) (quad_ready 1 0 2 5 _ (hv _ _ _ _)) (quad_ready 4 3 5 8 _ (hv _ _ _ _)) rfl (by decide)
    ⟨.str "ols", rfl, .inl rfl⟩ c c' Q.returned Q'.returned Q.kept none (by rw [Q.opt]; rfl) (by simp) quadTn
    (by rw [Q.opt]; exact quad_times) Q.over.separated (3 + 2 * Complex.I) 0 (fun _ => rfl) (by
      intro i τ _
      rcases i with _ | _ | _ | _ | i <;> simp [sampleValues, quadSeries, Cell.value?, Fl.toReal?] <;>
        apply Complex.ext <;> norm_num)
  obtain ⟨ci, hci⟩ := Option.ne_none_iff_exists'.1 hn
  exact ⟨c, c', ci, Q.returned, Q'.returned, hci, h5.trans hci⟩

end

end UTide.Props
