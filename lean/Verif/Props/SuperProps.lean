import Verif.Props.AxesProps
import Verif.Lemmas.LstsqAdd

/-!
# The analysis as a linear projection: C76, C77, C78
-/

namespace UTide.Props

noncomputable section

open Classical

local notation "conj" => starRingEnd ℂ

/-! ## Specification -/

/-- `u''`, `v''` is the sum of `u`, `v` and `u'`, `v'`; the three series have the same gaps. -/
def Superposed (tn : List Fl) (u : Series) (v : Option Series) (u' : Series) (v' : Option Series) (u'' : Series)
    (v'' : Option Series) : Prop :=
  ∀ (i : ℕ) (τ : ℝ), tn[i]? = some (.fin τ) →
    ((sampleValues u.data (v.map Series.data))[i]? = some none ∧
      (sampleValues u'.data (v'.map Series.data))[i]? = some none ∧
      (sampleValues u''.data (v''.map Series.data))[i]? = some none) ∨
    ∃ x y, (sampleValues u.data (v.map Series.data))[i]? = some (some x) ∧
      (sampleValues u'.data (v'.map Series.data))[i]? = some (some y) ∧
      (sampleValues u''.data (v''.map Series.data))[i]? = some (some (x + y))

/-- Sum of two means and slopes. -/
def addMean : MeanSlope → MeanSlope → MeanSlope
  | .one m s, .one m' s' => .one (m + m') (s.bind fun x => s'.map fun y => x + y)
  | .two a b s, .two a' b' s' =>
    .two (a + a') (b + b') (s.bind fun x => s'.map fun y => (x.1 + y.1, x.2 + y.2))
  | m, _ => m

/-- Sum of `g τ x z` over the indices with a finite time `τ`, a sample `x` and a value `z` of the curve. -/
def sampleSum {α : Type} [AddCommMonoid α] (tn : List Fl) (xs r : List (Option ℂ)) (g : ℝ → ℂ → ℂ → α) : α :=
  (List.zipWith (fun (p : Fl × Option ℂ) (z : Option ℂ) => match p.1, p.2, z with
    | .fin τ, some x, some z => g τ x z
    | _, _, _ => 0) (tn.zip xs) r).sum

/-! ## Lemmas -/

theorem sampleSum_samples {α : Type} [AddCommMonoid α] (tn : List Fl) (xs : List (Option ℂ))
    (f : ℝ → ℂ) (g : ℝ → ℂ → ℂ → α) :
    sampleSum tn xs (tn.map fun x => x.toReal?.map f) g =
      ((samples tn xs).map fun s => g s.1 s.2 (f s.1)).sum := by
  unfold sampleSum samples
  induction tn generalizing xs with
  | nil => simp
  | cons t tn ih =>
    cases xs with
    | nil => simp
    | cons x xs =>
      simp only [List.zip_cons_cons, List.map_cons, List.zipWith_cons_cons, List.sum_cons, List.filterMap_cons]
      rw [ih xs]
      cases t with
      | fin τ => cases x <;> simp [Fl.toReal?]
      | nan => simp [Fl.toReal?]
      | pinf => simp [Fl.toReal?]
      | ninf => simp [Fl.toReal?]

theorem samples_superposed (tn : List Fl) (xs ys zs : List (Option ℂ)) (hx : tn.length = xs.length)
    (hy : tn.length = ys.length) (hz : tn.length = zs.length)
    (h : ∀ (i : ℕ) (τ : ℝ), tn[i]? = some (.fin τ) → (xs[i]? = some none ∧ ys[i]? = some none ∧ zs[i]? = some none) ∨
      ∃ x y, xs[i]? = some (some x) ∧ ys[i]? = some (some y) ∧ zs[i]? = some (some (x + y))) :
    ∃ l : List (ℝ × ℂ × ℂ), samples tn xs = l.map (fun s => (s.1, s.2.1)) ∧
      samples tn ys = l.map (fun s => (s.1, s.2.2)) ∧ samples tn zs = l.map fun s => (s.1, s.2.1 + s.2.2) := by
  unfold samples
  induction tn generalizing xs ys zs with
  | nil => exact ⟨[], by simp⟩
  | cons t tn ih =>
    cases xs with
    | nil => simp at hx
    | cons x xs =>
      cases ys with
      | nil => simp at hy
      | cons y ys =>
        cases zs with
        | nil => simp at hz
        | cons z zs =>
          obtain ⟨l, h1, h2, h3⟩ := ih xs ys zs (by simpa using hx) (by simpa using hy) (by simpa using hz)
            (fun i τ hi => by simpa using h (i + 1) τ (by simpa using hi))
          simp only [List.zip_cons_cons, List.filterMap_cons]
          cases t with
          | fin τ =>
            rcases h 0 τ rfl with ⟨h4, h5, h6⟩ | ⟨a, b, h4, h5, h6⟩
            · simp only [List.getElem?_cons_zero, Option.some.injEq] at h4 h5 h6
              subst h4 h5 h6
              exact ⟨l, by simpa [Fl.toReal?] using h1, by simpa [Fl.toReal?] using h2, by simpa [Fl.toReal?] using h3⟩
            · simp only [List.getElem?_cons_zero, Option.some.injEq] at h4 h5 h6
              subst h4 h5 h6
              exact ⟨(τ, a, b) :: l, by simpa [Fl.toReal?] using h1, by simpa [Fl.toReal?] using h2,
                by simpa [Fl.toReal?] using h3⟩
          | nan => exact ⟨l, by simpa [Fl.toReal?] using h1, by simpa [Fl.toReal?] using h2, by simpa [Fl.toReal?] using h3⟩
          | pinf => exact ⟨l, by simpa [Fl.toReal?] using h1, by simpa [Fl.toReal?] using h2, by simpa [Fl.toReal?] using h3⟩
          | ninf => exact ⟨l, by simpa [Fl.toReal?] using h1, by simpa [Fl.toReal?] using h2, by simpa [Fl.toReal?] using h3⟩

theorem vadd_nameCoef2 (sel : Sel) (trend : Bool) (P M P' M' : String → ℂ) (mean slope a b : ℂ) :
    vadd (nameCoef sel trend P M mean slope) (nameCoef sel trend P' M' a b) =
      nameCoef sel trend (fun n => P n + P' n) (fun n => M n + M' n) (mean + a) (slope + b) := by
  unfold vadd nameCoef
  rw [zipWith_append' _ _ _ _ _ (by simp), zipWith_append' _ _ _ _ _ (by simp),
    zipWith_append' _ _ _ _ _ (by simp), zipWith_append' _ _ _ _ _ (by simp),
    zipWith_append' _ _ _ _ _ (by simp)]
  simp only [zipWith_map_same]
  cases trend <;> simp

theorem ccw_ell1 (a b : ℂ) : ccw (ell1 a b) = (a + conj b) / 2 := by
  rw [ell1_eq]
  unfold ccw
  dsimp only
  obtain ⟨j, hj⟩ := pymod_eq_sub (-angleDeg (a + conj b)) 360
  have h : cisd (0 - pymod (-angleDeg (a + conj b)) 360) = cisd (angleDeg (a + conj b)) :=
    (cisd_eq_iff _ _).2 ⟨j, by rw [hj]; ring⟩
  rw [h, add_zero]
  conv_rhs => rw [← norm_mul_cisd_angle (a + conj b)]
  push_cast
  ring

theorem cw_ell1 (a b : ℂ) : cw (ell1 a b) = conj ((a + conj b) / 2) := by
  rw [← ccw_ell1, ell1_eq]
  unfold ccw cw
  dsimp only
  rw [map_mul, Complex.conj_ofReal, conj_cisd, zero_add, zero_sub, neg_neg, sub_zero, add_zero]

section
variable {E : Env} {t : TimeArg} {u : Series} {v : Option Series} {lat : Option ℝ} {opts : Dict PyVal}
  {c : Coef} {opt : Opt} {p : Prep} {tn : List Fl} {constit : Constit} {m : List ℂ} {W : List ℝ}
  {rf : Option RobOut} {full : Coef} {o : Order} {ind : List ℕ}
  {u' : Series} {v' : Option Series}
  {c' : Coef} {opt' : Opt} {p' : Prep} {tn' : List Fl} {constit' : Constit} {m' : List ℂ} {W' : List ℝ}
  {rf' : Option RobOut} {full' : Coef} {o' : Order} {ind' : List ℕ}

/-- Two runs with the same options on the same usable times. -/
structure SameGrid (p p' : Prep) : Prop where
  t : p'.ed.t = p.ed.t
  tref : p'.ed.tref = p.ed.tref
  lor : p'.ed.lor = p.ed.lor
  lat : p'.lat = p.lat
  sel : p'.sel = p.sel
  nm : p'.nm = p.nm
  B : p'.B = p.B

theorem same_tn (F : Facts E t u v lat opts c opt p tn constit m W rf full o ind)
    (F' : Facts E t u' v' lat opts c' opt' p' tn' constit' m' W' rf' full' o' ind') (hv : v'.isSome = v.isSome) :
    opt' = opt ∧ o' = o ∧ tn' = tn ∧ p'.infer = p.infer := by
  have h1 : opt' = opt := by
    have := F'.hopt
    rw [hv, F.hopt] at this
    exact (Except.ok.inj this).symm
  subst h1
  refine ⟨rfl, ?_, Except.ok.inj (F'.prep.init.time.symm.trans F.prep.init.time),
    Except.ok.inj (F'.prep.hinfer.symm.trans F.prep.hinfer)⟩
  have := F'.solved.order
  rw [F'.prep.hopt, ← F.prep.hopt, F.solved.order] at this
  exact (Except.ok.inj this).symm

theorem sameGrid (F : Facts E t u v lat opts c opt p tn constit m W rf full o ind)
    (F' : Facts E t u' v' lat opts c' opt p' tn constit' m' W' rf' full' o' ind')
    (R : Ready E t u v) (R' : Ready E t u' v') (hinf : p'.infer = p.infer)
    (hus : (usable tn u'.data (v'.map Series.data)).map Prod.fst = (usable tn u.data (v.map Series.data)).map Prod.fst) :
    SameGrid p p' := by
  obtain ⟨l1, a2, a3⟩ := F.samples R
  obtain ⟨l2, b2, b3⟩ := F'.samples R'
  have ht : p'.ed.t = p.ed.t := by rw [b2, a2, hus]
  obtain ⟨-, -, -, -, a5⟩ := editData_usable _ _ _ l1 _ F.prep.init.edit
  obtain ⟨-, -, -, -, b5⟩ := editData_usable _ _ _ l2 _ F'.prep.init.edit
  rw [← a2] at a5
  rw [← b2, ht, a5] at b5
  have h6 := Except.ok.inj b5
  have h7 : p'.ed.tref = p.ed.tref := (congrArg Prod.fst h6).symm
  have h8 : p'.ed.lor = p.ed.lor := (congrArg (fun x => x.2.1) h6).symm
  have h9 : p'.lat = p.lat := Option.some.inj (F'.prep.init.hlat.symm.trans F.prep.init.hlat)
  have h10 : constit' = constit := Except.ok.inj (F'.prep.cons.symm.trans F.prep.cons)
  have h11 : p'.sel = p.sel := by
    have := F'.prep.hsel
    rw [hinf, h7, h8, h10, F.prep.hsel] at this
    exact (Except.ok.inj this).symm
  refine ⟨ht, h7, h8, h9, h11, ?_, ?_⟩
  · rw [F.prep.nm, F'.prep.nm, h11]
  · rw [F.prep.B, F'.prep.B, ht, h7, h8, h9, h11, hinf]

/-- The model matrix, row by row. -/
theorem Facts.rows (F : Facts E t u v lat opts c opt p tn constit m W rf full o ind) :
    p.B = p.ed.t.map (rowAt p) := by
  rw [F.prep.B]
  unfold rowAt
  rw [F.prep.hopt]

/-- Scalar series: the fitted curve is real. -/
theorem Facts.real (F : Facts E t u none lat opts c opt p tn constit m W rf full o ind) (R : Ready E t u none)
    (hnd : opts.keys.Nodup) (hols : opt.method = .ols) (τ : ℝ) : (dot (rowAt p τ) m).im = 0 := by
  have hlens := fun s hs => F.inferLengths hnd s hs
  simp only [Option.isSome_none, Bool.false_eq_true, if_false] at hlens
  have hconj : p.sel.Conj := sel_conj F.prep.hsel fun s hs => (hlens s hs).2.1.le
  obtain ⟨l1, l2, l3⟩ := F.samples R
  have hreal : ∀ z ∈ xraw p.ed, conj z = z := by
    intro z hz
    rw [l3] at hz
    obtain ⟨s, hs, rfl⟩ := List.mem_map.1 hz
    rw [usable_samples _ _ _ l1, mem_samples] at hs
    obtain ⟨i, -, hs⟩ := hs
    simp only [Option.map_none, sampleValues, List.getElem?_map] at hs
    cases hu : u.data[i]? with
    | none => rw [hu] at hs; simp at hs
    | some y =>
      rw [hu] at hs
      simp only [Option.map_some, Option.some.injEq, Option.map_eq_some_iff] at hs
      obtain ⟨y', -, hy⟩ := hs
      rw [← hy, Complex.conj_ofReal]
  have a1 := F.minNorm R hols
  obtain ⟨ba, bb, bc, bd, be, bf, hbl⟩ := exists_blocks p.sel (!opt.notrend) m (by rw [F.mlen, F.prep.nm])
  rw [F.prep.nm, F.prep.B] at a1
  obtain ⟨m1, m2, m3, m4⟩ := mirror_unique F.prep.aligned hconj _ _ _ _ _ _ _ _ hreal (by
    rw [l2, l3]; simp) m a1 _ _ _ _ _ _ hbl
  have hmir := row_mirror F.prep.aligned hconj opt.flags p.ed.tref p.lat p.ed.lor (!opt.notrend) (approxOf p.infer) τ
    ba bb bc bd be bf hbl.a hbl.b hbl.c hbl.d
  have hcc : ∀ l : List ℂ, (l.map conj).map conj = l := by intro l; simp [Function.comp_def]
  rw [m1, m2, m3, m4, hcc, hcc] at hmir
  unfold rowAt
  rw [F.prep.hopt, hbl.eq, m1, m2]
  exact Complex.conj_eq_iff_im.1 hmir.symm

/-- The reconstruction at a sample time is the fitted curve. -/
theorem Facts.curve_eq (F : Facts E t u v lat opts c opt p tn constit m W rf full o ind) (R : Ready E t u v)
    (hnd : opts.keys.Nodup) (hols : opt.method = .ols) (hex : approxOf p.infer = false) (τ : ℝ) (hτ : τ ∈ p.ed.t) :
    curve full (List.range p.sel.lind.length) τ = dot (rowAt p τ) m := by
  rw [F.curve_full hnd hex τ hτ]
  cases v with
  | some w => rfl
  | none =>
    simp only [Option.isSome_none, Bool.false_eq_true, if_false]
    have := F.real R hnd hols τ
    apply Complex.ext <;> simp [this]

end

/-! ## C76 -/

/-- The analysis of a sum is the sum of the analyses: rotating components, mean and slope. -/
theorem C76_superposition (E : Env) (t : TimeArg) (u u' u'' : Series) (v v' v'' : Option Series) (lat : Option ℝ)
    (opts : Dict PyVal) (R : Ready E t u v) (R' : Ready E t u' v') (R'' : Ready E t u'' v'')
    (hv : v'.isSome = v.isSome) (hv' : v''.isSome = v.isSome) (hnd : opts.keys.Nodup)
    (hm : ∃ x, requested opts "method" = some x ∧ IsStr x "ols")
    (c c' c'' : Coef) (h : solve E t u v lat opts = .ok c) (h' : solve E t u' v' lat opts = .ok c')
    (h'' : solve E t u'' v'' lat opts = .ok c'') (hkept : AllKept c) (hn : c.name.Nodup)
    (tn : List Fl) (htn : normalizeTime E.dt64 t.arr c.opt.epoch = .ok tn)
    (hs : Superposed tn u v u' v' u'' v'') :
    c'.name.Perm c.name ∧ c''.name.Perm c.name ∧ c''.mean = addMean c.mean c'.mean ∧
    ∀ i j k n, c.name[i]? = some n → c'.name[j]? = some n → c''.name[k]? = some n → ∃ e e' e'',
      ellipseAt c.ell i = some e ∧ ellipseAt c'.ell j = some e' ∧ ellipseAt c''.ell k = some e'' ∧
      ccw e'' = ccw e + ccw e' ∧ cw e'' = cw e + cw e' := by
  obtain ⟨opt, p, tn0, constit, m, W, rf, full, o, ind, F⟩ := solve_facts R h
  obtain ⟨opt', p', tn', constit', m', W', rf', full', o', ind', F'⟩ := solve_facts R' h'
  obtain ⟨opt'', p'', tn'', constit'', m'', W'', rf'', full'', o'', ind'', F''⟩ := solve_facts R'' h''
  have hc := F.copt
  subst hc
  cases Except.ok.inj (F.prep.init.time.symm.trans htn)
  obtain ⟨rfl, rfl, rfl, hinf⟩ := same_tn F F' hv
  obtain ⟨rfl, rfl, rfl, hinf'⟩ := same_tn F F'' hv'
  have hq := getOpt_requests _ hnd _ _ F.hopt
  have hols : c.opt.method = .ols := by
    obtain ⟨x, hx, hs⟩ := hm
    exact hq.ols x hx ((eqStr_iff _ _).2 hs)
  obtain ⟨l1, a2, a3⟩ := F.samples R
  obtain ⟨l2, b2, b3⟩ := F'.samples R'
  obtain ⟨l3, d2, d3⟩ := F''.samples R''
  obtain ⟨l, s1, s2, s3⟩ := samples_superposed _ _ _ _ (sampleValues_length _ _ _ l1) (sampleValues_length _ _ _ l2)
    (sampleValues_length _ _ _ l3) hs
  rw [← usable_samples _ _ _ l1] at s1
  rw [← usable_samples _ _ _ l2] at s2
  rw [← usable_samples _ _ _ l3] at s3
  have G := sameGrid F F' R R' hinf (by rw [s1, s2, List.map_map, List.map_map]; rfl)
  have G' := sameGrid F F'' R R'' hinf' (by rw [s1, s3, List.map_map, List.map_map]; rfl)
  have hx : xraw p''.ed = vadd (xraw p.ed) (xraw p'.ed) := by
    rw [a3, b3, d3, s1, s2, s3, List.map_map, List.map_map, List.map_map]
    unfold vadd
    rw [zipWith_map_same]
    rfl
  have a1 := F.minNorm R hols
  have b1 := F'.minNorm R' hols
  have d1 := F''.minNorm R'' hols
  have hh := F.prep.height R.ht R.hu R.hv
  have hh' := F'.prep.height R'.ht R'.hu R'.hv
  rw [G.B] at hh'
  rw [G.nm, G.B] at b1
  rw [G'.nm, G'.B, hx] at d1
  have hmm : m'' = vadd m m' :=
    IsMinNormSol.unique (by simp [hh, ← hh']) d1 (a1.add hh hh' b1)
  have hn' : p.sel.name.Nodup := (F.perm_names R hnd hkept).nodup_iff.1 hn
  obtain ⟨P, M, mean, slope, hP, hM, -, hmc⟩ := F.exists_coef hn' m F.mlen
  obtain ⟨P', M', mean', slope', hP', hM', -, hmc'⟩ := F'.exists_coef (by rw [G.sel]; exact hn') m' F'.mlen
  obtain ⟨r1, r2⟩ := F.read hnd P M mean slope hP hM hmc
  obtain ⟨r1', r2'⟩ := F'.read hnd P' M' mean' slope' hP' hM' hmc'
  rw [G.sel] at hP' hM' hmc'
  have hP'' : TiedBy p''.sel InfCon.Rp fun n => P n + P' n := by
    rw [G'.sel]; intro r hr q hq; dsimp only; rw [hP r hr q hq, hP' r hr q hq]; ring
  have hM'' : TiedBy p''.sel InfCon.Rm fun n => M n + M' n := by
    rw [G'.sel]; intro r hr q hq; dsimp only; rw [hM r hr q hq, hM' r hr q hq]; ring
  obtain ⟨r1'', r2''⟩ := F''.read hnd _ _ (mean + mean') (slope + slope') hP'' hM'' (by
    rw [hmm, hmc, hmc', G.lor, vadd_nameCoef2, G'.sel, G'.lor, add_mul])
  rw [hv] at r1' r2'
  rw [hv'] at r1'' r2''
  refine ⟨same_names F F' R R' hnd G.sel hkept rfl, same_names F F'' R R'' hnd G'.sel hkept rfl, ?_, ?_⟩
  · rw [r2, r2', r2'']
    unfold meanRec
    cases v.isSome <;> cases c.opt.notrend <;> simp [addMean]
  · intro i j k n hi hj hk
    refine ⟨_, _, _, by rw [r1, ellipseAt_map, hi]; rfl, by rw [r1', ellipseAt_map, hj]; rfl,
      by rw [r1'', ellipseAt_map, hk]; rfl, ?_⟩
    cases v.isSome with
    | true =>
      simp only [if_true]
      rw [ccw_ell2, ccw_ell2, ccw_ell2, cw_ell2, cw_ell2, cw_ell2]
      exact ⟨rfl, rfl⟩
    | false =>
      simp only [Bool.false_eq_true, if_false]
      rw [ccw_ell1, ccw_ell1, ccw_ell1, cw_ell1, cw_ell1, cw_ell1]
      simp only [map_add, map_div₀, Complex.conj_conj]
      constructor <;> ring

/-- The same for a scalar series in the usual terms: `A cos g` and `A sin g` add. -/
theorem C76_scalar (E : Env) (t : TimeArg) (u u' u'' : Series) (lat : Option ℝ)
    (opts : Dict PyVal) (R : Ready E t u none) (R' : Ready E t u' none) (R'' : Ready E t u'' none)
    (hnd : opts.keys.Nodup) (hm : ∃ x, requested opts "method" = some x ∧ IsStr x "ols")
    (c c' c'' : Coef) (h : solve E t u none lat opts = .ok c) (h' : solve E t u' none lat opts = .ok c')
    (h'' : solve E t u'' none lat opts = .ok c'') (hkept : AllKept c) (hn : c.name.Nodup)
    (tn : List Fl) (htn : normalizeTime E.dt64 t.arr c.opt.epoch = .ok tn)
    (hs : Superposed tn u none u' none u'' none) (i j k : ℕ) (n : String) (hi : c.name[i]? = some n)
    (hj : c'.name[j]? = some n) (hk : c''.name[k]? = some n) :
    ∃ e e' e'', ellipseAt c.ell i = some e ∧ ellipseAt c'.ell j = some e' ∧ ellipseAt c''.ell k = some e'' ∧
      e''.Lsmaj * Real.cos (e''.g * (Real.pi / 180)) =
        e.Lsmaj * Real.cos (e.g * (Real.pi / 180)) + e'.Lsmaj * Real.cos (e'.g * (Real.pi / 180)) ∧
      e''.Lsmaj * Real.sin (e''.g * (Real.pi / 180)) =
        e.Lsmaj * Real.sin (e.g * (Real.pi / 180)) + e'.Lsmaj * Real.sin (e'.g * (Real.pi / 180)) := by
  obtain ⟨-, -, -, hall⟩ := C76_superposition E t u u' u'' none none none lat opts R R' R'' rfl rfl hnd hm c c' c'' h h'
    h'' hkept hn tn htn hs
  obtain ⟨e, e', e'', h1, h2, h3, -, h5⟩ := hall i j k n hi hj hk
  refine ⟨e, e', e'', h1, h2, h3, ?_⟩
  have key : ∀ (u : Series) (c : Coef) (i : ℕ) (e : Ell), Ready E t u none → solve E t u none lat opts = .ok c →
      ellipseAt c.ell i = some e → e.Lsmin = 0 ∧ e.theta = 0 := by
    intro u c i e R h he
    obtain ⟨opt, p, tn0, constit, m, W, rf, full, o, ind, F⟩ := solve_facts R h
    rw [F.ellipse hnd] at he
    simp only [Option.isSome_none, Bool.false_eq_true, if_false, Option.bind_eq_some_iff, Option.map_eq_some_iff] at he
    obtain ⟨_, -, a, -, b, -, rfl⟩ := he
    rw [ell1_eq]
    exact ⟨rfl, rfl⟩
  obtain ⟨k1, k2⟩ := key u c i e R h h1
  obtain ⟨k3, k4⟩ := key u' c' j e' R' h' h2
  obtain ⟨k5, k6⟩ := key u'' c'' k e'' R'' h'' h3
  have hcw : ∀ e : Ell, e.Lsmin = 0 → e.theta = 0 → cw e =
      ⟨e.Lsmaj / 2 * Real.cos (e.g * (Real.pi / 180)), e.Lsmaj / 2 * Real.sin (e.g * (Real.pi / 180))⟩ := by
    intro e h1 h2
    unfold cw cisd
    rw [h1, h2, zero_add, sub_zero, show Complex.I * (e.g : ℂ) * ((Real.pi / 180 : ℝ) : ℂ) =
      ((e.g * (Real.pi / 180) : ℝ) : ℂ) * Complex.I by push_cast; ring, Complex.exp_mul_I, ← Complex.ofReal_cos,
      ← Complex.ofReal_sin]
    apply Complex.ext
    · rw [Complex.re_ofReal_mul, Complex.add_re, Complex.re_ofReal_mul, Complex.ofReal_re]; simp
    · rw [Complex.im_ofReal_mul, Complex.add_im, Complex.im_ofReal_mul, Complex.ofReal_im]; simp
  rw [hcw e k1 k2, hcw e' k3 k4, hcw e'' k5 k6] at h5
  obtain ⟨h6, h7⟩ := Complex.ext_iff.1 h5
  simp only [Complex.add_re, Complex.add_im] at h6 h7
  constructor <;> linarith

/-! ## C77 -/

section
variable {E : Env} {t : TimeArg} {u : Series} {v : Option Series} {lat : Option ℝ} {opts : Dict PyVal}
  {c : Coef} {opt : Opt} {p : Prep} {tn : List Fl} {constit : Constit} {m : List ℂ} {W : List ℝ}
  {rf : Option RobOut} {full : Coef} {o : Order} {ind : List ℕ}

/-- The values of `reconstruct` at the sample times. -/
theorem Facts.reconstructed (F : Facts E t u v lat opts c opt p tn constit m W rf full o ind) (R : Ready E t u v)
    (hnd : opts.keys.Nodup) (hk : AllKept c) (a : RecArgs) (hae : a.epoch = c.opt.epoch) (hall : RecArgs.Everything a)
    (r : List (Option ℂ)) (hr : reconstruct E t.arr c a = .ok r) :
    r = tn.map fun x => x.toReal?.map (curve full (List.range p.sel.lind.length)) := by
  rw [F.reconstruct_all R hnd hk a hall, hae, F.copt, F.prep.init.time] at hr
  exact (Except.ok.inj hr).symm

/-- A series defined from the samples and the reconstruction. -/
theorem transformed_by (F : Facts E t u v lat opts c opt p tn constit m W rf full o ind) {u' : Series}
    {v' : Option Series} (f : ℂ → ℂ → ℂ) (r : List (Option ℂ))
    (hr : r = tn.map fun x => x.toReal?.map (curve full (List.range p.sel.lind.length)))
    (hu : ∀ (i : ℕ) (τ : ℝ) (z : ℂ), tn[i]? = some (.fin τ) → r[i]? = some (some z) →
      (sampleValues u'.data (v'.map Series.data))[i]? =
        (sampleValues u.data (v.map Series.data))[i]?.map (Option.map fun x => f x z)) :
    Transformed (fun τ x => f x (curve full (List.range p.sel.lind.length) τ)) tn u v u' v' := by
  intro i τ hi
  refine hu i τ _ hi ?_
  rw [hr, List.getElem?_map, hi]
  rfl

end

/-- Analysing what the fitted curve leaves over (`u` minus the reconstruction of everything at the same times) finds
nothing: all amplitudes, the mean and the slope are zero. -/
theorem C77_detided (E : Env) (t : TimeArg) (u u' : Series) (v v' : Option Series) (lat : Option ℝ) (opts : Dict PyVal)
    (R : Ready E t u v) (R' : Ready E t u' v') (hv : v'.isSome = v.isSome) (hnd : opts.keys.Nodup)
    (hm : ∃ x, requested opts "method" = some x ∧ IsStr x "ols")
    (c c' : Coef) (h : solve E t u v lat opts = .ok c) (h' : solve E t u' v' lat opts = .ok c') (hk : AllKept c)
    (sp : Option InferSpec) (hi : readInfer c.opt.infer = .ok sp) (hex : ∀ s, sp = some s → s.approximate = false)
    (tn : List Fl) (htn : normalizeTime E.dt64 t.arr c.opt.epoch = .ok tn)
    (a : RecArgs) (hae : a.epoch = c.opt.epoch) (hall : RecArgs.Everything a) (r : List (Option ℂ))
    (hr : reconstruct E t.arr c a = .ok r)
    (hu : ∀ (i : ℕ) (τ : ℝ) (z : ℂ), tn[i]? = some (.fin τ) → r[i]? = some (some z) →
      (sampleValues u'.data (v'.map Series.data))[i]? =
        (sampleValues u.data (v.map Series.data))[i]?.map (Option.map fun x => x - z)) :
    c'.name.Perm c.name ∧ c'.mean = meanRec v.isSome c.opt.notrend 0 0 ∧
    ∀ (i : ℕ) (n : String), c'.name[i]? = some n → ∃ e, ellipseAt c'.ell i = some e ∧ e.Lsmaj = 0 ∧ e.Lsmin = 0 := by
  obtain ⟨p, constit, m, W, rf, full, o, ind, F, hols, rfl, hex'⟩ := run_facts R hnd hm h sp hi hex tn htn
  obtain ⟨opt', p', tn', constit', m', W', rf', full', o', ind', F'⟩ := solve_facts R' h'
  have hr' := F.reconstructed R hnd hk a hae hall r hr
  obtain ⟨rfl, rfl, rfl, hinf, T⟩ := twin' F F' R R' hv _ (transformed_by F (fun x z => x - z) r hr' hu)
  have hh := F.prep.height R.ht R.hu R.hv
  obtain ⟨us, h1, h2, h3⟩ := T.x
  have hx : xraw p'.ed = List.zipWith (fun y r => y - dot r m) (xraw p.ed) p.B := by
    rw [F.rows, h3, h2, h1, List.map_map, zipWith_map_same]
    refine List.map_congr_left fun s hs => ?_
    rw [F.curve_eq R hnd hols hex' s.1 (by rw [h1]; exact List.mem_map_of_mem hs)]
    rfl
  have a1 := F.minNorm R hols
  have a2 := F'.minNorm R' hols
  rw [T.nm, T.B, hx] at a2
  have hmm : m' = vscale ((0 : ℝ) : ℂ) m := by
    rw [IsMinNormSol.unique (by simp [hh]) a2 (a1.residual hh)]
    apply List.ext_getElem
    · simp [F.mlen]
    · intro i k1 k2
      simp [vscale]
  have hq := getOpt_requests _ hnd _ _ F.hopt
  have htd : p.opt.twodim = v.isSome := by rw [F.prep.hopt]; exact hq.twodim
  have hpo : p'.opt = p.opt := by rw [F'.prep.hopt, F.prep.hopt]
  refine ⟨same_names F F' R R' hnd T.sel hk rfl, ?_, ?_⟩
  · have f1 : c'.mean = full'.mean := by rw [F'.solved.result]; rfl
    have g1 : full'.mean = UTide.meanOf p'.opt.twodim p'.opt.notrend p'.ed.lor p'.nm m' := F'.solved.head.mean
    rw [f1, g1, hmm, meanOf_scale, hpo, htd, F.prep.hopt]
    unfold UTide.meanOf meanRec
    cases v.isSome <;> cases c.opt.notrend <;> simp [scaleMean]
  · intro i n hn
    have hmlen : m'.length = numCols (!c.opt.notrend) p'.sel := by rw [F'.mlen, F'.prep.nm]
    obtain ⟨q1, q2⟩ := allAp_length F'.prep.aligned (!c.opt.notrend) m' hmlen
    rw [F'.cname, gather_getElem? _ _ (by
      intro j hj
      have := F'.lt j hj
      rwa [← F'.len.name, F'.solved.name] at this)] at hn
    obtain ⟨j, hj, hn⟩ := Option.bind_eq_some_iff.1 hn
    have hlt := F'.lt j (List.mem_of_getElem? hj)
    rw [F'.ellipse hnd, hj]
    simp only [Option.bind_some]
    have e1 : (allAp p'.sel m')[j]? = some 0 := by
      rw [hmm, allAp_vscale] at q1 ⊢
      rw [List.getElem?_eq_getElem (by rw [q1]; exact hlt)]
      simp [vscale]
    have e2 : (allAm p'.sel m')[j]? = some 0 := by
      rw [hmm, allAm_vscale] at q2 ⊢
      rw [List.getElem?_eq_getElem (by rw [q2]; exact hlt)]
      simp [vscale]
    rw [e1, e2]
    refine ⟨_, rfl, ?_⟩
    cases v'.isSome with
    | true => simp [ell2_eq]
    | false => simp [ell1_eq]

/-- Analysing the fitted curve itself gives the same coefficients again. -/
theorem C77_idempotent (E : Env) (t : TimeArg) (u u' : Series) (v v' : Option Series) (lat : Option ℝ) (opts : Dict PyVal)
    (R : Ready E t u v) (R' : Ready E t u' v') (hv : v'.isSome = v.isSome) (hnd : opts.keys.Nodup)
    (hm : ∃ x, requested opts "method" = some x ∧ IsStr x "ols")
    (c c' : Coef) (h : solve E t u v lat opts = .ok c) (h' : solve E t u' v' lat opts = .ok c') (hk : AllKept c)
    (sp : Option InferSpec) (hi : readInfer c.opt.infer = .ok sp) (hex : ∀ s, sp = some s → s.approximate = false)
    (tn : List Fl) (htn : normalizeTime E.dt64 t.arr c.opt.epoch = .ok tn)
    (a : RecArgs) (hae : a.epoch = c.opt.epoch) (hall : RecArgs.Everything a) (r : List (Option ℂ))
    (hr : reconstruct E t.arr c a = .ok r)
    (hu : ∀ (i : ℕ) (τ : ℝ) (z : ℂ), tn[i]? = some (.fin τ) → r[i]? = some (some z) →
      (sampleValues u'.data (v'.map Series.data))[i]? =
        (sampleValues u.data (v.map Series.data))[i]?.map (Option.map fun _ => z)) :
    c'.name.Perm c.name ∧ c'.mean = c.mean ∧
    (c.name.Nodup → ∀ (i j : ℕ) (n : String), c.name[i]? = some n → c'.name[j]? = some n →
      ellipseAt c'.ell j = ellipseAt c.ell i) ∧
    (¬ IsStr c.opt.ordercnstit "SNR" →
      c'.name = c.name ∧ c'.frq = c.frq ∧ c'.lind = c.lind ∧ c'.PE = c.PE ∧ c'.ell = c.ell) := by
  obtain ⟨p, constit, m, W, rf, full, o, ind, F, hols, rfl, hex'⟩ := run_facts R hnd hm h sp hi hex tn htn
  obtain ⟨opt', p', tn', constit', m', W', rf', full', o', ind', F'⟩ := solve_facts R' h'
  have hr' := F.reconstructed R hnd hk a hae hall r hr
  obtain ⟨rfl, rfl, rfl, hinf, T⟩ := twin' F F' R R' hv _ (transformed_by F (fun _ z => z) r hr' hu)
  have hh := F.prep.height R.ht R.hu R.hv
  obtain ⟨us, h1, h2, h3⟩ := T.x
  have hx : xraw p'.ed = p.B.map fun r => dot r m := by
    rw [F.rows, h3, h1, List.map_map, List.map_map]
    refine List.map_congr_left fun s hs => ?_
    rw [F.curve_eq R hnd hols hex' s.1 (by rw [h1]; exact List.mem_map_of_mem hs)]
    rfl
  have a1 := F.minNorm R hols
  have a2 := F'.minNorm R' hols
  rw [T.nm, T.B, hx] at a2
  have hmm : m' = m := IsMinNormSol.unique (by simp) a2 (a1.idem hh)
  have hpo : p'.opt = p.opt := by rw [F'.prep.hopt, F.prep.hopt]
  have hfe : full'.ell = full.ell := by rw [F.solved.ell, F'.solved.ell, hpo, T.sel, hmm]
  refine ⟨same_names F F' R R' hnd T.sel hk rfl, ?_, ?_, ?_⟩
  · have f1 : c'.mean = full'.mean := by rw [F'.solved.result]; rfl
    have g1 : full'.mean = UTide.meanOf p'.opt.twodim p'.opt.notrend p'.ed.lor p'.nm m' := F'.solved.head.mean
    have f2 : c.mean = full.mean := by rw [F.solved.result]; rfl
    have g2 : full.mean = UTide.meanOf p.opt.twodim p.opt.notrend p.ed.lor p.nm m := F.solved.head.mean
    rw [f1, g1, f2, g2, hmm, hpo, T.lor, T.nm]
  · intro hn i j n hi1 hj1
    have hn' : p.sel.name.Nodup := (F.perm_names R hnd hk).nodup_iff.1 hn
    obtain ⟨P, M, mean, slope, hP, hM, -, hmc⟩ := F.exists_coef hn' m F.mlen
    obtain ⟨r1, -⟩ := F.read hnd P M mean slope hP hM hmc
    obtain ⟨r1', -⟩ := F'.read hnd P M mean slope (by rw [T.sel]; exact hP) (by rw [T.sel]; exact hM)
      (by rw [hmm, T.sel, T.lor]; exact hmc)
    rw [r1, r1', hv, ellipseAt_map, ellipseAt_map, hi1, hj1]
  · intro ho
    obtain ⟨s1, s2, s3, s4, s5⟩ := T.results F F' rfl ho (by rw [hfe]) rfl
    refine ⟨s2, s3, s4, s5, ?_⟩
    have f1 : c'.ell = full'.ell.permute ind' := by rw [F'.solved.result]; rfl
    have f2 : c.ell = full.ell.permute ind := by rw [F.solved.result]; rfl
    rw [f1, f2, hfe, s1]

/-! ## C78 -/

/-- What the fit leaves over is orthogonal to every curve that could have been fitted. -/
theorem C78_orthogonal (E : Env) (t : TimeArg) (u : Series) (v : Option Series) (lat : Option ℝ) (opts : Dict PyVal)
    (R : Ready E t u v) (hnd : opts.keys.Nodup)
    (hm : ∃ x, requested opts "method" = some x ∧ IsStr x "ols")
    (c : Coef) (h : solve E t u v lat opts = .ok c) (hk : AllKept c)
    (sp : Option InferSpec) (hi : readInfer c.opt.infer = .ok sp) (hex : ∀ s, sp = some s → s.approximate = false)
    (tn : List Fl) (htn : normalizeTime E.dt64 t.arr c.opt.epoch = .ok tn)
    (a : RecArgs) (hae : a.epoch = c.opt.epoch) (hall : RecArgs.Everything a) (r : List (Option ℂ))
    (hr : reconstruct E t.arr c a = .ok r)
    (P M : String → ℂ) (mean slope : ℂ) (hT : TiedRotary sp v.isSome P M) (hs : c.opt.notrend = true → slope = 0) :
    sampleSum tn (sampleValues u.data (v.map Series.data)) r
      (fun τ x z => conj (rotaryCurve c P M mean slope τ) * (x - z)) = 0 := by
  obtain ⟨p, constit, m, W, rf, full, o, ind, F, hols, rfl, hex'⟩ := run_facts R hnd hm h sp hi hex tn htn
  have hr' := F.reconstructed R hnd hk a hae hall r hr
  have hh := F.prep.height R.ht R.hu R.hv
  obtain ⟨hP, hM⟩ := F.tiedBy hnd P M hT
  have hb := nameCoef_blocks F.prep.aligned (!c.opt.notrend) P M mean (slope * (p.ed.lor : ℂ))
  have key := (F.minNorm R hols).orthogonal hh _ (by rw [F.prep.nm]; exact hb.length)
  obtain ⟨l1, l2, l3⟩ := F.samples R
  rw [hr', sampleSum_samples, ← usable_samples _ _ _ l1, ← key, F.rows, l2, l3, List.map_map, zipWith_map_same]
  refine congrArg List.sum (List.map_congr_left fun s hs' => ?_)
  have hτ : s.1 ∈ p.ed.t := by rw [l2]; exact List.mem_map_of_mem hs'
  rw [F.curve_eq R hnd hols hex' _ hτ]
  simp only [Function.comp]
  rw [F.row_curve R hnd hk hex' P M mean slope hP hM hs _ hτ]

theorem sampleSum_mul {tn : List Fl} {xs r : List (Option ℂ)} (k : ℂ) (g : ℝ → ℂ → ℂ → ℂ) :
    sampleSum tn xs r (fun τ x z => k * g τ x z) = k * sampleSum tn xs r g := by
  unfold sampleSum
  generalize tn.zip xs = l
  induction l generalizing r with
  | nil => simp
  | cons a l ih =>
    cases r with
    | nil => simp
    | cons b r =>
      simp only [List.zipWith_cons_cons, List.sum_cons]
      rw [ih, mul_add]
      congr 1
      split <;> simp

theorem sum_map_single (l : List String) (n : String) (h : String → ℂ) :
    (l.map fun k => h k * (if k = n then 1 else 0)).sum = (l.count n : ℂ) * h n := by
  induction l with
  | nil => simp
  | cons a l ih =>
    rw [List.map_cons, List.sum_cons, ih, List.count_cons]
    by_cases ha : a = n
    · subst ha; simp; ring
    · simp [ha]

/-- In particular: it has zero mean, zero correlation with time if a trend was fitted, and zero correlation with the
harmonic of every constituent that takes no part in inference. -/
theorem C78_nothing_left (E : Env) (t : TimeArg) (u : Series) (v : Option Series) (lat : Option ℝ) (opts : Dict PyVal)
    (R : Ready E t u v) (hnd : opts.keys.Nodup)
    (hm : ∃ x, requested opts "method" = some x ∧ IsStr x "ols")
    (c : Coef) (h : solve E t u v lat opts = .ok c) (hk : AllKept c)
    (sp : Option InferSpec) (hi : readInfer c.opt.infer = .ok sp) (hex : ∀ s, sp = some s → s.approximate = false)
    (tn : List Fl) (htn : normalizeTime E.dt64 t.arr c.opt.epoch = .ok tn)
    (a : RecArgs) (hae : a.epoch = c.opt.epoch) (hall : RecArgs.Everything a) (r : List (Option ℂ))
    (hr : reconstruct E t.arr c a = .ok r) :
    sampleSum tn (sampleValues u.data (v.map Series.data)) r (fun _ x z => x - z) = 0 ∧
    (c.opt.notrend = false → sampleSum tn (sampleValues u.data (v.map Series.data)) r
      (fun τ x z => ((τ - c.reftime : ℝ) : ℂ) * (x - z)) = 0) ∧
    ∀ n ∈ c.name, (∀ s, sp = some s → n ∉ s.inferred ∧ n ∉ s.reference) →
      sampleSum tn (sampleValues u.data (v.map Series.data)) r (fun τ x z => harmonic c n τ * (x - z)) = 0 ∧
      sampleSum tn (sampleValues u.data (v.map Series.data)) r (fun τ x z => conj (harmonic c n τ) * (x - z)) = 0 := by
  have key := C78_orthogonal E t u v lat opts R hnd hm c h hk sp hi hex tn htn a hae hall r hr
  have hT0 : TiedRotary sp v.isSome (fun _ => 0) (fun _ => 0) := ⟨by simp, by simp⟩
  refine ⟨?_, ?_, ?_⟩
  · have := key (fun _ => 0) (fun _ => 0) 1 0 hT0 (fun _ => rfl)
    simpa [rotaryCurve] using this
  · intro ht
    have := key (fun _ => 0) (fun _ => 0) 0 1 hT0 (by simp [ht])
    simpa [rotaryCurve] using this
  · intro n hn hns
    have hcount : (c.name.count n : ℂ) ≠ 0 := by
      exact_mod_cast (List.count_pos_iff.2 hn).ne'
    have hTn : ∀ i : Bool, TiedRotary sp v.isSome (fun k => if k = n then (if i then 1 else 0) else 0)
        (fun k => if k = n then (if i then 0 else 1) else 0) := by
      intro i
      constructor
      · intro s hs j n' r' a' φ e1 e2 _ _
        obtain ⟨g1, g2⟩ := hns s hs
        have n1 : n' ≠ n := fun e => g1 (e ▸ List.mem_of_getElem? e1)
        have n2 : r' ≠ n := fun e => g2 (e ▸ List.mem_of_getElem? e2)
        simp [n1, n2]
      · intro s hs j k n' r' a' φ e1 e2 _ _ _
        obtain ⟨g1, g2⟩ := hns s hs
        have n1 : n' ≠ n := fun e => g1 (e ▸ List.mem_of_getElem? e1)
        have n2 : r' ≠ n := fun e => g2 (e ▸ List.mem_of_getElem? e2)
        simp [n1, n2]
    constructor
    · have h1 := key _ _ 0 0 (hTn false) (fun _ => rfl)
      simp only [rotaryCurve, Bool.false_eq_true, if_false, ite_self, mul_zero, zero_add, zero_mul, add_zero,
        sum_map_single c.name n fun k => conj (harmonic c k _), map_mul, Complex.conj_conj, map_natCast,
        mul_assoc] at h1
      rw [sampleSum_mul] at h1
      exact (mul_eq_zero.1 h1).resolve_left hcount
    · have h1 := key _ _ 0 0 (hTn true) (fun _ => rfl)
      simp only [rotaryCurve, if_true, ite_self, mul_zero, zero_add, zero_mul, add_zero,
        sum_map_single c.name n fun k => harmonic c k _, map_mul, map_natCast, mul_assoc] at h1
      rw [sampleSum_mul] at h1
      exact (mul_eq_zero.1 h1).resolve_left hcount

/-- The energy of the samples splits into that of the fitted curve and that of the residual. -/
theorem C78_energy (E : Env) (t : TimeArg) (u : Series) (v : Option Series) (lat : Option ℝ) (opts : Dict PyVal)
    (R : Ready E t u v) (hnd : opts.keys.Nodup)
    (hm : ∃ x, requested opts "method" = some x ∧ IsStr x "ols")
    (c : Coef) (h : solve E t u v lat opts = .ok c) (hk : AllKept c)
    (sp : Option InferSpec) (hi : readInfer c.opt.infer = .ok sp) (hex : ∀ s, sp = some s → s.approximate = false)
    (tn : List Fl) (htn : normalizeTime E.dt64 t.arr c.opt.epoch = .ok tn)
    (a : RecArgs) (hae : a.epoch = c.opt.epoch) (hall : RecArgs.Everything a) (r : List (Option ℂ))
    (hr : reconstruct E t.arr c a = .ok r) :
    sampleSum tn (sampleValues u.data (v.map Series.data)) r (fun _ x _ => ‖x‖ ^ 2) =
      sampleSum tn (sampleValues u.data (v.map Series.data)) r (fun _ _ z => ‖z‖ ^ 2) +
      sampleSum tn (sampleValues u.data (v.map Series.data)) r (fun _ x z => ‖x - z‖ ^ 2) := by
  obtain ⟨p, constit, m, W, rf, full, o, ind, F, hols, rfl, hex'⟩ := run_facts R hnd hm h sp hi hex tn htn
  have hr' := F.reconstructed R hnd hk a hae hall r hr
  have hh := F.prep.height R.ht R.hu R.hv
  have key := (F.minNorm R hols).orthogonal hh m F.mlen
  obtain ⟨l1, l2, l3⟩ := F.samples R
  rw [F.rows, l2, l3, List.map_map, zipWith_map_same] at key
  rw [hr', sampleSum_samples, sampleSum_samples, sampleSum_samples, ← usable_samples _ _ _ l1]
  have hc : ∀ s ∈ usable tn u.data (v.map Series.data), curve full (List.range p.sel.lind.length) s.1 =
      dot (rowAt p s.1) m := fun s hs' => F.curve_eq R hnd hols hex' _ (by rw [l2]; exact List.mem_map_of_mem hs')
  generalize usable tn u.data (v.map Series.data) = us at key hc
  have k2 : (us.map fun s => 2 * (conj (curve full (List.range p.sel.lind.length) s.1) *
      (s.2 - curve full (List.range p.sel.lind.length) s.1)).re).sum = 0 := by
    have := congrArg Complex.re key
    rw [List.sum_map_mul_left]
    rw [Complex.zero_re] at this
    rw [← mul_zero (2 : ℝ), ← this]
    congr 1
    clear key this l2 l3
    induction us with
    | nil => simp
    | cons s us ih =>
      simp only [List.map_cons, List.sum_cons, Complex.add_re, Function.comp]
      rw [ih fun s hs => hc s (List.mem_cons_of_mem _ hs), hc s (List.mem_cons_self ..)]
      rfl
  rw [← add_zero ((us.map _).sum + _), ← k2, ← List.sum_map_add, ← List.sum_map_add]
  refine congrArg List.sum (List.map_congr_left fun s _ => ?_)
  generalize curve full (List.range p.sel.lind.length) s.1 = z
  rw [← Complex.normSq_eq_norm_sq, ← Complex.normSq_eq_norm_sq, ← Complex.normSq_eq_norm_sq, Complex.normSq_apply,
    Complex.normSq_apply, Complex.normSq_apply]
  simp only [Complex.sub_re, Complex.sub_im, Complex.mul_re, Complex.conj_re, Complex.conj_im]
  ring

end

end UTide.Props
