import Verif.Props.RobustReturn
import Verif.Props.RobustScale
import Verif.Props.NestedProps

/-!
# The robust weights are the documented functions of the residuals (C120)
-/

namespace UTide.Props

noncomputable section

open Classical

/-! ## Specification -/

/-- The weight functions that accept arrays (C46), with their default tuning constants. The argument is the modulus of
the residual in units of the tuning constant times its standard deviation. -/
def weightTable : List (String × (ℝ → ℝ) × ℚ) :=
  [("bisquare", fun z => if z < 1 then (1 - z ^ 2) ^ 2 else 0, 4.685),
   ("cauchy", fun z => 1 / (1 + z ^ 2), 2.385),
   ("fair", fun z => 1 / (1 + z), 1.4),
   ("ols", fun _ => 1, 1),
   ("talwar", fun z => if z < 1 then 1 else 0, 2.795),
   ("welsch", fun z => Real.exp (-z ^ 2), 2.985)]

/-- The middle of sorted values: the middle one, or the mean of the middle two. -/
def IsMedian {α : Type} [Inhabited α] [Add α] [Div α] [OfNat α 2] (le : α → α → Prop) (l : List α) (m : α) : Prop :=
  ∃ s : List α, s.Perm l ∧ s.Pairwise le ∧
    ((s.length % 2 = 1 ∧ s[s.length / 2]? = some m) ∨
     (s.length % 2 = 0 ∧ ∃ a b, s[s.length / 2 - 1]? = some a ∧ s[s.length / 2]? = some b ∧ m = (a + b) / 2))

/-- Robust standard deviation: the median distance from the median, divided by 0.6745. Complex numbers are ordered by
real part, then by imaginary part. -/
def IsRobustSd (r : List ℂ) (σ : ℝ) : Prop :=
  ∃ z, IsMedian (fun a b : ℂ => a.re < b.re ∨ (a.re = b.re ∧ a.im ≤ b.im)) r z ∧
    IsMedian (fun a b : ℝ => a ≤ b) (r.map fun x => ‖x - z‖) (0.6745 * σ)

/-- `h` is diagonal entry `j` of the projection on the columns of `X`: what is missing of the unit vector has squared
length `1 - h`. -/
def IsHat (ncol : ℕ) (X : List (List ℂ)) (j : ℕ) (h : ℝ) : Prop :=
  (∃ m, m.length = ncol ∧ cost X (unitVec X.length j) m = 1 - h) ∧
  ∀ m, m.length = ncol → 1 - h ≤ cost X (unitVec X.length j) m

/-- A curve that could have been fitted. -/
def IsCurve (c : Coef) (sp : Option InferSpec) (twodim : Bool) (K : ℝ → ℂ) : Prop :=
  ∃ (P M : String → ℂ) (mean slope : ℂ), TiedRotary sp twodim P M ∧ (c.opt.notrend = true → slope = 0) ∧
    K = rotaryCurve c P M mean slope

/-- Sum of the squares of weight times distance of the samples from a curve. -/
def wmisfit (w : List ℝ) (S : List (ℝ × ℂ)) (K : ℝ → ℂ) : ℝ :=
  (List.zipWith (fun wi s => (wi * ‖s.2 - K s.1‖) ^ 2) w S).sum

/-- `h` is the leverage of sample `j`: the curves come as near as `1 - h`, in the sum of squares, to the record that is 1
at sample `j` and 0 at the others. -/
def IsLeverage (curves : (ℝ → ℂ) → Prop) (S : List (ℝ × ℂ)) (j : ℕ) (h : ℝ) : Prop :=
  (∃ K, curves K ∧ (S.zipIdx.map fun si => ‖(if si.2 = j then 1 else 0) - K si.1.1‖ ^ 2).sum = 1 - h) ∧
  ∀ K, curves K → 1 - h ≤ (S.zipIdx.map fun si => ‖(if si.2 = j then 1 else 0) - K si.1.1‖ ^ 2).sum

/-- The weight function asked for. -/
def askedFunction (kw : List (String × PyVal)) : String := match kw.lookup "weight_function" with
  | some (.str s) => s
  | _ => "bisquare"

/-- The tuning constant asked for. -/
def askedTune (kw : List (String × PyVal)) : Option ℚ := match kw.lookup "tune" with
  | some (.num q) => some q
  | _ => none

/-- The number of iterations asked for. -/
def askedMaxit (kw : List (String × PyVal)) : ℚ := match kw.lookup "maxit" with
  | some (.num q) => q
  | _ => 50

/-! ## Lemmas -/

theorem isMedian_median (l : List ℝ) (hl : l ≠ []) : IsMedian (fun a b : ℝ => a ≤ b) l (median l) := by
  have hp := List.mergeSort_perm l fun a b => decide (a ≤ b)
  have hs := sort_pairwise l
  unfold median
  generalize l.mergeSort (fun a b => decide (a ≤ b)) = s at hp hs
  refine ⟨s, hp, hs, ?_⟩
  have hlen : 0 < s.length := by rw [hp.length_eq]; exact List.length_pos_iff.2 hl
  unfold middle
  rcases Nat.mod_two_eq_zero_or_one s.length with h | h
  · rw [if_neg (by omega)]
    refine .inr ⟨h, s[s.length / 2 - 1]'(by omega), s[s.length / 2]'(by omega), ?_, ?_, ?_⟩
    · exact List.getElem?_eq_getElem _
    · exact List.getElem?_eq_getElem _
    · rw [List.getD_eq_getElem _ _ (by omega), List.getD_eq_getElem _ _ (by omega)]
  · rw [if_pos h]
    refine .inl ⟨h, ?_⟩
    rw [List.getD_eq_getElem _ _ (by omega), List.getElem?_eq_getElem]

theorem isMedian_cmedian (l : List ℂ) (hl : l ≠ []) :
    IsMedian (fun a b : ℂ => a.re < b.re ∨ (a.re = b.re ∧ a.im ≤ b.im)) l (cmedian l) := by
  have hp := List.mergeSort_perm l fun a b => decide (lexLE a b)
  have hs := csort_pairwise l
  have he := cmedian_eq l _ hp.symm hs
  rw [he]
  generalize l.mergeSort (fun a b => decide (lexLE a b)) = s at hp hs
  refine ⟨s, hp, hs, ?_⟩
  have hlen : 0 < s.length := by rw [hp.length_eq]; exact List.length_pos_iff.2 hl
  unfold midOf
  rcases Nat.mod_two_eq_zero_or_one s.length with h | h
  · rw [if_neg (by omega)]
    refine .inr ⟨h, s[s.length / 2 - 1]'(by omega), s[s.length / 2]'(by omega), ?_, ?_, ?_⟩
    · exact List.getElem?_eq_getElem _
    · exact List.getElem?_eq_getElem _
    · rw [List.getD_eq_getElem _ _ (by omega), List.getD_eq_getElem _ _ (by omega)]
  · rw [if_pos h]
    refine .inl ⟨h, ?_⟩
    rw [List.getD_eq_getElem _ _ (by omega), List.getElem?_eq_getElem]

theorem isRobustSd_sigmaHat (r : List ℂ) (hr : r ≠ []) : IsRobustSd r (sigmaHat r) := by
  refine ⟨cmedian r, isMedian_cmedian r hr, ?_⟩
  have : 0.6745 * sigmaHat r = median (r.map fun x => ‖x - cmedian r‖) := by
    unfold sigmaHat
    rw [mul_div_cancel₀]
    norm_num
  rw [this]
  exact isMedian_median _ (by simpa using hr)

/-- The entries of the table and the functions. -/
theorem weightTable_fun (name : String) (wt : ℝ → ℝ) (tn : ℚ) (h : (name, wt, tn) ∈ weightTable) (f : WFun)
    (hf : WFun.ofName name = .ok f) : f.tune = tn ∧ (∀ z : ℂ, f.weight z = wt ‖z‖) ∧ (f = .ols → ∀ x, wt x = 1) ∧
      f.usesMax = false := by
  simp only [weightTable, List.mem_cons, Prod.mk.injEq, List.not_mem_nil, or_false] at h
  rcases h with ⟨rfl, rfl, rfl⟩ | ⟨rfl, rfl, rfl⟩ | ⟨rfl, rfl, rfl⟩ | ⟨rfl, rfl, rfl⟩ | ⟨rfl, rfl, rfl⟩ | ⟨rfl, rfl, rfl⟩ <;>
  · simp only [WFun.ofName, String.reduceEq, if_false, if_true, Except.ok.injEq] at hf
    subst hf
    refine ⟨by norm_num [WFun.tune], fun z => ?_, ?_, rfl⟩
    · simp only [WFun.weight]
      try split_ifs <;> simp
    · simp

/-! ## `robustfit` -/

/-- C120 for `robustfit`: the sequence of weights. Unit weights first; then each weight is the documented function of
the residual of the sample from the best fit for the previous weights, divided by the tuning constant (the one asked
for or the default), by the robust standard deviation of the residuals and by the square root of one minus the leverage
of the sample. The last but one or last set of weights is returned. -/
theorem C120_weights (N : Num) (hN : NumOk N) (a : RobArgs) (ncol : ℕ) (X : List (List ℂ)) (y : List ℂ)
    (out : RobOut) (ha : exactRcond (some a.rcond)) (hX : ∀ r ∈ X, r.length = ncol) (hy : X.length = y.length)
    (h : robustfit N a ncol X y = .ok out) (wt : ℝ → ℝ) (tn : ℚ) (ht : (a.wfName, wt, tn) ∈ weightTable) :
    ∃ (b : ℕ → List ℂ) (w : ℕ → List ℝ) (n q : ℕ), out.iterations = n + 1 ∧ out.b = b n ∧ out.w = w q ∧
      out.iterations ≤ a.maxit ∧ ((q = n ∧ (1 ≤ n ∨ out.iterations < a.maxit)) ∨ (q = n + 1 ∧ out.iterations = a.maxit)) ∧
      w 0 = y.map (fun _ => 1) ∧
      (∀ k, (b k).length = ncol ∧ (w k).length = y.length ∧
        ∀ b', b'.length = ncol → wcost (w k) X y (b k) ≤ wcost (w k) X y b') ∧
      ∀ k j r x, X[j]? = some r → y[j]? = some x → ∃ h σ, IsHat ncol X j h ∧
        IsRobustSd (List.zipWith (fun r x => x - dot r (b k)) X y) σ ∧
        ((∀ z, wt z = 1) ∨ (a.tune.getD tn ≠ 0 ∧ h < 1 ∧ (k < q → 0 < σ))) ∧
        (w (k + 1))[j]? = some (wt (‖x - dot r (b k)‖ / (|((a.tune.getD tn : ℚ) : ℝ)| * σ * Real.sqrt (1 - h)))) := by
  obtain ⟨f, e, n, hf, hg, rfl, hn, hfit, hit, hsome, hpass, hend⟩ := robustfit_spec N a ncol X y out h
  obtain ⟨htune, hwt, hols, -⟩ := weightTable_fun _ _ _ ht f hf
  have hmin := passFit_min N hN.lstsq a ha f ncol X y hX hy
  have hlen := passW_length N a f ncol X y hy
  have hblen : ∀ k, (passFit N (robProblem N a f ncol X y) k).b.length = ncol := by
    intro k
    refine (hN.lstsq _ ncol _ _ ?_ ?_).1
    · intro r hr
      obtain ⟨i, hi, rfl⟩ := List.mem_iff_getElem.1 hr
      simp only [List.getElem_zipWith, List.length_map]
      exact hX _ (List.getElem_mem _)
    · simp only [List.length_zipWith, hlen]
      exact congrArg _ hy
  set p := robProblem N a f ncol X y with hp
  have hq : ∃ q, e.w = passW N p q ∧ ((q = n ∧ (1 ≤ n ∨ e.iterations < a.maxit)) ∨ (q = n + 1 ∧ e.iterations = a.maxit)) ∧ ∀ k, k < q → Goes N p k := by
    cases hend with
    | worse h hq hw hr hs' hi => exact ⟨n, hw, .inl ⟨rfl, by omega⟩, fun k hk => (hpass k hk).2.1⟩
    | small h hw hr hi0 hi => exact ⟨n, hw, .inl ⟨rfl, by omega⟩, fun k hk => (hpass k hk).2.1⟩
    | exhausted h hw hr hq =>
      refine ⟨n + 1, hw, .inr ⟨rfl, by omega⟩, fun k hk => ?_⟩
      by_cases hkn : k = n
      · subst hkn; exact hq.2.1
      · exact (hpass k (by omega)).2.1
  obtain ⟨q, hw, hqn, hgoes⟩ := hq
  refine ⟨fun k => (passFit N p k).b, passW N p, n, q, hit, congrArg Lstsq.b hfit, hw, by show e.iterations ≤ _; omega, hqn, rfl,
    fun k => ⟨hblen k, hlen k, hmin k⟩, ?_⟩
  intro k j r x hj hxj
  obtain ⟨hj', rfl⟩ := List.getElem?_eq_some_iff.1 hj
  obtain ⟨m, hm, hlev⟩ := leverage_getElem? N hN.pinv ncol X hX j hj'
  have hres : List.zipWith (fun r x => x - dot r (passFit N p k).b) X y = residual p (passFit N p k).b := rfl
  have hrj : (residual p (passFit N p k).b)[j]? = some (x - dot X[j] (passFit N p k).b) := by
    rw [← hres, List.getElem?_zipWith, hj, hxj]
  have hne : residual p (passFit N p k).b ≠ [] := by
    intro h0; rw [h0] at hrj; simp at hrj
  have hsig : 0 ≤ sigmaHat (residual p (passFit N p k).b) :=
    div_nonneg (median_nonneg _ (by simp)) (by norm_num)
  refine ⟨1 - cost X (unitVec X.length j) m, sigmaHat (residual p (passFit N p k).b), ⟨⟨m, hm.length, by ring⟩, ?_⟩,
    by rw [hres]; exact isRobustSd_sigmaHat _ hne, ?_, ?_⟩
  · intro m' hm'
    rw [sub_sub_cancel]
    exact hm.optimal m' hm'
  · by_cases ho : f = .ols
    · exact .inl (hols ho)
    · obtain ⟨h1, h2⟩ := hg ho
      rw [htune] at h1
      refine .inr ⟨h1, h2 _ (List.mem_of_getElem? hlev), fun hk => ?_⟩
      exact lt_of_le_of_ne hsig fun h0 => (hgoes k hk).1 ⟨ho, h0.symm⟩
  · show (List.map _ (rNormed (residual p (passFit N p k).b) p.rfac))[j]? = _
    rw [List.getElem?_map]
    unfold rNormed
    rw [List.getElem?_zipWith, hrj]
    have hrf : p.rfac[j]? = some (1 / (((a.tune.getD f.tune : ℚ) : ℝ) *
        Real.sqrt (1 - (1 - cost X (unitVec X.length j) m)))) := by
      rw [hp]
      show (List.map _ _)[j]? = _
      rw [List.getElem?_map, hlev]
      rfl
    rw [hrf]
    simp only [Option.map_some]
    show some (f.weight _) = _
    rw [hwt, htune]
    congr 2
    rw [norm_div, norm_mul, Complex.norm_real, Complex.norm_real, Real.norm_of_nonneg hsig, Real.norm_eq_abs, abs_div,
      abs_mul, abs_one, abs_of_nonneg (Real.sqrt_nonneg _)]
    rw [one_div, inv_mul_eq_div, div_div]
    ring_nf

/-! ## `solve` -/

theorem readRobArgs_cons (k : String) (v : PyVal) (kw : List (String × PyVal)) (a0 a : RobArgs)
    (h : readRobArgs ((k, v) :: kw) a0 = .ok a) :
    (k = "weight_function" ∧ ∃ s, v = .str s ∧ readRobArgs kw { a0 with wfName := s } = .ok a) ∨
    (k = "tune" ∧ v = .none ∧ readRobArgs kw { a0 with tune := none } = .ok a) ∨
    (k = "tune" ∧ ∃ q, v = .num q ∧ readRobArgs kw { a0 with tune := some q } = .ok a) ∨
    (k = "rcond" ∧ ∃ q, readRobArgs kw { a0 with rcond := q } = .ok a) ∨
    (k = "tol" ∧ ∃ q, readRobArgs kw { a0 with tol := q } = .ok a) ∨
    (k = "maxit" ∧ ∃ q : ℚ, v = .num q ∧ q.den = 1 ∧ readRobArgs kw { a0 with maxit := q.num.toNat } = .ok a) := by
  unfold readRobArgs at h
  split_ifs at h with h1 h2 h3 h4 h5
  · cases v <;> simp only [reduceCtorEq] at h
    exact .inl ⟨h1, _, rfl, h⟩
  · cases v <;> simp only [reduceCtorEq] at h
    · exact .inr (.inl ⟨h2, rfl, h⟩)
    · exact .inr (.inr (.inl ⟨h2, _, rfl, h⟩))
  · cases v <;> simp only [reduceCtorEq] at h
    exact .inr (.inr (.inr (.inl ⟨h3, _, h⟩)))
  · cases v <;> simp only [reduceCtorEq] at h
    exact .inr (.inr (.inr (.inr (.inl ⟨h4, _, h⟩))))
  · cases v <;> simp only [reduceCtorEq] at h
    split_ifs at h with h6
    exact .inr (.inr (.inr (.inr (.inr ⟨h5, _, rfl, h6, h⟩))))

theorem readRobArgs_asked (kw : List (String × PyVal)) (hnd : (kw.map Prod.fst).Nodup) (a0 a : RobArgs)
    (h : readRobArgs kw a0 = .ok a) :
    a.wfName = (match kw.lookup "weight_function" with | some (.str s) => s | _ => a0.wfName) ∧
    a.tune = (match kw.lookup "tune" with | some (.num q) => some q | some .none => none | _ => a0.tune) ∧
    (a.maxit = a0.maxit ∧ kw.lookup "maxit" = none ∨
      ∃ q : ℚ, kw.lookup "maxit" = some (.num q) ∧ q.den = 1 ∧ a.maxit = q.num.toNat) := by
  induction kw generalizing a0 with
  | nil =>
    cases Except.ok.inj h
    simp
  | cons kv kw ih =>
    obtain ⟨k, v⟩ := kv
    rw [List.map_cons, List.nodup_cons] at hnd
    have hno : ∀ k', k' = k → kw.lookup k' = none := by
      intro k' hk
      rw [List.lookup_eq_none_iff]
      intro p hp
      simp only [bne_iff_ne, ne_eq]
      intro he
      exact hnd.1 (List.mem_map.2 ⟨p, hp, by rw [← he, hk]⟩)
    rcases readRobArgs_cons k v kw a0 a h with ⟨rfl, s, rfl, h⟩ | ⟨rfl, rfl, h⟩ | ⟨rfl, q, rfl, h⟩ | ⟨rfl, q, h⟩ |
      ⟨rfl, q, h⟩ | ⟨rfl, q, rfl, hq, h⟩ <;>
    · obtain ⟨h1, h2, h3⟩ := ih hnd.2 _ h
      have hk := hno _ rfl
      simp_all [List.lookup_cons]

section
variable {E : Env} {t : TimeArg} {u : Series} {v : Option Series} {lat : Option ℝ} {opts : Dict PyVal}
  {c : Coef} {opt : Opt} {p : Prep} {tn : List Fl} {constit : Constit} {m : List ℂ} {W : List ℝ}
  {rf : Option RobOut} {full : Coef} {o : Order} {ind : List ℕ}

/-- The value of a column combination at a sample is that of a curve, and conversely. -/
theorem Facts.curves (F : Facts E t u v lat opts c opt p tn constit m W rf full o ind) (R : Ready E t u v)
    (hnd : opts.keys.Nodup) (hk : AllKept c) (hex : approxOf p.infer = false) (hn : c.name.Nodup) :
    (∀ b : List ℂ, b.length = p.nm → ∃ K, IsCurve c p.infer v.isSome K ∧ ∀ τ ∈ p.ed.t, dot (rowAt p τ) b = K τ) ∧
    (∀ K, IsCurve c p.infer v.isSome K → ∃ b : List ℂ, b.length = p.nm ∧ ∀ τ ∈ p.ed.t, dot (rowAt p τ) b = K τ) := by
  have hn : p.sel.name.Nodup := (F.perm_names R hnd hk).nodup_iff.1 hn
  constructor
  · intro b hb
    obtain ⟨P, M, mean, slope, h1, h2, h3, rfl⟩ := F.exists_coef hn b hb
    exact ⟨_, ⟨P, M, mean, slope, F.tiedRotary hnd P M h1 h2, by rw [F.copt]; exact h3, rfl⟩,
      fun τ hτ => F.row_curve R hnd hk hex P M mean slope h1 h2 h3 τ hτ⟩
  · rintro K ⟨P, M, mean, slope, hT, h3, rfl⟩
    obtain ⟨h1, h2⟩ := F.tiedBy hnd P M hT
    exact ⟨_, by rw [F.prep.nm]; exact (nameCoef_blocks F.prep.aligned _ _ _ _ _).length,
      fun τ hτ => F.row_curve R hnd hk hex P M mean slope h1 h2 (by rw [F.copt] at h3; exact h3) τ hτ⟩

end

/-- C120: the weights reported by a robust analysis. There is a sequence of curves and sets of weights: unit weights
first, each curve the best one for its weights, and each further weight the documented function of the distance of the
sample from the previous curve, divided by the tuning constant, the robust standard deviation of the distances and the
square root of one minus the leverage of the sample. `coef.weights` is the set of the last curve, or the following one
if the iterations are exhausted. -/
theorem C120_solve (E : Env) (hN : NumOk E.num) (t : TimeArg) (u : Series) (v : Option Series) (lat : Option ℝ)
    (opts : Dict PyVal) (R : Ready E t u v) (hnd : opts.keys.Nodup) (kw : List (String × PyVal))
    (hr : AsksRobust opts kw) (hh : Harmless kw) (c : Coef) (h : solve E t u v lat opts = .ok c) (hkept : AllKept c)
    (hn : c.name.Nodup) (sp : Option InferSpec) (hi : readInfer c.opt.infer = .ok sp)
    (hex : ∀ s, sp = some s → s.approximate = false)
    (tn : List Fl) (htn : normalizeTime E.dt64 t.arr c.opt.epoch = .ok tn) (wt : ℝ → ℝ) (tune : ℚ)
    (ht : (askedFunction kw, wt, tune) ∈ weightTable) (S : List (ℝ × ℂ)) (hS : S = usable tn u.data (v.map Series.data)) :
    ∃ (r : RobOut) (K : ℕ → ℝ → ℂ) (w : ℕ → List ℝ) (n q : ℕ), c.rf = some r ∧ r.iterations = n + 1 ∧
      c.weights = w q ∧ r.iterations ≤ askedMaxit kw ∧
      ((q = n ∧ (1 ≤ n ∨ r.iterations < askedMaxit kw)) ∨ (q = n + 1 ∧ r.iterations = askedMaxit kw)) ∧ w 0 = S.map (fun _ => 1) ∧
      (∀ k, IsCurve c sp v.isSome (K k) ∧ (w k).length = S.length ∧
        ∀ K', IsCurve c sp v.isSome K' → wmisfit (w k) S (K k) ≤ wmisfit (w k) S K') ∧
      ∀ k j s, S[j]? = some s → ∃ h σ, IsLeverage (IsCurve c sp v.isSome) S j h ∧
        IsRobustSd (S.map fun s => s.2 - K k s.1) σ ∧
        ((∀ z, wt z = 1) ∨ ((askedTune kw).getD tune ≠ 0 ∧ h < 1 ∧ (k < q → 0 < σ))) ∧
        (w (k + 1))[j]? = some (wt (‖s.2 - K k s.1‖ /
          (|(((askedTune kw).getD tune : ℚ) : ℝ)| * σ * Real.sqrt (1 - h)))) := by
  obtain ⟨opt, p, tn0, constit, m, W, rf, full, o, ind, F⟩ := solve_facts R h
  have hc := F.copt
  subst hc
  cases Except.ok.inj (F.prep.init.time.symm.trans htn)
  have hrob := F.method_robust hnd hr
  have hsp : p.infer = sp := Except.ok.inj (F.prep.hinfer.symm.trans hi)
  subst hsp
  have hex' : approxOf p.infer = false := by
    cases hsp : p.infer with
    | none => rfl
    | some s => exact hex s hsp
  obtain ⟨a, r, ha, hrf, rfl, rfl, rfl⟩ := F.robust_fit hrob
  obtain ⟨hl, s2, s3⟩ := F.samples R
  rw [← hS] at s2 s3
  obtain ⟨a1, a2, a3⟩ := readRobArgs_asked kw hh.nodup _ a ha
  have hfn : a.wfName = askedFunction kw := by
    rw [a1]; unfold askedFunction robDefaults; rfl
  have htu : a.tune = askedTune kw := by
    rw [a2]; unfold askedTune robDefaults
    split <;> simp_all
  obtain ⟨C1, C2⟩ := F.curves R hnd hkept hex' hn
  have hB : p.B = S.map fun s => rowAt p s.1 := by
    rw [rows_times F, s2, List.map_map]; rfl
  have hBlen : p.B.length = (xraw p.ed).length := by rw [hB, s3]; simp
  obtain ⟨b, w, n, q, i1, i2, i3, i0, i4, i5, i6, i7⟩ := C120_weights E.num hN a p.nm p.B (xraw p.ed) r (hh.args ha)
    F.prep.rows hBlen hrf wt tune (by rw [hfn]; exact ht)
  choose K hK1 hK2 using fun k => C1 (b k) (i6 k).1
  have hmem : ∀ s ∈ S, s.1 ∈ p.ed.t := fun s hs => by rw [s2]; exact List.mem_map_of_mem hs
  have hcost : ∀ (w : List ℝ) (b : List ℂ) (K : ℝ → ℂ), (∀ τ ∈ p.ed.t, dot (rowAt p τ) b = K τ) →
      wcost w p.B (xraw p.ed) b = wmisfit w S K := by
    intro w b K hbK
    rw [hB, s3]
    unfold wcost wmisfit
    congr 1
    apply List.ext_getElem
    · simp
    · intro i h1 h2
      simp only [List.getElem_zipWith, List.getElem_map, List.getElem_zip]
      rw [hbK _ (hmem _ (List.getElem_mem _))]
  have hunit : ∀ (j : ℕ) (b : List ℂ) (K : ℝ → ℂ), (∀ τ ∈ p.ed.t, dot (rowAt p τ) b = K τ) →
      cost p.B (unitVec p.B.length j) b = (S.zipIdx.map fun si => ‖(if si.2 = j then 1 else 0) - K si.1.1‖ ^ 2).sum := by
    intro j b K hbK
    rw [hB]
    unfold cost unitVec
    congr 1
    apply List.ext_getElem
    · simp
    · intro i h1 h2
      simp only [List.getElem_zipWith, List.getElem_map, List.getElem_range, List.getElem_zipIdx, zero_add]
      rw [hbK _ (hmem _ (List.getElem_mem _))]
  have hmax : (a.maxit : ℚ) = askedMaxit kw := by
    have hpos : 0 < a.maxit := by omega
    unfold askedMaxit
    rcases a3 with ⟨e3, e4⟩ | ⟨q, e3, e4, e5⟩
    · rw [e3, e4]; norm_num [robDefaults]
    · rw [e5] at hpos ⊢
      rw [e3]
      dsimp only
      have h1 : ((q.num.toNat : ℤ)) = q.num := Int.toNat_of_nonneg (by omega)
      rw [← Int.cast_natCast, h1]
      exact (Rat.den_eq_one_iff q).1 e4
  refine ⟨r, K, w, n, q, F.crf, i1, by rw [F.cweights]; exact i3, by rw [← hmax]; exact_mod_cast i0,
    by rw [← hmax]; exact_mod_cast i4, by rw [i5, s3, List.map_map]; rfl, ?_, ?_⟩
  · intro k
    obtain ⟨j1, j2, j3⟩ := i6 k
    refine ⟨hK1 k, by rw [j2, s3, List.length_map], fun K' hK' => ?_⟩
    obtain ⟨b', hb', hbK'⟩ := C2 K' hK'
    rw [← hcost _ _ _ (hK2 k), ← hcost _ _ _ hbK']
    exact j3 b' hb'
  · intro k j s hj
    obtain ⟨hj', rfl⟩ := List.getElem?_eq_some_iff.1 hj
    obtain ⟨hh, σ, ⟨⟨m0, m1, m2⟩, m3⟩, g2, g3, g4⟩ := i7 k j (rowAt p S[j].1) S[j].2 (by rw [hB, List.getElem?_map, hj]; rfl)
      (by rw [s3, List.getElem?_map, hj]; rfl)
    have hval := hK2 k S[j].1 (hmem _ (List.getElem_mem _))
    refine ⟨hh, σ, ⟨?_, ?_⟩, ?_, by rw [← htu]; exact g3, by rw [← htu, ← hval]; exact g4⟩
    · obtain ⟨K0, q1, q2⟩ := C1 m0 m1
      exact ⟨K0, q1, by rw [← hunit j m0 K0 q2, m2]⟩
    · intro K0 hK0
      obtain ⟨m', q1, q2⟩ := C2 K0 hK0
      rw [← hunit j m' K0 q2]
      exact m3 m' q1
    · convert g2 using 1
      rw [hB, s3, zipWith_map_same]
      refine List.map_congr_left fun s hs => ?_
      rw [hK2 k s.1 (hmem s hs)]

/-- C120 on a record of six samples: one iteration with the default function. -/
example : ∃ c, solve idealEnv sixT (sixSeries (sixY 1 0)) none (some 45) (methodOpts "robust" sixKw) = .ok c ∧
    ∃ (K : ℝ → ℂ) (h σ : ℝ), IsCurve c none false K ∧ 0 < σ ∧ h < 1 ∧
      c.weights[5]? = some (if ‖6 - K 1‖ / (4.685 * σ * Real.sqrt (1 - h)) < 1 then
        (1 - (‖6 - K 1‖ / (4.685 * σ * Real.sqrt (1 - h))) ^ 2) ^ 2 else 0) := by
  obtain ⟨c, H⟩ := six_run' 1 0 one_ne_zero
  refine ⟨c, H.returned, ?_⟩
  have hS : usable sixTn (sixSeries (sixY 1 0)).data ((none : Option Series).map Series.data) =
      [(0, 1), (0, -1), (0.5, 3), (0.5, -1), (1, 0), (1, 6)] := by
    rw [usable_samples _ _ _ (six_length _ none (.inl rfl)), Option.map_none, (six_samples _ (sixY 1 0)).1]
    simp [sixY]
  obtain ⟨r, K, w, n, q, h1, h2, h3, h0, h4, h5, h6, h7⟩ := C120_solve idealEnv idealNum_ok sixT (sixSeries (sixY 1 0)) none
    (some 45) (methodOpts "robust" sixKw) (six_ready _ none (.inl rfl)) (by decide) sixKw
    ⟨⟨"robust", by decide, rfl⟩, false, rfl⟩ ⟨by decide, by simp [sixKw]⟩ c H.returned H.kept (by rw [H.name]; simp) none
    (by rw [H.opt]; rfl) (by simp) sixTn (by rw [H.opt]; exact six_times) _ _ (List.mem_cons_self) _ rfl
  have hm : askedMaxit sixKw = 1 := rfl
  rw [hm] at h0 h4
  have hn : n = 0 ∧ q = 1 := by
    rw [h2] at h0 h4
    have h0 : n + 1 ≤ 1 := by exact_mod_cast h0
    rcases h4 with ⟨hq, h4 | h4⟩ | ⟨hq, -⟩
    · omega
    · have h4 : n + 1 < 1 := by exact_mod_cast h4
      omega
    · omega
  obtain ⟨rfl, rfl⟩ := hn
  rw [hS] at h7
  obtain ⟨h, σ, -, -, g1, g2⟩ := h7 0 5 (1, 6) rfl
  refine ⟨K 0, h, σ, (h6 0).1, ?_⟩
  rcases g1 with g1 | ⟨-, g3, g4⟩
  · have := g1 2
    norm_num at this
  · refine ⟨g4 one_pos, g3, ?_⟩
    rw [h3, g2]
    have : |(((askedTune sixKw).getD 4.685 : ℚ) : ℝ)| = 4.685 := by
      show |((4.685 : ℚ) : ℝ)| = _
      norm_num
    rw [this]

end

end UTide.Props
