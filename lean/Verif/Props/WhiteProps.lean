import Verif.Lemmas.Blue
import Verif.Props.RecoverProps
import Verif.Props.LinciProps
import Verif.Props.RobustEqs
import Verif.Props.CiProps

/-!
# Linearised confidence intervals are those of least squares: C70
-/

namespace UTide.Props

noncomputable section

open Classical Matrix

local notation "conj" => starRingEnd ℂ

/-! ## Specification -/

/-- Cosine and sine coefficients of each constituent, mean and slope. -/
structure CurvePar where
  X : String → ℝ
  Y : String → ℝ
  mean : ℝ
  slope : ℝ

/-- The curve with these parameters: constituent `n` contributes `X n` times the real and `Y n` times the imaginary
part of its harmonic. -/
def linCurve (c : Coef) (q : CurvePar) (τ : ℝ) : ℝ :=
  q.mean + q.slope * (τ - c.reftime) +
    (c.name.map fun n => q.X n * (harmonic c n τ).re + q.Y n * (harmonic c n τ).im).sum

/-- No slope where none is fitted. -/
def Admissible (c : Coef) (q : CurvePar) : Prop := c.opt.notrend = true → q.slope = 0

/-- A linear combination of data. -/
def combine (a y : List ℝ) : ℝ := (List.zipWith (fun x z => x * z) a y).sum

def sumSq (a : List ℝ) : ℝ := (a.map fun x => x ^ 2).sum

/-- `a` is the best linear unbiased estimator of a parameter from data at times `τ`: exact for every curve, and of
smallest variance (for uncorrelated noise of equal variance) among such. -/
structure Blue (c : Coef) (τ : List ℝ) (par : CurvePar → ℝ) (a : List ℝ) : Prop where
  length : a.length = τ.length
  unbiased : ∀ q, Admissible c q → combine a (τ.map (linCurve c q)) = par q
  best : ∀ a' : List ℝ, a'.length = τ.length →
    (∀ q, Admissible c q → combine a' (τ.map (linCurve c q)) = par q) → sumSq a ≤ sumSq a'

/-- Number of parameters of a curve. -/
def numPar (c : Coef) : ℕ := 2 * c.name.length + 1 + if c.opt.notrend then 0 else 1

/-- The usual estimate of the noise variance of data `y` at times `τ`: the least sum of squared residuals over the
degrees of freedom. -/
def NoiseVariance (c : Coef) (τ y : List ℝ) (s2 : ℝ) : Prop :=
  numPar c < τ.length ∧ ∃ rss : ℝ,
    IsLeast {r | ∃ q, Admissible c q ∧ r = sumSq (List.zipWith (fun a b => a - b) y (τ.map (linCurve c q)))} rss ∧
    s2 = rss / ((τ.length : ℝ) - numPar c)

/-- Data minus curve. -/
def residuals (c : Coef) (τ y : List ℝ) (q : CurvePar) : List ℝ := List.zipWith (fun a b => a - b) y (τ.map (linCurve c q))

/-- The curve of least squares. -/
structure BestFit (c : Coef) (τ y : List ℝ) (q : CurvePar) : Prop where
  adm : Admissible c q
  best : ∀ q', Admissible c q' → sumSq (residuals c τ y q) ≤ sumSq (residuals c τ y q')

/-- The interval of the constituent at position `i`; for a scalar series `maj` is that of the amplitude. -/
def intervalAt : CiArr → ℕ → Option Ci1
  | .one A g, i => A[i]?.bind fun a => g[i]?.map fun b => ⟨a, .fin 0, .fin 0, b⟩
  | .two M m th g, i => M[i]?.bind fun a => m[i]?.bind fun b => th[i]?.bind fun c => g[i]?.map fun d => ⟨a, b, c, d⟩

/-! ## Lists and sums -/

theorem combine_fin {n : ℕ} (a y : Fin n → ℝ) : combine (List.ofFn a) (List.ofFn y) = ∑ j, a j * y j := by
  unfold combine
  rw [← List.sum_ofFn]
  congr 1
  apply List.ext_getElem
  · simp
  · intro i _ _; simp

theorem sumSq_fin {n : ℕ} (a : Fin n → ℝ) : sumSq (List.ofFn a) = ∑ j, a j ^ 2 := by
  unfold sumSq
  rw [List.map_ofFn, List.sum_ofFn]
  rfl

theorem sumSq_nonneg (a : List ℝ) : 0 ≤ sumSq a :=
  List.sum_nonneg (by simp only [List.mem_map]; rintro _ ⟨x, -, rfl⟩; exact sq_nonneg x)

theorem sub_fin {n : ℕ} (a y : Fin n → ℝ) :
    List.zipWith (fun a b => a - b) (List.ofFn a) (List.ofFn y) = List.ofFn fun j => a j - y j := by
  apply List.ext_getElem
  · simp
  · intro i _ _; simp

/-! ## Curves -/

theorem rotary_lin (c : Coef) (P M : String → ℂ) (mean slope : ℂ) (hM : ∀ n ∈ c.name, M n = conj (P n))
    (hmean : mean.im = 0) (hslope : slope.im = 0) (τ : ℝ) :
    rotaryCurve c P M mean slope τ =
      ((linCurve c ⟨fun n => 2 * (P n).re, fun n => -2 * (P n).im, mean.re, slope.re⟩ τ : ℝ) : ℂ) := by
  unfold rotaryCurve linCurve
  have e1 : mean = (mean.re : ℂ) := Complex.ext (by simp) (by simpa using hmean)
  have e2 : slope = (slope.re : ℂ) := Complex.ext (by simp) (by simpa using hslope)
  have e3 : (c.name.map fun n => harmonic c n τ * P n + conj (harmonic c n τ) * M n) =
      c.name.map fun n => (((2 * (P n).re * (harmonic c n τ).re + -2 * (P n).im * (harmonic c n τ).im) : ℝ) : ℂ) := by
    refine List.map_congr_left fun n hn => ?_
    rw [hM n hn, ← map_mul]
    apply Complex.ext
    · simp [Complex.mul_re]; ring
    · simp; ring
  rw [e3, ← ofReal_sum_map]
  nth_rewrite 1 [e1, e2]
  push_cast
  ring

section
variable {E : Env} {t : TimeArg} {u : Series} {v : Option Series} {lat : Option ℝ} {opts : Dict PyVal}
  {c : Coef} {opt : Opt} {p : Prep} {tn : List Fl} {constit : Constit} {m : List ℂ} {W : List ℝ}
  {rf : Option RobOut} {full : Coef} {o : Order} {ind : List ℕ}

theorem prep_noRefs (hp : PrepOk E opt t u v lat tn constit p) (hinf : p.infer = none) :
    p.sel.refs = [] ∧ p.sel.nR = 0 ∧ p.sel.name = p.sel.nrName ∧ p.sel.nrName.length = p.sel.nNR ∧
      p.nm = 2 * p.sel.nNR + 1 + (if opt.notrend then 0 else 1) := by
  have h := hp.hsel
  rw [hinf] at h
  obtain ⟨-, -, h0, -⟩ := cnstitsel_none _ _ _ _ h
  have ha := hp.aligned
  refine ⟨h0, by rw [ha.nR, h0]; rfl, by rw [ha.names, h0]; simp, by rw [ha.nrName, List.length_map, ha.nNR], ?_⟩
  rw [hp.nm]
  unfold numCols
  rw [ha.nR, h0]
  cases opt.notrend <;> simp

theorem prep_two_le (hp : PrepOk E opt t u v lat tn constit p) (hinf : p.infer = none) :
    2 * p.sel.nNR ≤ p.nm := by
  rw [(prep_noRefs hp hinf).2.2.2.2]; omega

/-- The rows of the matrix. -/
theorem prep_row (hp : PrepOk E opt t u v lat tn constit p) (hinf : p.infer = none) (τ : ℝ) :
    rowAt p τ = p.sel.nrName.map (nameBasis opt.flags p.ed.tref p.lat τ) ++
      (p.sel.nrName.map (nameBasis opt.flags p.ed.tref p.lat τ)).map conj ++
      (1 :: if !opt.notrend then [(((τ - p.ed.tref) / p.ed.lor : ℝ) : ℂ)] else []) := by
  obtain ⟨h0, -, hn, -, -⟩ := prep_noRefs hp hinf
  have hb : rowNR p.opt.flags p.ed.tref p.lat p.sel τ = p.sel.nrName.map (nameBasis opt.flags p.ed.tref p.lat τ) := by
    have := selBasis_names hp.aligned opt.flags p.lat τ
    unfold selBasis at this
    rw [h0, hn] at this
    rw [hp.hopt]
    simpa using this
  unfold rowAt modelRow
  rw [hb, h0, hp.hopt]
  simp

theorem prep_B (hp : PrepOk E opt t u v lat tn constit p) : p.B = p.ed.t.map (rowAt p) := by
  rw [hp.B, ← hp.hopt]; rfl

theorem prep_paired (hp : PrepOk E opt t u v lat tn constit p) (hinf : p.infer = none) :
    Paired (designM p.nm p.B) (swapPerm p.sel.nNR p.nm (prep_two_le hp hinf)) := by
  refine paired_of_rows _ _ _ _ fun r hr => ?_
  rw [prep_B hp, List.mem_map] at hr
  obtain ⟨τ, -, rfl⟩ := hr
  refine ⟨_, _, prep_row hp hinf τ, by rw [List.length_map]; exact (prep_noRefs hp hinf).2.2.2.1, ?_⟩
  intro z hz
  rw [List.mem_cons] at hz
  rcases hz with rfl | hz
  · simp
  · split at hz
    · rw [List.mem_singleton] at hz; rw [hz]; simp
    · cases hz

theorem Facts.noRefs (F : Facts E t u v lat opts c opt p tn constit m W rf full o ind) (hinf : p.infer = none) :
    p.sel.refs = [] ∧ p.sel.nR = 0 ∧ p.sel.name = p.sel.nrName ∧ p.sel.nrName.length = p.sel.nNR ∧
      p.nm = 2 * p.sel.nNR + 1 + (if opt.notrend then 0 else 1) := prep_noRefs F.prep hinf

theorem Facts.two_le (F : Facts E t u v lat opts c opt p tn constit m W rf full o ind) (hinf : p.infer = none) :
    2 * p.sel.nNR ≤ p.nm := prep_two_le F.prep hinf

theorem Facts.row_eq (F : Facts E t u v lat opts c opt p tn constit m W rf full o ind) (hinf : p.infer = none) (τ : ℝ) :
    rowAt p τ = p.sel.nrName.map (nameBasis opt.flags p.ed.tref p.lat τ) ++
      (p.sel.nrName.map (nameBasis opt.flags p.ed.tref p.lat τ)).map conj ++
      (1 :: if !opt.notrend then [(((τ - p.ed.tref) / p.ed.lor : ℝ) : ℂ)] else []) := prep_row F.prep hinf τ

theorem Facts.B_eq (F : Facts E t u v lat opts c opt p tn constit m W rf full o ind) : p.B = p.ed.t.map (rowAt p) :=
  prep_B F.prep

theorem Facts.paired (F : Facts E t u v lat opts c opt p tn constit m W rf full o ind) (hinf : p.infer = none) :
    Paired (designM p.nm p.B) (swapPerm p.sel.nNR p.nm (F.two_le hinf)) := prep_paired F.prep hinf

/-- Unit weights for ordinary least squares. -/
theorem Facts.ones (F : Facts E t u v lat opts c opt p tn constit m W rf full o ind) (hols : opt.method = .ols) :
    W = p.B.map fun _ => 1 := by
  have hf := F.solved.fit
  unfold stageFit at hf
  rw [F.prep.hopt, hols] at hf
  have := (Prod.mk.inj (Prod.mk.inj (Except.ok.inj hf)).2).1
  rw [← this, F.B_eq, List.map_map]
  rfl

/-- If confidence intervals were computed, the columns are independent and there is a degree of freedom. -/
theorem Facts.full_rank (F : Facts E t u v lat opts c opt p tn constit m W rf full o ind) (R : Ready E t u v)
    (hI : InvOk E.num.inv) (hols : opt.method = .ols) (hci : opt.confInt = true) :
    IndepColumns p.nm p.B ∧ p.nm < p.B.length := by
  rcases F.solved.ci with ⟨h4, -⟩ | ⟨-, ci, hc, -⟩
  · rw [F.prep.hopt, hci] at h4; cases h4
  unfold confidence at hc
  simp only [bind_eq_ok] at hc
  obtain ⟨pw, -, GH, hGH, -⟩ := hc
  obtain ⟨h1, h2⟩ := covariances_ok hI (confIn p m W) (F.ones hols) F.prep.rows hGH
  refine ⟨h1, ?_⟩
  have h3 := cols_le_rows (gram_det p.nm p.B F.prep.rows h1)
  have h4 : p.B.length = (xraw p.ed).length := F.prep.height R.ht R.hu R.hv
  have h5 : (xraw p.ed).length ≠ p.nm := h2
  omega

/-- Independent columns: no constituent is fitted twice. -/
theorem Facts.nodup (F : Facts E t u v lat opts c opt p tn constit m W rf full o ind) (hinf : p.infer = none)
    (hi : IndepColumns p.nm p.B) : p.sel.name.Nodup := by
  obtain ⟨-, -, hn, hl, hnm⟩ := F.noRefs hinf
  rw [hn, List.nodup_iff_getElem?_ne_getElem?]
  intro i j hij hj heq
  have hi' : i < p.nm := by omega
  have hj' : j < p.nm := by omega
  have hz := hi (vadd (unitVec p.nm i) (vscale (-1) (unitVec p.nm j))) (by simp [unitVec]) (by
    intro r hr
    rw [dot_vadd _ _ _ (by simp [unitVec]), dot_vscale, dot_unit _ _ _ hi', dot_unit _ _ _ hj']
    rw [F.B_eq, List.mem_map] at hr
    obtain ⟨τ, -, rfl⟩ := hr
    have : (rowAt p τ).getD i 0 = (rowAt p τ).getD j 0 := by
      rw [F.row_eq hinf, List.append_assoc, List.getD_eq_getElem?_getD, List.getD_eq_getElem?_getD,
        List.getElem?_append_left (by rw [List.length_map]; omega), List.getElem?_append_left (by rw [List.length_map]; omega),
        List.getElem?_map, List.getElem?_map, heq]
    rw [this]; ring)
  have h1 := hz ((vadd (unitVec p.nm i) (vscale (-1) (unitVec p.nm j))).getD i 0) (by
    rw [List.getD_eq_getElem?_getD, List.getElem?_eq_getElem (by simp [unitVec, hi'])]
    exact List.getElem_mem _)
  rw [List.getD_eq_getElem?_getD, List.getElem?_eq_getElem (by simp [unitVec, hi'])] at h1
  simp only [vadd, vscale, unitVec, List.getElem_zipWith, List.getElem_map, List.getElem_range, Option.getD_some] at h1
  simp [hij.ne] at h1

/-! ## Real coefficient vectors and curves -/

theorem nameCoef_noRefs {sel : Sel} (h0 : sel.refs = []) (trend : Bool) (P M : String → ℂ) (mean slope : ℂ) :
    nameCoef sel trend P M mean slope =
      sel.nrName.map P ++ sel.nrName.map M ++ (mean :: if trend then [slope] else []) := by
  unfold nameCoef
  rw [h0]
  simp

/-- `f` gives the curve with parameters `q`. -/
structure Matches (c : Coef) (p : Prep) (f : Fin p.nm → ℂ) (q : CurvePar) : Prop where
  adm : Admissible c q
  par : ∀ (k : Fin p.nm) (n : String), p.sel.nrName[k.val]? = some n → q.X n = 2 * (f k).re ∧ q.Y n = -2 * (f k).im
  curve : ∀ j : Fin p.B.length, ∀ τ, p.ed.t[j.val]? = some τ → realCurve (designM p.nm p.B) f j = linCurve c q τ

theorem Facts.row_at (F : Facts E t u v lat opts c opt p tn constit m W rf full o ind) (j : Fin p.B.length) (τ : ℝ)
    (hj : p.ed.t[j.val]? = some τ) : p.B[j] = rowAt p τ := by
  have : ∀ i : ℕ, p.ed.t[i]? = some τ → p.B[i]? = some (rowAt p τ) := by
    intro i hi; rw [F.B_eq, List.getElem?_map, hi]; rfl
  exact (List.getElem?_eq_some_iff.1 (this _ hj)).2

theorem Facts.real_of_curve (F : Facts E t u v lat opts c opt p tn constit m W rf full o ind) (R : Ready E t u v)
    (hnd : opts.keys.Nodup) (hk : AllKept c) (hinf : p.infer = none) (q : CurvePar) (hq : Admissible c q) :
    ∃ f, RealCoef (swapPerm p.sel.nNR p.nm (F.two_le hinf)) f ∧ Matches c p f q := by
  obtain ⟨h0, -, hname, hlen, hnm⟩ := F.noRefs hinf
  have hT : ∀ (R : InfCon → ℂ) (P : String → ℂ), TiedBy p.sel R P := by
    intro R P r hr; rw [h0] at hr; cases hr
  have hs : opt.notrend = true → (q.slope : ℂ) = 0 := by
    intro h; rw [hq (by rw [F.copt]; exact h)]; simp
  obtain ⟨P, hP⟩ : ∃ P : String → ℂ, P = fun n => ⟨q.X n / 2, -(q.Y n) / 2⟩ := ⟨_, rfl⟩
  obtain ⟨l, hl⟩ : ∃ l, l = nameCoef p.sel (!opt.notrend) P (fun n => conj (P n)) q.mean ((q.slope : ℂ) * (p.ed.lor : ℂ)) :=
    ⟨_, rfl⟩
  have hll : l.length = p.nm := by rw [hl, F.prep.nm]; exact (nameCoef_blocks F.prep.aligned _ _ _ _ _).length
  obtain ⟨f, hf⟩ := exists_ofFn p.nm l hll
  have hget : ∀ i : Fin p.nm, f i = l.getD i 0 := by
    intro i; rw [hf, List.getD_eq_getElem?_getD, List.getElem?_ofFn]; simp
  have hl2 : l = p.sel.nrName.map P ++ (p.sel.nrName.map P).map conj ++
      ((q.mean : ℂ) :: if !opt.notrend then [(q.slope : ℂ) * (p.ed.lor : ℂ)] else []) := by
    rw [hl, nameCoef_noRefs h0, List.map_map]; rfl
  refine ⟨f, fun i => ?_, hq, fun k n hn => ?_, fun j τ hj => ?_⟩
  · rw [hget, hget, swapPerm_val, hl2]
    have := getD_paired (p.sel.nrName.map P)
      ((q.mean : ℂ) :: if !opt.notrend then [(q.slope : ℂ) * (p.ed.lor : ℂ)] else []) (by
        intro z hz
        rw [List.mem_cons] at hz
        rcases hz with rfl | hz
        · simp
        · split at hz
          · rw [List.mem_singleton] at hz; rw [hz]; simp
          · cases hz) i
    rw [List.length_map, hlen] at this
    rw [this]
  · have hk' : k.val < p.sel.nrName.length := (List.getElem?_eq_some_iff.1 hn).1
    have : f k = P n := by
      rw [hget, hl2, List.append_assoc, List.getD_eq_getElem?_getD,
        List.getElem?_append_left (by rw [List.length_map]; exact hk'), List.getElem?_map, hn]
      rfl
    rw [this, hP]
    constructor <;> dsimp only <;> ring
  · have hτ : τ ∈ p.ed.t := List.mem_of_getElem? hj
    have h1 := F.row_curve R hnd hk (by rw [hinf]; rfl) P (fun n => conj (P n)) q.mean q.slope (hT _ _) (hT _ _) hs τ hτ
    rw [rotary_lin c P _ _ _ (fun _ _ => rfl) (by simp) (by simp), ← hl, hf] at h1
    unfold realCurve
    rw [designM_mulVec p.nm p.B F.prep.rows]
    rw [F.row_at j τ hj, h1, Complex.ofReal_re]
    congr 1
    rw [hP]
    cases q
    simp only [CurvePar.mk.injEq, Complex.ofReal_re, and_true]
    constructor <;> funext n <;> ring

theorem Facts.curve_of_real (F : Facts E t u v lat opts c opt p tn constit m W rf full o ind) (R : Ready E t u v)
    (hnd : opts.keys.Nodup) (hk : AllKept c) (hinf : p.infer = none) (hi : IndepColumns p.nm p.B)
    (f : Fin p.nm → ℂ) (hf : RealCoef (swapPerm p.sel.nNR p.nm (F.two_le hinf)) f) : ∃ q, Matches c p f q := by
  obtain ⟨h0, -, hname, hlen, hnm⟩ := F.noRefs hinf
  have hnodup := F.nodup hinf hi
  obtain ⟨P, M, mean, slope, hP, hM, hs, hl⟩ := F.exists_coef hnodup (List.ofFn f) (by simp)
  have hl2 := hl
  rw [nameCoef_noRefs h0] at hl2
  have hget : ∀ i : Fin p.nm, (List.ofFn f)[i.val]? = some (f i) := by
    intro i; rw [List.getElem?_ofFn]; simp
  have hfP : ∀ (k : Fin p.nm) (n : String), p.sel.nrName[k.val]? = some n → f k = P n := by
    intro k n hn
    have hk' : k.val < p.sel.nrName.length := (List.getElem?_eq_some_iff.1 hn).1
    have := hget k
    rw [hl2, List.append_assoc, List.getElem?_append_left (by rw [List.length_map]; exact hk'), List.getElem?_map, hn] at this
    exact (Option.some.inj this).symm
  have hfM : ∀ (k : Fin p.nm) (n : String), p.sel.nrName[k.val]? = some n → M n = conj (P n) := by
    intro k n hn
    have hk' : k.val < p.sel.nrName.length := (List.getElem?_eq_some_iff.1 hn).1
    have := hget (swapPerm p.sel.nNR p.nm (F.two_le hinf) k)
    rw [hf k, hfP k n hn, swapPerm_val, hl2] at this
    rw [show swapIdx p.sel.nNR k.val = k.val + p.sel.nNR from if_pos (by omega), List.append_assoc, List.getElem?_append_right (by rw [List.length_map]; omega),
      List.getElem?_append_left (by rw [List.length_map, List.length_map]; omega), List.getElem?_map, List.length_map,
      show k.val + p.sel.nNR - p.sel.nrName.length = k.val by omega, hn] at this
    exact Option.some.inj this
  have hmean : mean.im = 0 := by
    have hlt : 2 * p.sel.nNR < p.nm := by omega
    have h1 := hget ⟨_, hlt⟩
    have h2 := hf ⟨_, hlt⟩
    have h3 : swapPerm p.sel.nNR p.nm (F.two_le hinf) ⟨_, hlt⟩ = ⟨2 * p.sel.nNR, hlt⟩ := by
      apply Fin.ext; rw [swapPerm_val]; unfold swapIdx; dsimp only; split_ifs <;> omega
    rw [h3] at h2
    rw [hl2, List.getElem?_append_right (by simp only [List.length_append, List.length_map]; omega)] at h1
    simp only [List.length_append, List.length_map, hlen] at h1
    rw [show 2 * p.sel.nNR - (p.sel.nNR + p.sel.nNR) = 0 by omega, List.getElem?_cons_zero] at h1
    rw [Option.some.inj h1]
    have := congrArg Complex.im h2
    rw [Complex.conj_im] at this
    linarith
  have hslope : slope.im = 0 := by
    cases hnt : opt.notrend with
    | true => rw [hs hnt]; rfl
    | false =>
      rw [hnt] at hnm hl2
      simp only [Bool.false_eq_true, if_false] at hnm
      have hlt : 2 * p.sel.nNR + 1 < p.nm := by omega
      have h1 := hget ⟨_, hlt⟩
      have h2 := hf ⟨_, hlt⟩
      have h3 : swapPerm p.sel.nNR p.nm (F.two_le hinf) ⟨_, hlt⟩ = ⟨2 * p.sel.nNR + 1, hlt⟩ := by
        apply Fin.ext; rw [swapPerm_val]; unfold swapIdx; dsimp only; split_ifs <;> omega
      rw [h3] at h2
      rw [hl2, List.getElem?_append_right (by simp only [List.length_append, List.length_map]; omega)] at h1
      simp only [List.length_append, List.length_map, hlen] at h1
      rw [show 2 * p.sel.nNR + 1 - (p.sel.nNR + p.sel.nNR) = 1 by omega, List.getElem?_cons_succ] at h1
      simp only [Bool.not_false, if_true, List.getElem?_cons_zero] at h1
      have h4 := congrArg Complex.im h2
      rw [Complex.conj_im, ← Option.some.inj h1, Complex.im_mul_ofReal] at h4
      have h5 := F.lorNonzero hnt
      have h6 : slope.im * p.ed.lor = 0 := by linarith
      exact (mul_eq_zero.1 h6).resolve_right h5
  have hMc : ∀ n ∈ c.name, M n = conj (P n) := by
    intro n hn
    have h1 : n ∈ p.sel.nrName := by rw [← hname]; exact (F.perm_names R hnd hk).mem_iff.1 hn
    obtain ⟨k, hk'⟩ := List.mem_iff_getElem?.1 h1
    have hklt : k < p.sel.nrName.length := (List.getElem?_eq_some_iff.1 hk').1
    exact hfM ⟨k, by omega⟩ n hk'
  refine ⟨⟨fun n => 2 * (P n).re, fun n => -2 * (P n).im, mean.re, slope.re⟩, fun h => ?_, fun k n hn => ?_,
    fun j τ hj => ?_⟩
  · dsimp only
    rw [hs (by rw [F.copt] at h; exact h)]; rfl
  · rw [hfP k n hn]; exact ⟨rfl, rfl⟩
  · have hτ : τ ∈ p.ed.t := List.mem_of_getElem? hj
    have h1 := F.row_curve R hnd hk (by rw [hinf]; rfl) P M mean slope hP hM hs τ hτ
    rw [rotary_lin c P M _ _ hMc hmean hslope, ← hl] at h1
    unfold realCurve
    rw [designM_mulVec p.nm p.B F.prep.rows]
    rw [F.row_at j τ hj, h1, Complex.ofReal_re]

/-! ## Estimators -/

theorem Facts.t_length (F : Facts E t u v lat opts c opt p tn constit m W rf full o ind) :
    p.ed.t.length = p.B.length := by rw [F.B_eq, List.length_map]

/-- A curve at the sample times. -/
theorem Facts.times_curve (F : Facts E t u v lat opts c opt p tn constit m W rf full o ind) {f : Fin p.nm → ℂ}
    {q : CurvePar} (h : Matches c p f q) :
    p.ed.t.map (linCurve c q) = List.ofFn (realCurve (designM p.nm p.B) f) := by
  apply List.ext_getElem
  · rw [List.length_map, F.t_length]; simp
  · intro i h1 h2
    rw [List.length_map] at h1
    rw [List.getElem_map, List.getElem_ofFn]
    exact (h.curve _ _ (List.getElem?_eq_getElem h1)).symm

theorem Facts.blue_cos (F : Facts E t u v lat opts c opt p tn constit m W rf full o ind) (R : Ready E t u v)
    (hnd : opts.keys.Nodup) (hk : AllKept c) (hinf : p.infer = none) (hi : IndepColumns p.nm p.B)
    (k : Fin p.nm) (n : String) (hn : p.sel.nrName[k.val]? = some n) :
    Blue c p.ed.t (fun q => q.X n) (List.ofFn (cosForm (designM p.nm p.B) k)) := by
  have hd := gram_det p.nm p.B F.prep.rows hi
  refine ⟨by simp [F.t_length], fun q hq => ?_, fun a' hl ha => ?_⟩
  · obtain ⟨f, hf, hm⟩ := F.real_of_curve R hnd hk hinf q hq
    rw [F.times_curve hm, combine_fin, (F.paired hinf).cos_unbiased hd hf, (hm.par k n hn).1]
  · obtain ⟨a, rfl⟩ := exists_ofFn p.B.length a' (by rw [hl, F.t_length])
    rw [sumSq_fin, sumSq_fin]
    refine (F.paired hinf).cos_best hd k a fun f hf => ?_
    obtain ⟨q, hm⟩ := F.curve_of_real R hnd hk hinf hi f hf
    have := ha q hm.adm
    rwa [F.times_curve hm, combine_fin, (hm.par k n hn).1] at this

theorem Facts.blue_sin (F : Facts E t u v lat opts c opt p tn constit m W rf full o ind) (R : Ready E t u v)
    (hnd : opts.keys.Nodup) (hk : AllKept c) (hinf : p.infer = none) (hi : IndepColumns p.nm p.B)
    (k : Fin p.nm) (n : String) (hn : p.sel.nrName[k.val]? = some n) :
    Blue c p.ed.t (fun q => q.Y n) (List.ofFn (sinForm (designM p.nm p.B) k)) := by
  have hd := gram_det p.nm p.B F.prep.rows hi
  refine ⟨by simp [F.t_length], fun q hq => ?_, fun a' hl ha => ?_⟩
  · obtain ⟨f, hf, hm⟩ := F.real_of_curve R hnd hk hinf q hq
    rw [F.times_curve hm, combine_fin, (F.paired hinf).sin_unbiased hd hf, (hm.par k n hn).2]
  · obtain ⟨a, rfl⟩ := exists_ofFn p.B.length a' (by rw [hl, F.t_length])
    rw [sumSq_fin, sumSq_fin]
    refine (F.paired hinf).sin_best hd k a fun f hf => ?_
    obtain ⟨q, hm⟩ := F.curve_of_real R hnd hk hinf hi f hf
    have := ha q hm.adm
    rwa [F.times_curve hm, combine_fin, (hm.par k n hn).2] at this

theorem Facts.numPar_eq (F : Facts E t u v lat opts c opt p tn constit m W rf full o ind) (R : Ready E t u v)
    (hnd : opts.keys.Nodup) (hk : AllKept c) (hinf : p.infer = none) : numPar c = p.nm := by
  obtain ⟨-, -, hname, hlen, hnm⟩ := F.noRefs hinf
  unfold numPar
  rw [(F.perm_names R hnd hk).length_eq, hname, hlen, hnm, F.copt]

theorem Facts.noise (F : Facts E t u v lat opts c opt p tn constit m W rf full o ind) (R : Ready E t u v)
    (hnd : opts.keys.Nodup) (hk : AllKept c) (hinf : p.infer = none) (hi : IndepColumns p.nm p.B)
    (hlt : p.nm < p.B.length) (y : Fin p.B.length → ℝ) :
    NoiseVariance c p.ed.t (List.ofFn y)
      ((∑ j, gramRes (designM p.nm p.B) y j ^ 2) / ((p.B.length : ℝ) - p.nm)) := by
  have hd := gram_det p.nm p.B F.prep.rows hi
  have hP := F.paired hinf
  refine ⟨by rw [F.numPar_eq R hnd hk hinf, F.t_length]; exact hlt, _, ⟨?_, ?_⟩, by
    rw [F.numPar_eq R hnd hk hinf, F.t_length]⟩
  · obtain ⟨h1, h2⟩ := hP.fitted_curve y
    obtain ⟨q, hm⟩ := F.curve_of_real R hnd hk hinf hi _ h1
    refine ⟨q, hm.adm, ?_⟩
    rw [F.times_curve hm, sub_fin, sumSq_fin]
    refine Finset.sum_congr rfl fun j _ => ?_
    rw [← h2]; rfl
  · rintro r ⟨q, hq, rfl⟩
    obtain ⟨f, hf, hm⟩ := F.real_of_curve R hnd hk hinf q hq
    rw [F.times_curve hm, sub_fin, sumSq_fin]
    exact hP.least_squares hd y hf

/-! ## The solution in terms of the estimators -/

theorem split_mulVec {n k : ℕ} (S : Matrix (Fin k) (Fin n) ℂ) (x : Fin n → ℂ) (i : Fin k) :
    ((S *ᵥ x) i).re = ∑ j, ((S i j).re * (x j).re - (S i j).im * (x j).im) ∧
    ((S *ᵥ x) i).im = ∑ j, ((S i j).re * (x j).im + (S i j).im * (x j).re) := by
  simp only [mulVec, dotProduct, Complex.re_sum, Complex.im_sum, Complex.mul_re, Complex.mul_im,
    and_self]

theorem combine_zero : ∀ a y : List ℝ, sumSq a = 0 → combine a y = 0
  | [], y, _ => by simp [combine]
  | x :: a, [], _ => by simp [combine]
  | x :: a, z :: y, h => by
    have h1 : x ^ 2 + sumSq a = 0 := h
    have h2 := sumSq_nonneg a
    have h3 := sq_nonneg x
    have h4 : x = 0 := pow_eq_zero_iff (two_ne_zero) |>.1 (by linarith)
    show x * z + combine a y = 0
    rw [h4, combine_zero a y (by linarith)]
    ring

/-- The estimator of a coefficient is not zero. -/
theorem Blue.sumSq_pos {τ : List ℝ} {par : CurvePar → ℝ} {a : List ℝ} (h : Blue c τ par a) (q : CurvePar)
    (hq : Admissible c q) (h1 : par q = 1) : 0 < sumSq a := by
  rcases (sumSq_nonneg a).lt_or_eq with h2 | h2
  · exact h2
  · have := h.unbiased q hq
    rw [combine_zero _ _ h2.symm, h1] at this
    norm_num at this


/-- The curve of least squares and its residuals. -/
theorem Facts.bestFit (F : Facts E t u v lat opts c opt p tn constit m W rf full o ind) (R : Ready E t u v)
    (hnd : opts.keys.Nodup) (hk : AllKept c) (hinf : p.infer = none) (hi : IndepColumns p.nm p.B)
    (y : Fin p.B.length → ℝ) :
    ∃ q, BestFit c p.ed.t (List.ofFn y) q ∧
      residuals c p.ed.t (List.ofFn y) q = List.ofFn (gramRes (designM p.nm p.B) y) ∧
      ∀ (k : Fin p.nm) (n : String), p.sel.nrName[k.val]? = some n →
        q.X n = ∑ j, cosForm (designM p.nm p.B) k j * y j ∧ q.Y n = ∑ j, sinForm (designM p.nm p.B) k j * y j := by
  have hd := gram_det p.nm p.B F.prep.rows hi
  have hP := F.paired hinf
  obtain ⟨h1, h2⟩ := hP.fitted_curve y
  obtain ⟨q, hm⟩ := F.curve_of_real R hnd hk hinf hi _ h1
  have h3 : residuals c p.ed.t (List.ofFn y) q = List.ofFn (gramRes (designM p.nm p.B) y) := by
    unfold residuals
    rw [F.times_curve hm, sub_fin]
    congr 1
    funext j
    rw [← h2]; rfl
  refine ⟨q, ⟨hm.adm, fun q' hq' => ?_⟩, h3, fun k n hn => ?_⟩
  · rw [h3]
    obtain ⟨f, hf, hm'⟩ := F.real_of_curve R hnd hk hinf q' hq'
    unfold residuals
    rw [F.times_curve hm', sub_fin, sumSq_fin, sumSq_fin]
    exact hP.least_squares hd y hf
  · obtain ⟨e1, e2⟩ := hm.par k n hn
    obtain ⟨s1, s2⟩ := split_mulVec (solver (designM p.nm p.B)) (fun j => (y j : ℂ)) k
    rw [e1, e2, s1, s2, Finset.mul_sum, Finset.mul_sum]
    constructor
    · refine Finset.sum_congr rfl fun j _ => ?_
      simp [cosForm]; ring
    · refine Finset.sum_congr rfl fun j _ => ?_
      simp [sinForm]; ring

/-- Cosine and sine coefficients from a pair of solution components. -/
theorem pair_coefs {n k : ℕ} {D : Matrix (Fin n) (Fin k) ℂ} {σ : Equiv.Perm (Fin k)} (h : Paired D σ) (x : Fin n → ℂ)
    (i : Fin k) :
    ((solver D *ᵥ x) i + (solver D *ᵥ x) (σ i)).re = ∑ j, cosForm D i j * (x j).re ∧
    -((solver D *ᵥ x) i - (solver D *ᵥ x) (σ i)).im = ∑ j, sinForm D i j * (x j).re ∧
    ((solver D *ᵥ x) i + (solver D *ᵥ x) (σ i)).im = ∑ j, cosForm D i j * (x j).im ∧
    ((solver D *ᵥ x) i - (solver D *ᵥ x) (σ i)).re = ∑ j, sinForm D i j * (x j).im := by
  obtain ⟨a1, a2⟩ := split_mulVec (solver D) x i
  obtain ⟨b1, b2⟩ := split_mulVec (solver D) x (σ i)
  simp only [h.solver, Complex.conj_re, Complex.conj_im] at b1 b2
  rw [Complex.add_re, Complex.sub_im, Complex.add_im, Complex.sub_re, a1, a2, b1, b2]
  simp only [← Finset.sum_add_distrib, ← Finset.sum_sub_distrib, ← Finset.sum_neg_distrib]
  refine ⟨Finset.sum_congr rfl fun j _ => ?_, Finset.sum_congr rfl fun j _ => ?_, Finset.sum_congr rfl fun j _ => ?_,
    Finset.sum_congr rfl fun j _ => ?_⟩
  all_goals
    simp only [cosForm, sinForm]
    ring

/-- The data as a function on the rows. -/
theorem Facts.data (F : Facts E t u v lat opts c opt p tn constit m W rf full o ind) (R : Ready E t u v) :
    ∃ x : Fin p.B.length → ℂ, xraw p.ed = List.ofFn x :=
  exists_ofFn _ _ (F.prep.height R.ht R.hu R.hv).symm

theorem Facts.solution (F : Facts E t u v lat opts c opt p tn constit m W rf full o ind) (R : Ready E t u v)
    (hols : opt.method = .ols) (hi : IndepColumns p.nm p.B) (x : Fin p.B.length → ℂ) (hx : xraw p.ed = List.ofFn x) :
    m = List.ofFn (solver (designM p.nm p.B) *ᵥ x) := by
  have := F.minNorm R hols
  rw [hx] at this
  exact minNorm_solver _ _ F.prep.rows hi x m this

/-- Position `k` of the two coefficient arrays. -/
theorem Facts.ap_get (F : Facts E t u v lat opts c opt p tn constit m W rf full o ind) (hinf : p.infer = none)
    (f : Fin p.nm → ℂ) (hm : m = List.ofFn f) (k : Fin p.nm) (hk : k.val < p.sel.nNR) :
    (apOf p.sel m)[k.val]? = some (f k) ∧
    (amOf p.sel m)[k.val]? = some (f (swapPerm p.sel.nNR p.nm (F.two_le hinf) k)) := by
  obtain ⟨-, hnR, -, -, hnm⟩ := F.noRefs hinf
  unfold apOf amOf
  rw [hnR, List.take_zero, List.take_zero, List.append_nil, List.append_nil]
  have h0 : ∀ i : Fin p.nm, m[i.val]? = some (f i) := by
    intro i; rw [hm, List.getElem?_ofFn]; simp
  constructor
  · rw [List.getElem?_take_of_lt hk, h0]
  · rw [List.getElem?_take_of_lt hk, List.getElem?_drop]
    have e : p.sel.nNR + k.val = (swapPerm p.sel.nNR p.nm (F.two_le hinf) k).val := by
      rw [swapPerm_val]; unfold swapIdx; rw [if_pos hk, add_comm]
    rw [e, h0]

theorem Facts.td (F : Facts E t u v lat opts c opt p tn constit m W rf full o ind) (hnd : opts.keys.Nodup) :
    p.opt.twodim = v.isSome := by
  rw [F.prep.hopt]; exact (getOpt_requests opts hnd _ _ F.hopt).twodim

theorem Facts.scalar_im (F : Facts E t u v lat opts c opt p tn constit m W rf full o ind) (R : Ready E t u v)
    (hv : v = none) (x : Fin p.B.length → ℂ) (hx : xraw p.ed = List.ofFn x) (j : Fin p.B.length) : (x j).im = 0 := by
  have h := (F.samples R).2.2
  rw [hx] at h
  have h1 : x j ∈ List.ofFn x := by rw [List.mem_ofFn]; exact ⟨j, rfl⟩
  rw [h, hv] at h1
  simp only [Option.map_none, usable, List.mem_map] at h1
  obtain ⟨s, ⟨q, -, rfl⟩, hq⟩ := h1
  rw [← hq]
  simp

/-- Data and fitted values. -/
theorem Facts.split (F : Facts E t u v lat opts c opt p tn constit m W rf full o ind) (R : Ready E t u v)
    (hnd : opts.keys.Nodup) (hinf : p.infer = none) (x : Fin p.B.length → ℂ) (hx : xraw p.ed = List.ofFn x)
    (hm : m = List.ofFn (solver (designM p.nm p.B) *ᵥ x)) :
    Split (confIn p m W) (fun j => (x j).re) (fun j => (x j).im) := by
  have hP := F.paired hinf
  refine ⟨?_, ?_⟩
  · show xraw p.ed = _
    exact hx
  · show xmodOf p.opt.twodim p.B m = _
    have h1 : ∀ j : Fin p.B.length, dot p.B[j] m =
        ⟨fitted (designM p.nm p.B) (fun j => (x j).re) j, fitted (designM p.nm p.B) (fun j => (x j).im) j⟩ := by
      intro j
      rw [hm, ← designM_mulVec p.nm p.B F.prep.rows, Matrix.mulVec_mulVec]
      show (hat (designM p.nm p.B) *ᵥ x) j = _
      obtain ⟨a, b⟩ := split_mulVec (hat (designM p.nm p.B)) x j
      apply Complex.ext
      · rw [a]
        refine Finset.sum_congr rfl fun l _ => ?_
        rw [hP.hat_real]; simp
      · rw [b]
        refine Finset.sum_congr rfl fun l _ => ?_
        rw [hP.hat_real]; simp
    have h2 : ∀ j : Fin p.B.length, (if p.opt.twodim = true then dot p.B[j] m else (((dot p.B[j] m).re : ℝ) : ℂ)) =
        ⟨fitted (designM p.nm p.B) (fun j => (x j).re) j, fitted (designM p.nm p.B) (fun j => (x j).im) j⟩ := by
      intro j
      rw [h1]
      by_cases htd : p.opt.twodim = true
      · rw [if_pos htd]
      · rw [if_neg htd]
        have hv : v = none := by
          rw [F.td hnd] at htd
          cases v with
          | none => rfl
          | some w => exact absurd rfl htd
        have h3 : fitted (designM p.nm p.B) (fun j => (x j).im) j = 0 := by
          unfold fitted
          simp only [F.scalar_im R hv x hx, mul_zero, Finset.sum_const_zero]
        apply Complex.ext <;> simp [h3]
    unfold xmodOf
    apply List.ext_getElem
    · simp [confIn]
    · intro i h3 h4
      rw [List.getElem_map, List.getElem_ofFn]
      exact h2 ⟨i, by simpa using h3⟩

theorem mapM_getElem? {α β : Type} (f : α → Except PyErr β) (l : List α) (r : List β) (h : l.mapM f = .ok r) (i : ℕ)
    (a : α) (ha : l[i]? = some a) : ∃ b, r[i]? = some b ∧ f a = .ok b := by
  rw [mapM_ok] at h
  induction h generalizing i with
  | nil => cases ha
  | cons h1 _ ih =>
    cases i with
    | zero =>
      simp only [List.getElem?_cons_zero, Option.some.injEq] at ha ⊢
      subst ha
      exact ⟨_, rfl, h1⟩
    | succ i => simpa using ih i (by simpa using ha)

/-- Power assigned to the constituent at position `k`, if the noise is coloured. -/
def powerRow (pw : Option Power) (sel : Power → List Fl) (k : ℕ) : Option Fl := pw.bind fun w => (sel w)[k]?

theorem power_row (pw : Option Power) (sl : Power → List Fl) (k : ℕ) (pu : Option Fl)
    (h : (match pw with | none => .ok none | some p => (getIdx (sl p) k).map some) = (.ok pu : Except PyErr _)) :
    pu = powerRow pw sl k := by
  cases pw with
  | none => exact (Except.ok.inj h).symm
  | some w =>
    unfold powerRow
    simp only [getIdx, Option.bind_some] at h ⊢
    cases hq : (sl w)[k]? with
    | none => rw [hq] at h; cases h
    | some y => rw [hq] at h; exact (Except.ok.inj h).symm

/-- Interval and ellipse of the constituent at position `k` of the selection. -/
theorem Facts.ciRow (F : Facts E t u v lat opts c opt p tn constit m W rf full o ind) (R : Ready E t u v)
    (hI : InvOk E.num.inv) (hnd : opts.keys.Nodup) (hols : opt.method = .ols) (hci : opt.confInt = true)
    (hlin : opt.linci = true) (hinf : p.infer = none) (x : Fin p.B.length → ℂ) (hx : xraw p.ed = List.ofFn x) :
    ∃ ci pw, full.ci = some ci ∧ (opt.white = true → pw = none) ∧
      (opt.white = false → ∃ w, pw = some w ∧ residualPower E.num p.ed (confIn p m W).e p.sel.frq = .ok w) ∧
      ∀ (k : Fin p.nm), k.val < p.sel.nNR →
        let D := designM p.nm p.B
        let s2u := (∑ j, gramRes D (fun j => (x j).re) j ^ 2) / ((p.B.length : ℝ) - p.nm)
        let s2v := (∑ j, gramRes D (fun j => (x j).im) j ^ 2) / ((p.B.length : ℝ) - p.nm)
        let Xu := ∑ j, cosForm D k j * (x j).re
        let Yu := ∑ j, sinForm D k j * (x j).re
        let Xv := ∑ j, cosForm D k j * (x j).im
        let Yv := ∑ j, sinForm D k j * (x j).im
        let vc := ∑ j, cosForm D k j ^ 2
        let vs := ∑ j, sinForm D k j ^ 2
        ellipseAt full.ell k = some (if v.isSome then cs2cep2 Xu Yu Xv Yv else cs2cep1 Xu Yu) ∧
        intervalAt ci k = some (if v.isSome then
          (linear2 (powerRow pw Power.Pvv k) Xu Yu Xv Yv (s2u * vc) (s2u * vs) (s2v * vc) (s2v * vs)).1
          else (linear1 (powerRow pw Power.Puu k) Xu Yu (s2u * vc) (s2u * vs)).1) := by
  obtain ⟨hi, hlt⟩ := F.full_rank R hI hols hci
  have hd := gram_det p.nm p.B F.prep.rows hi
  have hP := F.paired hinf
  have hm := F.solution R hols hi x hx
  have hS := F.split R hnd hinf x hx hm
  obtain ⟨hrefs, hnR, hname, hlen, hnm⟩ := F.noRefs hinf
  rcases F.solved.ci with ⟨h4, -⟩ | ⟨-, ci, hc, hfull⟩
  · rw [F.prep.hopt, hci] at h4; cases h4
  have hxl : (xraw p.ed).length = p.B.length := (F.prep.height R.ht R.hu R.hv).symm
  have hcov := covariances_total hI (confIn p m W) (F.ones hols) F.prep.rows hi _ hP (by
    show (xraw p.ed).length ≠ p.nm; omega)
  unfold confidence at hc
  simp only [bind_eq_ok, pure_eq_ok, Except.ok.injEq] at hc
  obtain ⟨pw, hpw, GH, hGH, rows, hrows, inf, hinf', hpack⟩ := hc
  rw [hcov] at hGH
  obtain ⟨G, H⟩ := GH
  obtain ⟨hG, hH⟩ := Prod.mk.inj (Except.ok.inj hGH)
  have hml : m.length = numCols (!opt.notrend) p.sel := by rw [F.mlen, F.prep.nm]
  obtain ⟨a1, a2⟩ := apOf_length _ m hml
  have hXl : (confIn p m W).Xu.length = p.sel.nNR := by simp [confIn, a1, a2, hnR]
  refine ⟨ci, pw, hfull, ?_, ?_, ?_⟩
  · intro hw
    have : (confIn p m W).white = true := by show p.opt.white = true; rw [F.prep.hopt, hw]
    rw [this, if_pos rfl] at hpw
    exact (Except.ok.inj hpw).symm
  · intro hw
    have : (confIn p m W).white = false := by show p.opt.white = false; rw [F.prep.hopt, hw]
    rw [this, if_neg (by simp)] at hpw
    cases hr : residualPower E.num (confIn p m W).ed (confIn p m W).e (confIn p m W).frq with
    | error e => rw [hr] at hpw; cases hpw
    | ok w => rw [hr] at hpw; exact ⟨w, (Except.ok.inj hpw).symm, hr⟩
  · intro k hk
    dsimp only
    obtain ⟨g1, g2⟩ := F.ap_get hinf _ hm k hk
    obtain ⟨c1, c2, c3, c4⟩ := pair_coefs hP x k
    obtain ⟨v1, v2, v3, v4⟩ := vars_eq hS (F.ones hols) hP hd k G H hG.symm hH.symm
    have hbd : (swapPerm p.sel.nNR p.nm (F.two_le hinf) k).val = k.val + p.sel.nNR := by
      rw [swapPerm_val]; exact if_pos hk
    have hbG := block_ok (nm := p.nm) G p.sel.nNR k _ hbd
    have hbH := block_ok (nm := p.nm) H p.sel.nNR k _ hbd
    have hXu : (confIn p m W).Xu[k.val]? = some (∑ j, cosForm (designM p.nm p.B) k j * (x j).re) := by
      show (List.zipWith _ _ _)[k.val]? = _
      rw [List.getElem?_zipWith, g1, g2, ← c1]
    have hYu : (confIn p m W).Yu[k.val]? = some (∑ j, sinForm (designM p.nm p.B) k j * (x j).re) := by
      show (List.zipWith _ _ _)[k.val]? = _
      rw [List.getElem?_zipWith, g1, g2, ← c2]
    have htd := F.td hnd
    have hrefl : allAp p.sel m = apOf p.sel m ∧ allAm p.sel m = amOf p.sel m := by
      unfold allAp allAm inferredCoef; rw [hrefs]; simp
    constructor
    · rw [F.solved.ell, hrefl.1, hrefl.2, htd]
      unfold ellOf
      cases v with
      | none =>
        simp only [Option.isSome_none, Bool.false_eq_true, if_false, ellipseAt, List.getElem?_map,
          List.getElem?_zipWith, g1, g2, Option.map_some, Option.bind_some, ell1, c1, c2]
        rfl
      | some w =>
        simp only [Option.isSome_some, if_true, ellipseAt, List.getElem?_map,
          List.getElem?_zipWith, g1, g2, Option.map_some, Option.bind_some, ell2, c1, c2, c3, c4]
    · obtain ⟨row, hrow1, hrow2⟩ := mapM_getElem? _ _ _ hrows k.val k.val (by
        rw [List.getElem?_range (by rw [hXl]; exact hk)])
      have hrow : intervalAt ci k.val = some (if v.isSome then row.1 else ⟨row.1.maj, .fin 0, .fin 0, row.1.g⟩) := by
        have hl : (rows.map Prod.fst ++ inf)[k.val]? = some row.1 := by
          rw [List.getElem?_append_left (by rw [List.length_map]; exact (List.getElem?_eq_some_iff.1 hrow1).1),
            List.getElem?_map, hrow1]; rfl
        rw [← hpack]
        have : (confIn p m W).twodim = v.isSome := htd
        rw [this]
        unfold packCi
        cases v with
        | none =>
          simp only [Option.isSome_none, Bool.false_eq_true, if_false, intervalAt, List.getElem?_map, hl,
            Option.map_some, Option.bind_some]
        | some w =>
          simp only [Option.isSome_some, if_true, intervalAt, List.getElem?_map, hl, Option.map_some, Option.bind_some]
      rw [hrow]
      congr 1
      unfold ciOne at hrow2
      simp only [bind_eq_ok, getIdx_ok] at hrow2
      obtain ⟨G', hG', H', hH', Xu, hXu', Yu, hYu', g, hg, pu, hpu, hrow2⟩ := hrow2
      rw [hXl] at hG' hH'
      have eG := Except.ok.inj (hbG.symm.trans hG')
      have eH := Except.ok.inj (hbH.symm.trans hH')
      have eXu := Option.some.inj (hXu.symm.trans hXu')
      have eYu := Option.some.inj (hYu.symm.trans hYu')
      have hlin' : (confIn p m W).linci = true := by show p.opt.linci = true; rw [F.prep.hopt, hlin]
      have htd' : (confIn p m W).twodim = v.isSome := htd
      rw [htd', hlin'] at hrow2
      have hms : resMS (confIn p m W) (fun j => (x j).re) =
          (∑ j, gramRes (designM p.nm p.B) (fun j => (x j).re) j ^ 2) / ((p.B.length : ℝ) - p.nm) := by
        show _ / ((((xraw p.ed).length : ℕ) : ℝ) - _) = _
        rw [hxl]; rfl
      have hmsv : resMS (confIn p m W) (fun j => (x j).im) =
          (∑ j, gramRes (designM p.nm p.B) (fun j => (x j).im) j ^ 2) / ((p.B.length : ℝ) - p.nm) := by
        show _ / ((((xraw p.ed).length : ℕ) : ℝ) - _) = _
        rw [hxl]; rfl
      rw [hms] at v1 v2
      rw [hmsv] at v3 v4
      cases v with
      | none =>
        simp only [Option.isSome_none, Bool.false_eq_true, if_false, if_true, pure_eq_ok, Except.ok.injEq] at hrow2 ⊢
        rw [← hrow2, ← eG, ← eH, ← eXu, ← eYu, power_row pw Power.Puu _ _ hpu]
        erw [v1, v2]
        rfl
      | some w =>
        simp only [Option.isSome_some, if_true, pure_eq_ok, Except.ok.injEq, bind_eq_ok, getIdx_ok] at hrow2 ⊢
        obtain ⟨Xv, hXv, Yv, hYv, pv, hpv, hrow2⟩ := hrow2
        have htd2 : p.opt.twodim = true := htd
        have eXv : Xv = ∑ j, cosForm (designM p.nm p.B) k j * (x j).im := by
          have : (confIn p m W).Xv[k.val]? = some (∑ j, cosForm (designM p.nm p.B) k j * (x j).im) := by
            show (if p.opt.twodim then List.zipWith _ _ _ else [])[k.val]? = _
            rw [if_pos htd2, List.getElem?_zipWith, g1, g2, ← c3]
          exact Option.some.inj (hXv.symm.trans this)
        have eYv : Yv = ∑ j, sinForm (designM p.nm p.B) k j * (x j).im := by
          have : (confIn p m W).Yv[k.val]? = some (∑ j, sinForm (designM p.nm p.B) k j * (x j).im) := by
            show (if p.opt.twodim then List.zipWith _ _ _ else [])[k.val]? = _
            rw [if_pos htd2, List.getElem?_zipWith, g1, g2, ← c4]
          exact Option.some.inj (hYv.symm.trans this)
        rw [← hrow2, ← eG, ← eH, ← eXu, ← eYu, power_row pw Power.Pvv _ _ hpv, eXv, eYv]
        erw [v1, v2, v3, v4]
        rfl

theorem ellipseAt_permute {n : ℕ} {e : EllArr} (h : e.Len n) (ind : List ℕ) (hi : ∀ i ∈ ind, i < n) (i : ℕ) :
    ellipseAt (e.permute ind) i = ind[i]?.bind (ellipseAt e) := by
  cases e with
  | one A g =>
    obtain ⟨h1, h2⟩ := h
    simp only [EllArr.permute, ellipseAt]
    rw [gather_getElem? _ _ (by rw [h1]; exact hi), gather_getElem? _ _ (by rw [h2]; exact hi)]
    cases ind[i]? <;> rfl
  | two M m th g =>
    obtain ⟨h1, h2, h3, h4⟩ := h
    simp only [EllArr.permute, ellipseAt]
    rw [gather_getElem? _ _ (by rw [h1]; exact hi), gather_getElem? _ _ (by rw [h2]; exact hi),
      gather_getElem? _ _ (by rw [h3]; exact hi), gather_getElem? _ _ (by rw [h4]; exact hi)]
    cases ind[i]? <;> rfl

theorem intervalAt_permute {n : ℕ} {e : CiArr} (h : e.Len n) (ind : List ℕ) (hi : ∀ i ∈ ind, i < n) (i : ℕ) :
    intervalAt (e.permute ind) i = ind[i]?.bind (intervalAt e) := by
  cases e with
  | one A g =>
    obtain ⟨h1, h2⟩ := h
    simp only [CiArr.permute, intervalAt]
    rw [gather_getElem? _ _ (by rw [h1]; exact hi), gather_getElem? _ _ (by rw [h2]; exact hi)]
    cases ind[i]? <;> rfl
  | two M m th g =>
    obtain ⟨h1, h2, h3, h4⟩ := h
    simp only [CiArr.permute, intervalAt]
    rw [gather_getElem? _ _ (by rw [h1]; exact hi), gather_getElem? _ _ (by rw [h2]; exact hi),
      gather_getElem? _ _ (by rw [h3]; exact hi), gather_getElem? _ _ (by rw [h4]; exact hi)]
    cases ind[i]? <;> rfl

/-- Reading a position of the result in the order of the selection. -/
theorem Facts.position (F : Facts E t u v lat opts c opt p tn constit m W rf full o ind) (hinf : p.infer = none)
    (ci : CiArr) (hci : full.ci = some ci) (i : ℕ) (n : String) (hn : c.name[i]? = some n) :
    ∃ k : Fin p.nm, k.val < p.sel.nNR ∧ p.sel.nrName[k.val]? = some n ∧ ind[i]? = some k.val ∧
      ellipseAt c.ell i = ellipseAt full.ell k ∧ ∃ ci', c.ci = some ci' ∧ intervalAt ci' i = intervalAt ci k := by
  obtain ⟨hrefs, hnR, hname, hlen, hnm⟩ := F.noRefs hinf
  have hc := F.solved.result
  have hn' : (gather full.name ind)[i]? = some n := by rw [← hn, hc]; rfl
  rw [gather_getElem? _ _ (by rw [F.len.name]; exact F.lt)] at hn'
  cases hk : ind[i]? with
  | none => rw [hk] at hn'; cases hn'
  | some k =>
    rw [hk, Option.bind_some, F.solved.name, hname] at hn'
    have hkl : k < p.sel.nNR := by
      rw [← hlen]; exact (List.getElem?_eq_some_iff.1 hn').1
    have h2 := F.two_le hinf
    refine ⟨⟨k, by omega⟩, hkl, hn', by rfl, ?_, ci.permute ind, ?_, ?_⟩
    · rw [hc]
      show ellipseAt (full.ell.permute ind) i = _
      rw [ellipseAt_permute F.len.ell ind F.lt, hk]; rfl
    · rw [hc]
      show full.ci.map _ = _
      rw [hci]; rfl
    · rw [intervalAt_permute (F.solved.ciLen F.prep F.mlen ci hci) ind F.lt, hk]; rfl

end

/-! ## C70 -/

/-- Sample times and data entering the fit. -/
def sampleTimes (tn : List Fl) (u : Series) (v : Option Series) : List ℝ :=
  (usable tn u.data (v.map Series.data)).map Prod.fst
def sampleU (tn : List Fl) (u : Series) (v : Option Series) : List ℝ :=
  (usable tn u.data (v.map Series.data)).map fun s => s.2.re
def sampleV (tn : List Fl) (u : Series) (v : Option Series) : List ℝ :=
  (usable tn u.data (v.map Series.data)).map fun s => s.2.im

/-- The run of C70: ordinary least squares without inference, linearised intervals with a white noise floor. -/
structure WhiteRun (E : Env) (t : TimeArg) (u : Series) (v : Option Series) (lat : Option ℝ) (opts : Dict PyVal)
    (c : Coef) (tn : List Fl) : Prop where
  returned : solve E t u v lat opts = .ok c
  keys : opts.keys.Nodup
  ols : ∃ x, requested opts "method" = some x ∧ IsStr x "ols"
  infer : readInfer c.opt.infer = .ok none
  ci : c.opt.confInt = true
  linear : c.opt.linci = true
  white : c.opt.white = true
  kept : AllKept c
  time : normalizeTime E.dt64 t.arr c.opt.epoch = .ok tn

theorem white_facts {E : Env} {t : TimeArg} {u : Series} {v : Option Series} {lat : Option ℝ} {opts : Dict PyVal}
    {c : Coef} {tn : List Fl} (R : Ready E t u v) (hI : InvOk E.num.inv) (H : WhiteRun E t u v lat opts c tn) :
    ∃ ci qu qv, c.ci = some ci ∧ BestFit c (sampleTimes tn u v) (sampleU tn u v) qu ∧
      BestFit c (sampleTimes tn u v) (sampleV tn u v) qv ∧ ∀ (i : ℕ) (n : String), c.name[i]? = some n →
      ∃ a b : List ℝ, ∃ su sv : ℝ,
        (combine a (sampleU tn u v) = qu.X n ∧ combine b (sampleU tn u v) = qu.Y n ∧
          combine a (sampleV tn u v) = qv.X n ∧ combine b (sampleV tn u v) = qv.Y n) ∧
        Blue c (sampleTimes tn u v) (fun q => q.X n) a ∧ Blue c (sampleTimes tn u v) (fun q => q.Y n) b ∧
        NoiseVariance c (sampleTimes tn u v) (sampleU tn u v) su ∧
        NoiseVariance c (sampleTimes tn u v) (sampleV tn u v) sv ∧ 0 ≤ su ∧ 0 ≤ sv ∧
        ellipseAt c.ell i = some (if v.isSome then
          cs2cep2 (combine a (sampleU tn u v)) (combine b (sampleU tn u v)) (combine a (sampleV tn u v))
            (combine b (sampleV tn u v))
          else cs2cep1 (combine a (sampleU tn u v)) (combine b (sampleU tn u v))) ∧
        intervalAt ci i = some (if v.isSome then
          (linear2 none (combine a (sampleU tn u v)) (combine b (sampleU tn u v)) (combine a (sampleV tn u v))
            (combine b (sampleV tn u v)) (su * sumSq a) (su * sumSq b) (sv * sumSq a) (sv * sumSq b)).1
          else (linear1 none (combine a (sampleU tn u v)) (combine b (sampleU tn u v)) (su * sumSq a)
            (su * sumSq b)).1) := by
  obtain ⟨p, constit, m, W, rf, full, o, ind, F, hols, hinf, -⟩ :=
    run_facts R H.keys H.ols H.returned none H.infer (fun s hs => by cases hs) tn H.time
  obtain ⟨x, hx⟩ := F.data R
  obtain ⟨hi, hlt⟩ := F.full_rank R hI hols H.ci
  obtain ⟨ci, pw, hci, hw, -, hrow⟩ := F.ciRow R hI H.keys hols H.ci H.linear hinf x hx
  have hpw := hw H.white
  subst hpw
  obtain ⟨-, hts, hxs⟩ := F.samples R
  have hU : sampleU tn u v = List.ofFn fun j => (x j).re := by
    have : sampleU tn u v = (xraw p.ed).map Complex.re := by rw [hxs, List.map_map]; rfl
    rw [this, hx, List.map_ofFn]; rfl
  have hV : sampleV tn u v = List.ofFn fun j => (x j).im := by
    have : sampleV tn u v = (xraw p.ed).map Complex.im := by rw [hxs, List.map_map]; rfl
    rw [this, hx, List.map_ofFn]; rfl
  have hcc : c.ci = some (ci.permute ind) := by
    rw [F.solved.result]; show full.ci.map _ = _; rw [hci]; rfl
  obtain ⟨qu, hqu, -, hqu'⟩ := F.bestFit R H.keys H.kept hinf hi fun j => (x j).re
  obtain ⟨qv, hqv, -, hqv'⟩ := F.bestFit R H.keys H.kept hinf hi fun j => (x j).im
  refine ⟨ci.permute ind, qu, qv, hcc, by unfold sampleTimes; rw [← hts, hU]; exact hqu,
    by unfold sampleTimes; rw [← hts, hV]; exact hqv, fun i n hn => ?_⟩
  obtain ⟨k, hk, hkn, -, he, ci', hci', hint⟩ := F.position hinf ci hci i n hn
  cases Option.some.inj (hci'.symm.trans hcc)
  obtain ⟨r1, r2⟩ := hrow k hk
  have hpos : ∀ y : Fin p.B.length → ℝ,
      0 ≤ (∑ j, gramRes (designM p.nm p.B) y j ^ 2) / ((p.B.length : ℝ) - p.nm) := fun y =>
    div_nonneg (Finset.sum_nonneg fun j _ => sq_nonneg _) (by
      have : (p.nm : ℝ) ≤ p.B.length := by exact_mod_cast hlt.le
      linarith)
  refine ⟨List.ofFn (cosForm (designM p.nm p.B) k), List.ofFn (sinForm (designM p.nm p.B) k), _, _, ?_, ?_, ?_, ?_, ?_,
    hpos fun j => (x j).re, hpos fun j => (x j).im, ?_, ?_⟩
  · obtain ⟨e1, e2⟩ := hqu' k n hkn
    obtain ⟨e3, e4⟩ := hqv' k n hkn
    rw [hU, hV, combine_fin, combine_fin, combine_fin, combine_fin]
    exact ⟨e1.symm, e2.symm, e3.symm, e4.symm⟩
  · unfold sampleTimes; rw [← hts]; exact F.blue_cos R H.keys H.kept hinf hi k n hkn
  · unfold sampleTimes; rw [← hts]; exact F.blue_sin R H.keys H.kept hinf hi k n hkn
  · unfold sampleTimes; rw [← hts, hU]; exact F.noise R H.keys H.kept hinf hi hlt _
  · unfold sampleTimes; rw [← hts, hV]; exact F.noise R H.keys H.kept hinf hi hlt _
  · rw [he, r1, hU, hV, combine_fin, combine_fin, combine_fin, combine_fin]
  · rw [hint, r2, hU, hV, combine_fin, combine_fin, combine_fin, combine_fin, sumSq_fin, sumSq_fin]
    rfl

/-- **C70**, scalar series: amplitude and phase are those of the best linear unbiased estimates of the two
coefficients, which are the coefficients of the curve of least squares, and the intervals are 1.96 standard errors, propagated to first order from the standard errors of these
estimates with the usual estimate of the noise variance. -/
theorem C70_scalar {E : Env} {t : TimeArg} {u : Series} {lat : Option ℝ} {opts : Dict PyVal} {c : Coef} {tn : List Fl}
    (R : Ready E t u none) (hI : InvOk E.num.inv) (H : WhiteRun E t u none lat opts c tn) :
    ∃ ci q, c.ci = some ci ∧ BestFit c (sampleTimes tn u none) (sampleU tn u none) q ∧
      ∀ (i : ℕ) (n : String), c.name[i]? = some n →
      ∃ a b : List ℝ, ∃ s2 : ℝ,
        combine a (sampleU tn u none) = q.X n ∧ combine b (sampleU tn u none) = q.Y n ∧
        Blue c (sampleTimes tn u none) (fun q => q.X n) a ∧ Blue c (sampleTimes tn u none) (fun q => q.Y n) b ∧
        NoiseVariance c (sampleTimes tn u none) (sampleU tn u none) s2 ∧
        ellipseAt c.ell i = some (cs2cep1 (combine a (sampleU tn u none)) (combine b (sampleU tn u none))) ∧
        (![combine a (sampleU tn u none), combine b (sampleU tn u none)] ≠ (0 : Fin 2 → ℝ) →
          ∃ da dg,
            Propagated 0 ampOf ![combine a (sampleU tn u none), combine b (sampleU tn u none)]
              ![Real.sqrt (s2 * sumSq a), Real.sqrt (s2 * sumSq b)] da ∧
            Propagated 360 phaseOf ![combine a (sampleU tn u none), combine b (sampleU tn u none)]
              ![Real.sqrt (s2 * sumSq a), Real.sqrt (s2 * sumSq b)] dg ∧
            intervalAt ci i = some ⟨.fin (1.96 * da), .fin 0, .fin 0, .fin (1.96 * dg)⟩) := by
  obtain ⟨ci, q, _, hci, hq, _, h⟩ := white_facts R hI H
  refine ⟨ci, q, hci, hq, fun i n hn => ?_⟩
  obtain ⟨a, b, su, sv, ⟨e1, e2, -, -⟩, h1, h2, h3, -, h5, -, h7, h8⟩ := h i n hn
  refine ⟨a, b, su, e1, e2, h1, h2, h3, h7, fun hne => ?_⟩
  have na : 0 ≤ su * sumSq a := mul_nonneg h5 (sumSq_nonneg a)
  have nb : 0 ≤ su * sumSq b := mul_nonneg h5 (sumSq_nonneg b)
  obtain ⟨da, dg, k1, k2, k3⟩ := C50_scalar none _ ![Real.sqrt (su * sumSq a), Real.sqrt (su * sumSq b)]
    ![su * sumSq a, su * sumSq b] hne (fun i => by fin_cases i <;> exact Real.sqrt_nonneg _) (by
      simp [linear1, Real.sq_sqrt na, Real.sq_sqrt nb])
  refine ⟨da, dg, k1, k2, ?_⟩
  rw [h8]
  exact congrArg some k3

/-- **C70**, vector series: the same for the axes, orientation and phase of the ellipse, unless it is a circle. When
the cosine coefficient of `v` is exactly zero, the intervals of minor axis and orientation are wrong (C50). -/
theorem C70_vector_partial {E : Env} {t : TimeArg} {u v : Series} {lat : Option ℝ} {opts : Dict PyVal} {c : Coef}
    {tn : List Fl} (R : Ready E t u (some v)) (hI : InvOk E.num.inv) (H : WhiteRun E t u (some v) lat opts c tn) :
    ∃ ci qu qv, c.ci = some ci ∧ BestFit c (sampleTimes tn u (some v)) (sampleU tn u (some v)) qu ∧
      BestFit c (sampleTimes tn u (some v)) (sampleV tn u (some v)) qv ∧ ∀ (i : ℕ) (n : String), c.name[i]? = some n →
      ∃ a b : List ℝ, ∃ su sv : ℝ, ∃ x σ : Fin 4 → ℝ,
        x = ![qu.X n, qu.Y n, qv.X n, qv.Y n] ∧
        Blue c (sampleTimes tn u (some v)) (fun q => q.X n) a ∧ Blue c (sampleTimes tn u (some v)) (fun q => q.Y n) b ∧
        NoiseVariance c (sampleTimes tn u (some v)) (sampleU tn u (some v)) su ∧
        NoiseVariance c (sampleTimes tn u (some v)) (sampleV tn u (some v)) sv ∧
        x = ![combine a (sampleU tn u (some v)), combine b (sampleU tn u (some v)),
          combine a (sampleV tn u (some v)), combine b (sampleV tn u (some v))] ∧
        σ = ![Real.sqrt (su * sumSq a), Real.sqrt (su * sumSq b), Real.sqrt (sv * sumSq a), Real.sqrt (sv * sumSq b)] ∧
        ellipseAt c.ell i = some (cs2cep2 (x 0) (x 1) (x 2) (x 3)) ∧
        (NotCircular x → ∃ r, intervalAt ci i = some r ∧ (x 2 ≠ 0 → FirstOrderCi x σ r) ∧
          ∃ da dg, Propagated 0 (fun y => (ellRow y).Lsmaj) x σ da ∧ Propagated 180 (fun y => (ellRow y).g) x σ dg ∧
            r.maj = .fin (1.96 * da) ∧ r.g = .fin (1.96 * dg)) := by
  obtain ⟨ci, qu, qv, hci, hqu, hqv, h⟩ := white_facts R hI H
  refine ⟨ci, qu, qv, hci, hqu, hqv, fun i n hn => ?_⟩
  obtain ⟨a, b, su, sv, ⟨e1, e2, e3, e4⟩, h1, h2, h3, h4, h5, h6, h7, h8⟩ := h i n hn
  refine ⟨a, b, su, sv, _, _, by rw [← e1, ← e2, ← e3, ← e4], h1, h2, h3, h4, rfl, rfl, h7, fun hne => ?_⟩
  have n1 : 0 ≤ su * sumSq a := mul_nonneg h5 (sumSq_nonneg a)
  have n2 : 0 ≤ su * sumSq b := mul_nonneg h5 (sumSq_nonneg b)
  have n3 : 0 ≤ sv * sumSq a := mul_nonneg h6 (sumSq_nonneg a)
  have n4 : 0 ≤ sv * sumSq b := mul_nonneg h6 (sumSq_nonneg b)
  have := C50_vector_partial none _ ![Real.sqrt (su * sumSq a), Real.sqrt (su * sumSq b), Real.sqrt (sv * sumSq a),
    Real.sqrt (sv * sumSq b)] ![su * sumSq a, su * sumSq b, sv * sumSq a, sv * sumSq b] hne
    (fun i => by fin_cases i <;> exact Real.sqrt_nonneg _) (by
      simp [linear2, Real.sq_sqrt n1, Real.sq_sqrt n2, Real.sq_sqrt n3, Real.sq_sqrt n4])
  exact ⟨_, h8, this⟩

end

end UTide.Props
