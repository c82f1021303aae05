import Verif.Props.ListedProps
import Verif.Props.NyquistProps
import Verif.Props.EnergyProps

/-!
# Constituents the samples cannot tell apart: C132

If over the samples the harmonic of one constituent is a multiple of that of another (aliases on a regular grid), or is
constant (S2 at two samples per day), the least-squares problem has many solutions; `np.linalg.lstsq` returns that of
smallest norm, in which the parts are shared out in a definite way.
-/

namespace UTide

noncomputable section

local notation "conj" => starRingEnd ℂ

open Props in
open scoped InnerProductSpace in
/-- A column `ω` times another one gets the coefficient of the other times the conjugate of `ω`. -/
theorem IsMinNormSol.proportional_columns {ncol : ℕ} {a : List (List ℂ)} {b m : List ℂ} (hab : a.length = b.length)
    (h : IsMinNormSol ncol a b m) (ω : ℂ) (i j : ℕ) (hi : i < ncol) (hj : j < ncol)
    (hcol : ∀ r ∈ a, r.getD j 0 = ω * r.getD i 0) : m.getD j 0 = conj ω * m.getD i 0 := by
  obtain ⟨f, hf, rfl⟩ := h.normalEq hab
  obtain ⟨g, hg⟩ := list_eq_ofFn ncol (vadd (unitVec ncol j) (vscale (-ω) (unitVec ncol i))) (by simp [unitVec])
  have hz : rowsMap ncol a g = 0 := by
    ext k
    show dot (a.get k) (List.ofFn fun j => g j) = 0
    rw [← hg, dot_vadd _ _ _ (by simp [unitVec]), dot_vscale, dot_unit _ _ _ hi, dot_unit _ _ _ hj,
      hcol _ (List.get_mem a k)]
    ring
  have hk := hf.kernel g hz
  have hgv : ∀ k : Fin ncol, g k = (if k = ⟨j, hj⟩ then 1 else 0) - (if k = ⟨i, hi⟩ then ω else 0) := by
    intro k
    have := congrArg (fun l => l[k.val]?) hg
    simp only [vadd, vscale, unitVec, List.getElem?_zipWith, List.getElem?_map, List.getElem?_range k.2, Option.map_some,
      List.getElem?_ofFn, k.2, dif_pos, Option.some.injEq] at this
    rw [← this]
    simp only [Fin.ext_iff]
    split <;> split <;> simp [sub_eq_add_neg]
  rw [PiLp.inner_apply] at hk
  simp only [hgv, RCLike.inner_apply, sub_mul, ite_mul, one_mul, zero_mul, Finset.sum_sub_distrib, Finset.sum_ite_eq',
    Finset.mem_univ, if_true] at hk
  rw [List.getD_eq_getElem?_getD, List.getD_eq_getElem?_getD, List.getElem?_ofFn, List.getElem?_ofFn, dif_pos hi, dif_pos hj]
  have := congrArg conj (sub_eq_zero.1 hk)
  simpa using this

end

end UTide

namespace UTide.Props

noncomputable section

open Classical

local notation "conj" => starRingEnd ℂ

section
variable {E : Env} {t : TimeArg} {u : Series} {v : Option Series} {lat : Option ℝ} {opts : Dict PyVal}
  {c : Coef} {opt : Opt} {p : Prep} {tn : List Fl} {constit : Constit} {m : List ℂ} {W : List ℝ}
  {rf : Option RobOut} {full : Coef} {o : Order} {ind : List ℕ}

/-- The columns of the model matrix by what they stand for. -/
inductive Column
  | plus (n : String)
  | minus (n : String)
  | one

/-- Is there such a column? -/
def Column.In (l : List String) : Column → Prop
  | .plus n => n ∈ l
  | .minus n => n ∈ l
  | .one => True

/-- Entry at a time, and coefficient. -/
def Column.at (h : String → ℂ) : Column → ℂ
  | .plus n => h n
  | .minus n => conj (h n)
  | .one => 1
def Column.coef (P M : String → ℂ) (mean : ℂ) : Column → ℂ
  | .plus n => P n
  | .minus n => M n
  | .one => mean

theorem Column.position (l : List String) (C : Column) (hC : C.In l) :
    ∃ i, i < 2 * l.length + 1 ∧
      (∀ (h : String → ℂ) (x : List ℂ), (l.map h ++ (l.map h).map conj ++ (1 :: x)).getD i 0 = C.at h) ∧
      ∀ (P M : String → ℂ) (mean : ℂ) (x : List ℂ), (l.map P ++ l.map M ++ (mean :: x)).getD i 0 = C.coef P M mean := by
  cases C with
  | plus n =>
    have hx := List.idxOf_lt_length_of_mem hC
    have hg : l[l.idxOf n]? = some n := by rw [List.getElem?_eq_getElem hx, List.getElem_idxOf]
    refine ⟨l.idxOf n, by omega, fun h x => ?_, fun P M mean x => ?_⟩
    · rw [List.append_assoc, getD_left _ _ _ (by simpa using hx), List.getD_eq_getElem?_getD, List.getElem?_map, hg]; rfl
    · rw [List.append_assoc, getD_left _ _ _ (by simpa using hx), List.getD_eq_getElem?_getD, List.getElem?_map, hg]; rfl
  | minus n =>
    have hx := List.idxOf_lt_length_of_mem hC
    have hg : l[l.idxOf n]? = some n := by rw [List.getElem?_eq_getElem hx, List.getElem_idxOf]
    refine ⟨l.length + l.idxOf n, by omega, fun h x => ?_, fun P M mean x => ?_⟩
    · rw [List.append_assoc, getD_right _ _ _ _ (by simp), getD_left _ _ _ (by simpa using hx), List.getD_eq_getElem?_getD,
        List.getElem?_map, List.getElem?_map, hg]; rfl
    · rw [List.append_assoc, getD_right _ _ _ _ (by simp), getD_left _ _ _ (by simpa using hx), List.getD_eq_getElem?_getD,
        List.getElem?_map, hg]; rfl
  | one =>
    refine ⟨2 * l.length + 0, by omega, fun h x => ?_, fun P M mean x => ?_⟩
    · rw [getD_right _ _ _ _ (by simp; omega)]; rfl
    · rw [getD_right _ _ _ _ (by simp; omega)]; rfl

/-- Proportional columns have proportional coefficients. -/
theorem Facts.proportional (F : Facts E t u v lat opts c opt p tn constit m W rf full o ind) (R : Ready E t u v)
    (hols : opt.method = .ols) (hinf : p.infer = none) (P M : String → ℂ) (mean x : ℂ)
    (hmc : m = nameCoef p.sel (!opt.notrend) P M mean x) (ω : ℂ) (C C' : Column) (hC : C.In p.sel.nrName)
    (hC' : C'.In p.sel.nrName)
    (hh : ∀ τ, SampleTime tn u.data (v.map Series.data) τ → C'.at (fun n => harmonic c n τ) = ω * C.at fun n => harmonic c n τ) :
    C'.coef P M mean = conj ω * C.coef P M mean := by
  obtain ⟨h0, hR, -, hlen, hnm⟩ := F.noRefs hinf
  obtain ⟨i, hi, a1, a2⟩ := Column.position p.sel.nrName C hC
  obtain ⟨j, hj, b1, b2⟩ := Column.position p.sel.nrName C' hC'
  have key := (F.minNorm R hols).proportional_columns (F.prep.height R.ht R.hu R.hv) ω i j (by rw [hnm]; omega) (by rw [hnm]; omega) (by
    intro r hr
    rw [F.rows, List.mem_map] at hr
    obtain ⟨τ, hτ, rfl⟩ := hr
    have := hh τ ((F.mem_times R τ).1 hτ)
    simp only [F.harmonic_eq] at this
    rw [F.row_eq hinf τ, a1, b1]
    exact this)
  rw [hmc, nameCoef_noRefs h0, a2, b2] at key
  exact key

/-- The rotating components of the rows of a result and the coefficients of the fit. -/
theorem ell_components (td : Bool) (P M : ℂ) :
    ccw (if td then ell2 P M else ell1 P M) = (if td then P else (P + conj M) / 2) ∧
    cw (if td then ell2 P M else ell1 P M) = if td then M else conj ((P + conj M) / 2) := by
  cases td
  · exact ⟨ccw_ell1 _ _, cw_ell1 _ _⟩
  · exact ⟨ccw_ell2 _ _, cw_ell2 _ _⟩

end

/-! ## Specification -/

/-- Over the samples the harmonic of `n'` is `ω` times that of `n`. -/
def Follows (c : Coef) (times : ℝ → Prop) (ω : ℂ) (n n' : String) : Prop :=
  ∀ τ, times τ → harmonic c n' τ = ω * harmonic c n τ

/-- Over the samples the harmonic of `n'` is `ω` times the conjugate of that of `n`: it turns the other way. -/
def Opposes (c : Coef) (times : ℝ → Prop) (ω : ℂ) (n n' : String) : Prop :=
  ∀ τ, times τ → harmonic c n' τ = ω * conj (harmonic c n τ)

/-- Over the samples the harmonic of `n` is the constant `ω`. -/
def StandsStill (c : Coef) (times : ℝ → Prop) (ω : ℂ) (n : String) : Prop :=
  ∀ τ, times τ → harmonic c n τ = ω

/-- What a row adds to the curve at time `τ`. -/
def rowCurve (c : Coef) (n : String) (e : Ell) (τ : ℝ) : ℂ := harmonic c n τ * ccw e + conj (harmonic c n τ) * cw e

/-! ## C132 -/

theorem cyc_add (x y : ℝ) : cyc (x + y) = cyc x * cyc y := by
  unfold cyc; rw [← Complex.exp_add]; congr 1; push_cast; ring

section
variable (E : Env) (t : TimeArg) (u : Series) (v : Option Series) (lat : Option ℝ) (opts : Dict PyVal)
    (R : Ready E t u v) (hnd : opts.keys.Nodup) (hm : ∃ x, requested opts "method" = some x ∧ IsStr x "ols") (c : Coef)
    (h : solve E t u v lat opts = .ok c) (hk : AllKept c) (hi : readInfer c.opt.infer = .ok none) (tn : List Fl)
    (htn : normalizeTime E.dt64 t.arr c.opt.epoch = .ok tn)
include R hnd hm h hk hi htn

/-- The fit behind a result, with its columns. -/
theorem fitted_columns : ∃ (P M : String → ℂ) (mean slope : ℂ), (c.opt.notrend = true → slope = 0) ∧
    (∀ i n, c.name[i]? = some n → ellipseAt c.ell i = some (if v.isSome then ell2 (P n) (M n) else ell1 (P n) (M n))) ∧
    (∀ τ, level c τ = if v.isSome then mean + slope * ((τ - c.reftime : ℝ) : ℂ)
      else (((mean + slope * ((τ - c.reftime : ℝ) : ℂ)).re : ℝ) : ℂ)) ∧
    ∀ (ω : ℂ) (C C' : Column), C.In c.name → C'.In c.name →
      (∀ τ, SampleTime tn u.data (v.map Series.data) τ → C'.at (fun n => harmonic c n τ) = ω * C.at fun n => harmonic c n τ) →
      C'.coef P M mean = conj ω * C.coef P M mean := by
  obtain ⟨p, constit, m, W, rf, full, o, ind, F, hols, hinf, -⟩ := run_facts R hnd hm h none hi (by simp) tn htn
  obtain ⟨P, M, mean, slope, hs, hmc⟩ := F.named_coef R hols hinf
  obtain ⟨h0, -, hnames, -⟩ := F.noRefs hinf
  have hT : ∀ (f : InfCon → ℂ) (P : String → ℂ), TiedBy p.sel f P := by
    intro f P r hr; rw [h0] at hr; cases hr
  obtain ⟨r1, r2⟩ := F.read hnd P M mean slope (hT _ _) (hT _ _) hmc
  have hmem : ∀ n, n ∈ c.name ↔ n ∈ p.sel.nrName := by
    intro n
    rw [(F.perm_names R hnd hk).mem_iff, hnames]
  have hin : ∀ C : Column, C.In c.name → C.In p.sel.nrName := by
    intro C hC
    cases C with
    | plus n => exact (hmem n).1 hC
    | minus n => exact (hmem n).1 hC
    | one => trivial
  refine ⟨P, M, mean, slope, hs, fun i n hi => ?_, fun τ => level_meanRec c _ _ _ _ hs r2 τ, fun ω C C' hC hC' hh => ?_⟩
  · rw [r1, ellipseAt_map, hi]; rfl
  · exact F.proportional R hols hinf P M mean _ hmc ω C C' (hin C hC) (hin C' hC') hh

/-- **C132.** Two constituents whose harmonics are proportional over the samples: the axes of the ellipses are in the
ratio of the harmonics, and what one adds to the curve at the samples is `|ω|²` times what the other adds (equal if the
harmonics are equal up to phase). -/
theorem C132_alike (ω : ℂ) (n n' : String) (i i' : ℕ) (hn : c.name[i]? = some n) (hn' : c.name[i']? = some n')
    (hf : Follows c (SampleTime tn u.data (v.map Series.data)) ω n n') :
    ∃ e e', ellipseAt c.ell i = some e ∧ ellipseAt c.ell i' = some e' ∧ e'.Lsmaj = ‖ω‖ * e.Lsmaj ∧
      e'.Lsmin = ‖ω‖ * e.Lsmin ∧
      ∀ τ, SampleTime tn u.data (v.map Series.data) τ → rowCurve c n' e' τ = (‖ω‖ ^ 2 : ℝ) * rowCurve c n e τ := by
  obtain ⟨P, M, mean, slope, hs, hE, hL, key⟩ := fitted_columns E t u v lat opts R hnd hm c h hk hi tn htn
  have h1 := List.mem_of_getElem? hn
  have h2 := List.mem_of_getElem? hn'
  have k1 : P n' = conj ω * P n := key ω (.plus n) (.plus n') h1 h2 hf
  have k2 : M n' = ω * M n := by
    have := key (conj ω) (.minus n) (.minus n') h1 h2 (fun τ hτ => by
      show conj (harmonic c n' τ) = conj ω * conj (harmonic c n τ)
      rw [hf τ hτ, map_mul])
    rwa [Complex.conj_conj] at this
  refine ⟨_, _, hE i n hn, hE i' n' hn', ?_, ?_, fun τ hτ => ?_⟩
  · rw [k1, k2]
    cases v.isSome
    · simp only [Bool.false_eq_true, if_false, ell1_eq, map_mul]
      rw [← mul_add, norm_mul, RCLike.norm_conj]
    · simp only [if_true, ell2_eq, norm_mul, RCLike.norm_conj]
      ring
  · rw [k1, k2]
    cases v.isSome
    · simp only [Bool.false_eq_true, if_false, ell1_eq, mul_zero]
    · simp only [if_true, ell2_eq, norm_mul, RCLike.norm_conj]
      ring
  · unfold rowCurve
    have hω : ((‖ω‖ ^ 2 : ℝ) : ℂ) = ω * conj ω := by rw [Complex.mul_conj, Complex.normSq_eq_norm_sq]
    rw [(ell_components _ _ _).1, (ell_components _ _ _).2, (ell_components _ _ _).1, (ell_components _ _ _).2, hf τ hτ, k1, k2, hω]
    cases v.isSome
    · simp only [Bool.false_eq_true, if_false, map_mul, map_div₀, map_add, Complex.conj_conj, map_ofNat]
      ring
    · simp only [if_true, map_mul]
      ring

/-- The same for harmonics turning in opposite directions over the samples: the sense of rotation is reversed. -/
theorem C132_opposed (ω : ℂ) (n n' : String) (i i' : ℕ) (hn : c.name[i]? = some n) (hn' : c.name[i']? = some n')
    (hf : Opposes c (SampleTime tn u.data (v.map Series.data)) ω n n') :
    ∃ e e', ellipseAt c.ell i = some e ∧ ellipseAt c.ell i' = some e' ∧ e'.Lsmaj = ‖ω‖ * e.Lsmaj ∧
      e'.Lsmin = -(‖ω‖ * e.Lsmin) ∧
      ∀ τ, SampleTime tn u.data (v.map Series.data) τ → rowCurve c n' e' τ = (‖ω‖ ^ 2 : ℝ) * rowCurve c n e τ := by
  obtain ⟨P, M, mean, slope, hs, hE, hL, key⟩ := fitted_columns E t u v lat opts R hnd hm c h hk hi tn htn
  have h1 := List.mem_of_getElem? hn
  have h2 := List.mem_of_getElem? hn'
  have k1 : P n' = conj ω * M n := key ω (.minus n) (.plus n') h1 h2 hf
  have k2 : M n' = ω * P n := by
    have := key (conj ω) (.plus n) (.minus n') h1 h2 (fun τ hτ => by
      show conj (harmonic c n' τ) = conj ω * harmonic c n τ
      rw [hf τ hτ, map_mul, Complex.conj_conj])
    rwa [Complex.conj_conj] at this
  refine ⟨_, _, hE i n hn, hE i' n' hn', ?_, ?_, fun τ hτ => ?_⟩
  · rw [k1, k2]
    cases v.isSome
    · simp only [Bool.false_eq_true, if_false, ell1_eq, map_mul]
      rw [← mul_add, norm_mul, RCLike.norm_conj, ← RCLike.norm_conj (P n + _), map_add, Complex.conj_conj, add_comm]
    · simp only [if_true, ell2_eq, norm_mul, RCLike.norm_conj]
      ring
  · rw [k1, k2]
    cases v.isSome
    · simp only [Bool.false_eq_true, if_false, ell1_eq, mul_zero, neg_zero]
    · simp only [if_true, ell2_eq, norm_mul, RCLike.norm_conj]
      ring
  · unfold rowCurve
    have hω : ((‖ω‖ ^ 2 : ℝ) : ℂ) = ω * conj ω := by rw [Complex.mul_conj, Complex.normSq_eq_norm_sq]
    rw [(ell_components _ _ _).1, (ell_components _ _ _).2, (ell_components _ _ _).1, (ell_components _ _ _).2, hf τ hτ, k1, k2, hω]
    cases v.isSome
    · simp only [Bool.false_eq_true, if_false, map_mul, map_div₀, map_add, Complex.conj_conj, map_ofNat]
      ring
    · simp only [if_true, map_mul, Complex.conj_conj]
      ring

/-- A constituent whose harmonic is constant over the samples takes its share of the mean: its amplitude (major axis, the
minor one being 0) is twice the mean reported times the size of the harmonic, and at the samples it adds `2 |ω|²` times
the mean. -/
theorem C132_constant (ω : ℂ) (n : String) (i : ℕ) (hn : c.name[i]? = some n)
    (hf : StandsStill c (SampleTime tn u.data (v.map Series.data)) ω n) :
    ∃ e, ellipseAt c.ell i = some e ∧ e.Lsmaj = 2 * ‖ω‖ * ‖level c c.reftime‖ ∧ e.Lsmin = 0 ∧
      ∀ τ, SampleTime tn u.data (v.map Series.data) τ → rowCurve c n e τ = (2 * ‖ω‖ ^ 2 : ℝ) * level c c.reftime := by
  obtain ⟨P, M, mean, slope, hs, hE, hL, key⟩ := fitted_columns E t u v lat opts R hnd hm c h hk hi tn htn
  have h1 := List.mem_of_getElem? hn
  have k1 : P n = conj ω * mean := key ω .one (.plus n) trivial h1 (fun τ hτ => by
    show harmonic c n τ = ω * 1
    rw [hf τ hτ, mul_one])
  have k2 : M n = ω * mean := by
    have := key (conj ω) .one (.minus n) trivial h1 (fun τ hτ => by
      show conj (harmonic c n τ) = conj ω * 1
      rw [hf τ hτ, mul_one])
    rwa [Complex.conj_conj] at this
  have hL0 := hL c.reftime
  rw [sub_self, Complex.ofReal_zero, mul_zero, add_zero] at hL0
  have h2 : (mean + conj mean) = 2 * ((mean.re : ℝ) : ℂ) := by
    rw [Complex.add_conj]; push_cast; ring
  refine ⟨_, hE i n hn, ?_, ?_, fun τ hτ => ?_⟩
  · rw [k1, k2, hL0]
    cases v.isSome
    · simp only [Bool.false_eq_true, if_false, ell1_eq, map_mul]
      rw [← mul_add, h2, norm_mul, norm_mul, RCLike.norm_conj]
      simp only [RCLike.norm_ofNat]
      ring
    · simp only [if_true, ell2_eq, norm_mul, RCLike.norm_conj]
      ring
  · rw [k1, k2]
    cases v.isSome
    · simp only [Bool.false_eq_true, if_false, ell1_eq]
    · simp only [if_true, ell2_eq, norm_mul, RCLike.norm_conj]
      ring
  · unfold rowCurve
    have hω : ((2 * ‖ω‖ ^ 2 : ℝ) : ℂ) = 2 * (ω * conj ω) := by
      rw [Complex.mul_conj, Complex.normSq_eq_norm_sq]; push_cast; ring
    rw [(ell_components _ _ _).1, (ell_components _ _ _).2, hf τ hτ, k1, k2, hω, hL0]
    cases v.isSome
    · simp only [Bool.false_eq_true, if_false, map_mul, map_div₀, map_add, Complex.conj_conj, map_ofNat]
      have : ω * ((conj ω * mean + conj ω * conj mean) / 2) + conj ω * ((ω * conj mean + ω * mean) / 2) =
          ω * conj ω * (mean + conj mean) := by ring
      rw [this, h2]
      ring
    · simp only [if_true]
      ring

/-- In particular, if that is the only constituent, no trend is fitted and the harmonic has size one, the mean reported
is a third of the average of the data. -/
theorem C132_third (ω : ℂ) (n : String) (hn : c.name = [n]) (hnt : c.opt.notrend = true) (hω : ‖ω‖ = 1)
    (hf : StandsStill c (SampleTime tn u.data (v.map Series.data)) ω n) :
    ((samples tn (sampleValues u.data (v.map Series.data))).map Prod.snd).sum =
      (samples tn (sampleValues u.data (v.map Series.data))).length * (3 * level c c.reftime) := by
  obtain ⟨p, constit, m, W, rf, full, o, ind, F, hols, hinf, hex⟩ := run_facts R hnd hm h none hi (by simp) tn htn
  obtain ⟨P, M, mean, slope, hs, hmc⟩ := F.named_coef R hols hinf
  obtain ⟨h0, -, hnames, -⟩ := F.noRefs hinf
  have hT : ∀ (f : InfCon → ℂ) (P : String → ℂ), TiedBy p.sel f P := by
    intro f P r hr; rw [h0] at hr; cases hr
  obtain ⟨-, r2⟩ := F.read hnd P M mean slope (hT _ _) (hT _ _) hmc
  have hnn : n ∈ p.sel.nrName := by
    rw [← hnames, ← (F.perm_names R hnd hk).mem_iff, hn]; simp
  have k1 : P n = conj ω * mean := F.proportional R hols hinf P M mean _ hmc ω .one (.plus n) trivial hnn (fun τ hτ => by
    show harmonic c n τ = ω * 1
    rw [hf τ hτ, mul_one])
  have k2 : M n = ω * mean := by
    have := F.proportional R hols hinf P M mean _ hmc (conj ω) .one (.minus n) trivial hnn (fun τ hτ => by
      show conj (harmonic c n τ) = conj ω * 1
      rw [hf τ hτ, mul_one])
    rwa [Complex.conj_conj] at this
  have hω' : ω * conj ω = 1 := by rw [Complex.mul_conj, Complex.normSq_eq_norm_sq, hω]; norm_num
  have hL := level_meanRec c _ _ _ _ hs r2 c.reftime
  rw [sub_self, Complex.ofReal_zero, mul_zero, add_zero] at hL
  obtain ⟨hsl, ht, hx⟩ := F.samples R
  have horth := (F.minNorm R hols).orthogonal (F.prep.height R.ht R.hu R.hv) _
    (F.nameCoef_length (fun _ => 0) (fun _ => 0) 1 (0 * (p.ed.lor : ℂ)))
  rw [hmc, F.rows, ht, hx, List.map_map, List.zipWith_map, List.zipWith_self] at horth
  have hcurve : ∀ s ∈ usable tn u.data (v.map Series.data),
      conj (dot (rowAt p s.1) (nameCoef p.sel (!c.opt.notrend) (fun _ => 0) (fun _ => 0) 1 (0 * (p.ed.lor : ℂ)))) *
        (s.2 - dot (rowAt p s.1) (nameCoef p.sel (!c.opt.notrend) P M mean (slope * (p.ed.lor : ℂ)))) = s.2 - 3 * mean := by
    intro s hs'
    have hτ : s.1 ∈ p.ed.t := by rw [ht]; exact List.mem_map_of_mem hs'
    rw [F.row_curve R hnd hk hex _ _ _ _ (hT _ _) (hT _ _) (fun _ => rfl) _ hτ,
      F.row_curve R hnd hk hex _ _ _ _ (hT _ _) (hT _ _) hs _ hτ]
    unfold rotaryCurve
    rw [hn, hs hnt]
    simp only [List.map_cons, List.map_nil, List.sum_cons, List.sum_nil]
    rw [hf _ ((F.mem_times R _).1 hτ), k1, k2]
    have : ω * (conj ω * mean) + conj ω * (ω * mean) = 2 * mean := by
      linear_combination (2 * mean) * hω'
    simp [this]
    ring
  have hsum : ((usable tn u.data (v.map Series.data)).map fun s => s.2 - 3 * mean).sum = 0 := by
    rw [← horth]
    exact congrArg List.sum (List.map_congr_left fun s hs' => (hcurve s hs').symm)
  have hsub : ∀ (l : List (ℝ × ℂ)) (z : ℂ), (l.map fun s => s.2 - z).sum = (l.map fun s => s.2).sum - l.length * z := by
    intro l z
    induction l with
    | nil => simp
    | cons a l ih =>
      rw [List.map_cons, List.sum_cons, ih, List.map_cons, List.sum_cons, List.length_cons]
      push_cast
      ring
  rw [hsub, sub_eq_zero] at hsum
  rw [← usable_samples _ _ _ hsl, hL]
  show ((usable tn u.data (v.map Series.data)).map fun s => s.2).sum = _
  cases v with
  | some w => simpa using hsum
  | none =>
    have hre : (((usable tn u.data none).map fun s : ℝ × ℂ => s.2).sum).im = 0 := by
      unfold usable
      rw [List.map_map]
      induction goodSamples tn u.data with
      | nil => rfl
      | cons a l ih => simp [ih]
    simp only [Option.map_none] at hsum ⊢
    rw [← Complex.re_add_im ((usable tn u.data none).map fun s : ℝ × ℂ => s.2).sum, hre, hsum]
    simp

/-! ### Regular grids -/

omit hm hk hi htn in
/-- On a regular grid a steady harmonic turns by the same angle from sample to sample. -/
theorem grid_step (hst : Steady opts) (Δ t₀ : ℝ) (i : ℕ) (n : String) (f : ℝ) (hi : c.name[i]? = some n)
    (hf : c.frq[i]? = some f) (j : ℤ) : harmonic c n (t₀ + j * Δ) = harmonic c n t₀ * cyc (j * (24 * Δ * f)) := by
  obtain ⟨e1, e2, e3⟩ := permute_aligned h
  obtain ⟨opt, p, tn', constit, m, W, rf, full, o, ind, F⟩ := solve_facts R h
  have hco := F.copt
  subst hco
  obtain ⟨f1, f2, -⟩ := steady_flags hnd F.hopt hst
  rw [e1, List.getElem?_map, Option.map_eq_some_iff] at hi
  obtain ⟨k, hk, rfl⟩ := hi
  rw [e2, List.getElem?_map, hk, Option.map_some, Option.some.injEq] at hf
  subst hf
  unfold harmonic
  simp only [nameBasis_nameAt _ _ _ _ (e3 _ (List.mem_of_getElem? hk))]
  rw [utE_step _ f1 f2]
  unfold cyc
  congr 4
  ring

/-- **C132** on a grid: constituents that are aliases of each other at the spacing of the samples, without nodal
corrections, get the same amplitude, and each adds the same to the curve at the samples. -/
theorem C132_grid (hst : Steady opts) (hoff : (requested opts "nodal").bind nodalMode = some .off) (Δ t₀ : ℝ)
    (hgrid : ∀ τ, SampleTime tn u.data (v.map Series.data) τ → ∃ j : ℤ, τ = t₀ + j * Δ)
    (i i' : ℕ) (n n' : String) (f f' : ℝ) (hn : c.name[i]? = some n) (hn' : c.name[i']? = some n')
    (hf : c.frq[i]? = some f) (hf' : c.frq[i']? = some f') (hal : Aliased Δ f f') :
    ∃ e e', ellipseAt c.ell i = some e ∧ ellipseAt c.ell i' = some e' ∧ e'.Lsmaj = e.Lsmaj ∧
      |e'.Lsmin| = |e.Lsmin| ∧
      ∀ τ, SampleTime tn u.data (v.map Series.data) τ → rowCurve c n' e' τ = rowCurve c n e τ := by
  have a1 := grid_step E t u v lat opts R hnd c h hst Δ t₀ i n f hn hf
  have a2 := grid_step E t u v lat opts R hnd c h hst Δ t₀ i' n' f' hn' hf'
  have b1 : ‖harmonic c n t₀‖ = 1 := norm_harmonic_off hnd h R hoff n (List.mem_of_getElem? hn) t₀
  have b2 : ‖harmonic c n' t₀‖ = 1 := norm_harmonic_off hnd h R hoff n' (List.mem_of_getElem? hn') t₀
  have z1 : harmonic c n t₀ ≠ 0 := fun h0 => by rw [h0, norm_zero] at b1; norm_num at b1
  have z2 : conj (harmonic c n t₀) ≠ 0 := fun h0 => z1 (by simpa using h0)
  obtain ⟨q, hq | hq⟩ := hal
  · have hfol : Follows c (SampleTime tn u.data (v.map Series.data)) (harmonic c n' t₀ / harmonic c n t₀) n n' := by
      intro τ hτ
      obtain ⟨j, rfl⟩ := hgrid τ hτ
      rw [a1, a2, show (j : ℝ) * (24 * Δ * f) = ((j * q : ℤ) : ℝ) + j * (24 * Δ * f') by push_cast; rw [← hq]; ring, cyc_add,
        cyc_int]
      field_simp
    obtain ⟨e, e', k1, k2, k3, k4, k5⟩ := C132_alike E t u v lat opts R hnd hm c h hk hi tn htn _ n n' i i' hn hn' hfol
    have hw : ‖harmonic c n' t₀ / harmonic c n t₀‖ = 1 := by rw [norm_div, b1, b2, div_one]
    rw [hw, one_mul] at k3 k4
    refine ⟨e, e', k1, k2, k3, by rw [k4], fun τ hτ => ?_⟩
    rw [k5 τ hτ, hw]
    simp
  · have hfol : Opposes c (SampleTime tn u.data (v.map Series.data)) (harmonic c n' t₀ / conj (harmonic c n t₀)) n n' := by
      intro τ hτ
      obtain ⟨j, rfl⟩ := hgrid τ hτ
      rw [a1, a2, map_mul, conj_cyc, show -((j : ℝ) * (24 * Δ * f)) = ((-(j * q) : ℤ) : ℝ) + j * (24 * Δ * f') by
        push_cast; rw [← hq]; ring, cyc_add, cyc_int]
      field_simp
    obtain ⟨e, e', k1, k2, k3, k4, k5⟩ := C132_opposed E t u v lat opts R hnd hm c h hk hi tn htn _ n n' i i' hn hn' hfol
    have hw : ‖harmonic c n' t₀ / conj (harmonic c n t₀)‖ = 1 := by rw [norm_div, RCLike.norm_conj, b1, b2, div_one]
    rw [hw, one_mul] at k3 k4
    refine ⟨e, e', k1, k2, k3, by rw [k4, abs_neg], fun τ hτ => ?_⟩
    rw [k5 τ hτ, hw]
    simp

/-- **C132** on a grid: a constituent with a whole number of periods between samples, without nodal corrections, has an
amplitude of twice the mean reported. -/
theorem C132_whole (hst : Steady opts) (hoff : (requested opts "nodal").bind nodalMode = some .off) (Δ t₀ : ℝ)
    (hgrid : ∀ τ, SampleTime tn u.data (v.map Series.data) τ → ∃ j : ℤ, τ = t₀ + j * Δ)
    (i : ℕ) (n : String) (f : ℝ) (hn : c.name[i]? = some n) (hf : c.frq[i]? = some f) (q : ℤ) (hq : 24 * Δ * f = q) :
    (∃ e, ellipseAt c.ell i = some e ∧ e.Lsmaj = 2 * ‖level c c.reftime‖ ∧ e.Lsmin = 0 ∧
      ∀ τ, SampleTime tn u.data (v.map Series.data) τ → rowCurve c n e τ = 2 * level c c.reftime) ∧
    (c.name = [n] → c.opt.notrend = true → ((samples tn (sampleValues u.data (v.map Series.data))).map Prod.snd).sum =
      (samples tn (sampleValues u.data (v.map Series.data))).length * (3 * level c c.reftime)) := by
  have a1 := grid_step E t u v lat opts R hnd c h hst Δ t₀ i n f hn hf
  have b1 : ‖harmonic c n t₀‖ = 1 := norm_harmonic_off hnd h R hoff n (List.mem_of_getElem? hn) t₀
  have hst : StandsStill c (SampleTime tn u.data (v.map Series.data)) (harmonic c n t₀) n := by
    intro τ hτ
    obtain ⟨j, rfl⟩ := hgrid τ hτ
    rw [a1, hq, show (j : ℝ) * (q : ℝ) = ((j * q : ℤ) : ℝ) by push_cast; ring, cyc_int, mul_one]
  refine ⟨?_, fun h1 h2 => C132_third E t u v lat opts R hnd hm c h hk hi tn htn _ n h1 h2 b1 hst⟩
  obtain ⟨e, k1, k2, k3, k4⟩ := C132_constant E t u v lat opts R hnd hm c h hk hi tn htn _ n i hn hst
  refine ⟨e, k1, by rw [k2, b1]; ring, k3, fun τ hτ => ?_⟩
  rw [k4 τ hτ, b1]
  norm_num

end

end

end UTide.Props
