import Verif.Props.ReduceProps
import Verif.Props.WhiteProps
import Verif.Lemmas.LstsqAdd

/-!
# Constituents listed more than once: C131

The least-squares problem then has equal columns; `np.linalg.lstsq` returns the solution of smallest norm.
-/

namespace UTide

noncomputable section

local notation "conj" => starRingEnd ℂ

open Props in
open scoped InnerProductSpace in
/-- Equal columns get equal coefficients in the solution of smallest norm. -/
theorem IsMinNormSol.equal_columns {ncol : ℕ} {a : List (List ℂ)} {b m : List ℂ} (hab : a.length = b.length)
    (h : IsMinNormSol ncol a b m) (i j : ℕ) (hi : i < ncol) (hj : j < ncol)
    (hcol : ∀ r ∈ a, r.getD i 0 = r.getD j 0) : m.getD i 0 = m.getD j 0 := by
  obtain ⟨f, hf, rfl⟩ := h.normalEq hab
  obtain ⟨g, hg⟩ := list_eq_ofFn ncol (vadd (unitVec ncol i) (vscale (-1) (unitVec ncol j))) (by simp [unitVec])
  have hz : rowsMap ncol a g = 0 := by
    ext k
    show dot (a.get k) (List.ofFn fun j => g j) = 0
    rw [← hg, dot_vadd _ _ _ (by simp [unitVec]), dot_vscale, dot_unit _ _ _ hi, dot_unit _ _ _ hj,
      hcol _ (List.get_mem a k)]
    ring
  have hk := hf.kernel g hz
  have hgv : ∀ k : Fin ncol, g k = (if k = ⟨i, hi⟩ then 1 else 0) - (if k = ⟨j, hj⟩ then 1 else 0) := by
    intro k
    have := congrArg (fun l => l[k.val]?) hg
    simp only [vadd, vscale, unitVec, List.getElem?_zipWith, List.getElem?_map, List.getElem?_range k.2, Option.map_some,
      List.getElem?_ofFn, k.2, dif_pos, Option.some.injEq] at this
    rw [← this]
    simp only [Fin.ext_iff]
    split <;> split <;> simp
  rw [PiLp.inner_apply] at hk
  simp only [hgv, RCLike.inner_apply, sub_mul, ite_mul, one_mul, zero_mul, Finset.sum_sub_distrib, Finset.sum_ite_eq',
    Finset.mem_univ, if_true] at hk
  rw [List.getD_eq_getElem?_getD, List.getD_eq_getElem?_getD, List.getElem?_ofFn, List.getElem?_ofFn, dif_pos hi, dif_pos hj]
  have := congrArg conj (sub_eq_zero.1 hk)
  simpa using this

end

end UTide

namespace UTide.Props

noncomputable section

open Classical

local notation "conj" => starRingEnd ℂ

section
variable {E : Env} {t : TimeArg} {u : Series} {v : Option Series} {lat : Option ℝ} {opts : Dict PyVal}
  {c : Coef} {opt : Opt} {p : Prep} {tn : List Fl} {constit : Constit} {m : List ℂ} {W : List ℝ}
  {rf : Option RobOut} {full : Coef} {o : Order} {ind : List ℕ}

theorem getD_left (a l : List ℂ) (i : ℕ) (h : i < a.length) : (a ++ l).getD i 0 = a.getD i 0 := by
  rw [List.getD_eq_getElem?_getD, List.getD_eq_getElem?_getD, List.getElem?_append_left h]

theorem getD_right (a l : List ℂ) (n i : ℕ) (h : a.length = n) : (a ++ l).getD (n + i) 0 = l.getD i 0 := by
  rw [List.getD_eq_getElem?_getD, List.getD_eq_getElem?_getD, List.getElem?_append_right (by omega), h, Nat.add_sub_cancel_left]

/-- Values that depend on the name only. -/
theorem exists_fun_map_of_eq (l : List String) (vals : List ℂ) (hlen : vals.length = l.length)
    (h : ∀ i j : ℕ, i < l.length → j < l.length → l[i]? = l[j]? → vals.getD i 0 = vals.getD j 0) :
    ∃ P : String → ℂ, l.map P = vals := by
  refine ⟨fun n => vals.getD (l.idxOf n) 0, ?_⟩
  apply List.ext_getElem
  · simp [hlen]
  · intro i h1 h2
    have hi : i < l.length := by simpa using h1
    rw [List.getElem_map, ← List.getD_eq_getElem vals 0 h2]
    have hx := List.idxOf_lt_length_of_mem (List.getElem_mem hi)
    refine h _ _ hx hi ?_
    rw [List.getElem?_eq_getElem hx, List.getElem?_eq_getElem hi, List.getElem_idxOf]

/-- Ordinary least squares without inference: the coefficients depend on the name only, even if names are repeated. -/
theorem Facts.named_coef (F : Facts E t u v lat opts c opt p tn constit m W rf full o ind) (R : Ready E t u v)
    (hols : opt.method = .ols) (hinf : p.infer = none) :
    ∃ (P M : String → ℂ) (mean slope : ℂ), (opt.notrend = true → slope = 0) ∧
      m = nameCoef p.sel (!opt.notrend) P M mean (slope * (p.ed.lor : ℂ)) := by
  obtain ⟨h0, hR, -, hlen, hnm⟩ := F.noRefs hinf
  have hmin := F.minNorm R hols
  have hab := F.prep.height R.ht R.hu R.hv
  obtain ⟨a, b, x, y, e, f, hb⟩ := exists_blocks p.sel (!opt.notrend) m (by rw [F.mlen, F.prep.nm])
  have hx : x = [] := List.length_eq_zero_iff.1 (by rw [hb.c, hR])
  have hy : y = [] := List.length_eq_zero_iff.1 (by rw [hb.d, hR])
  have hm : m = a ++ b ++ (e :: f) := by rw [hb.eq, hx, hy]; simp
  have hrow : ∀ r ∈ p.B, ∃ τ, r = p.sel.nrName.map (nameBasis opt.flags p.ed.tref p.lat τ) ++
      (p.sel.nrName.map (nameBasis opt.flags p.ed.tref p.lat τ)).map conj ++
      (1 :: if !opt.notrend then [(((τ - p.ed.tref) / p.ed.lor : ℝ) : ℂ)] else []) := by
    intro r hr
    rw [F.rows, List.mem_map] at hr
    obtain ⟨τ, -, rfl⟩ := hr
    exact ⟨τ, F.row_eq hinf τ⟩
  obtain ⟨P, hP⟩ := exists_fun_map_of_eq p.sel.nrName a (by rw [hb.a, hlen]) (by
    intro i j hi hj hij
    have := hmin.equal_columns hab i j (by rw [hnm]; omega) (by rw [hnm]; omega) (by
      intro r hr
      obtain ⟨τ, rfl⟩ := hrow r hr
      rw [List.append_assoc, List.getD_eq_getElem?_getD, List.getD_eq_getElem?_getD,
        List.getElem?_append_left (by rw [List.length_map]; exact hi),
        List.getElem?_append_left (by rw [List.length_map]; exact hj), List.getElem?_map, List.getElem?_map, hij])
    rw [hm, List.append_assoc, List.getD_eq_getElem?_getD, List.getD_eq_getElem?_getD,
      List.getElem?_append_left (by rw [hb.a, ← hlen]; exact hi),
      List.getElem?_append_left (by rw [hb.a, ← hlen]; exact hj)] at this
    rw [List.getD_eq_getElem?_getD, List.getD_eq_getElem?_getD]
    exact this)
  obtain ⟨M, hM⟩ := exists_fun_map_of_eq p.sel.nrName b (by rw [hb.b, hlen]) (by
    intro i j hi hj hij
    have := hmin.equal_columns hab (p.sel.nNR + i) (p.sel.nNR + j) (by rw [hnm]; omega) (by rw [hnm]; omega) (by
      intro r hr
      obtain ⟨τ, rfl⟩ := hrow r hr
      have e1 : (p.sel.nrName.map (nameBasis opt.flags p.ed.tref p.lat τ)).length = p.sel.nNR := by rw [List.length_map, hlen]
      rw [List.append_assoc, getD_right _ _ _ _ e1, getD_right _ _ _ _ e1,
        getD_left _ _ _ (by rw [List.length_map, List.length_map]; exact hi),
        getD_left _ _ _ (by rw [List.length_map, List.length_map]; exact hj), List.getD_eq_getElem?_getD,
        List.getD_eq_getElem?_getD, List.getElem?_map, List.getElem?_map, List.getElem?_map, List.getElem?_map, hij])
    rw [hm, List.append_assoc, getD_right _ _ _ _ hb.a, getD_right _ _ _ _ hb.a,
      getD_left _ _ _ (by rw [hb.b, ← hlen]; exact hi), getD_left _ _ _ (by rw [hb.b, ← hlen]; exact hj)] at this
    exact this)
  have hf := hb.f
  cases hnt : opt.notrend with
  | true =>
    refine ⟨P, M, e, 0, fun _ => rfl, ?_⟩
    rw [hnt] at hf
    have : f = [] := List.length_eq_zero_iff.1 hf
    rw [nameCoef_noRefs h0, hP, hM, hm, this]
    rfl
  | false =>
    rw [hnt] at hf
    obtain ⟨s, rfl⟩ := List.length_eq_one_iff.1 hf
    have h1 : (p.ed.lor : ℂ) ≠ 0 := by exact_mod_cast F.lorNonzero hnt
    refine ⟨P, M, e, s / p.ed.lor, by simp, ?_⟩
    rw [nameCoef_noRefs h0, hP, hM, hm, div_mul_cancel₀ _ h1]
    rfl

end

/-! ## Specification -/

/-- The ellipse `e` with axes `k` times as long. -/
def Ell.times (k : ℝ) (e : Ell) : Ell := ⟨k * e.Lsmaj, k * e.Lsmin, e.theta, e.g⟩

/-- How often the result lists a constituent. -/
def Coef.times (c : Coef) (n : String) : ℕ := c.name.count n

/-! ## C131 -/

theorem ccw_times (k : ℝ) (e : Ell) : ccw (Ell.times k e) = k * ccw e ∧ cw (Ell.times k e) = k * cw e := by
  unfold ccw cw Ell.times
  push_cast
  constructor <;> ring

/-- A sum over a list with repetitions. -/
theorem sum_times {l l' : List String} (h' : l'.Nodup) (hset : ∀ n, n ∈ l' ↔ n ∈ l) (f : String → ℂ) :
    (l.map f).sum = (l'.map fun n => (l.count n : ℂ) * f n).sum := by
  rw [Finset.sum_list_map_count, ← List.sum_toFinset _ h']
  have : l.toFinset = l'.toFinset := by
    ext n
    rw [List.mem_toFinset, List.mem_toFinset, hset]
  rw [this]
  simp only [nsmul_eq_mul]

/-- **C131**: rows of a result with the same name are equal. -/
theorem C131_equal (E : Env) (t : TimeArg) (u : Series) (v : Option Series) (lat : Option ℝ) (opts : Dict PyVal)
    (R : Ready E t u v) (hnd : opts.keys.Nodup) (hm : ∃ x, requested opts "method" = some x ∧ IsStr x "ols") (c : Coef)
    (h : solve E t u v lat opts = .ok c) (hi : readInfer c.opt.infer = .ok none)
    (i j : ℕ) (n : String) (hni : c.name[i]? = some n) (hnj : c.name[j]? = some n) :
    ∃ e, ellipseAt c.ell i = some e ∧ ellipseAt c.ell j = some e := by
  obtain ⟨opt, p, tn, constit, m, W, rf, full, o, ind, F0⟩ := solve_facts R h
  obtain ⟨p, constit, m, W, rf, full, o, ind, F, hols, hinf, -⟩ := run_facts R hnd hm h none hi (by simp) tn
    (by rw [F0.copt]; exact F0.prep.init.time)
  obtain ⟨P, M, mean, slope, hs, hmc⟩ := F.named_coef R hols hinf
  obtain ⟨h0, -⟩ := F.noRefs hinf
  have hT : ∀ (f : InfCon → ℂ) (P : String → ℂ), TiedBy p.sel f P := by
    intro f P r hr; rw [h0] at hr; cases hr
  obtain ⟨r1, -⟩ := F.read hnd P M mean slope (hT _ _) (hT _ _) hmc
  exact ⟨_, by rw [r1, ellipseAt_map, hni]; rfl, by rw [r1, ellipseAt_map, hnj]; rfl⟩

/-- **C131.** `c` and `c'` are ordinary least-squares analyses of the same record with the same constituents, listed once
in `c'`, any number of times in `c`. Then each of the rows of `c` has its share of the amplitude found in `c'`; phases,
inclinations, mean, trend and predictions are the same. -/
theorem C131_shared (E : Env) (t : TimeArg) (u : Series) (v : Option Series) (lat : Option ℝ) (opts opts' : Dict PyVal)
    (R : Ready E t u v) (hnd : opts.keys.Nodup) (hnd' : opts'.keys.Nodup)
    (hm : ∃ x, requested opts "method" = some x ∧ IsStr x "ols")
    (hm' : ∃ x, requested opts' "method" = some x ∧ IsStr x "ols") (c c' : Coef)
    (h : solve E t u v lat opts = .ok c) (h' : solve E t u v lat opts' = .ok c') (hk : AllKept c) (hk' : AllKept c')
    (hset : ∀ n, n ∈ c'.name ↔ n ∈ c.name)
    (hsame : ∀ k ∈ ["nodal", "phase", "epoch", "trend", "infer"], requested opts k = requested opts' k)
    (hi : readInfer c'.opt.infer = .ok none)
    (tn : List Fl) (htn : normalizeTime E.dt64 t.arr c'.opt.epoch = .ok tn)
    (hsep : Separated c' none v.isSome (SampleTime tn u.data (v.map Series.data))) :
    (∀ (i j : ℕ) (n : String), c.name[i]? = some n → c'.name[j]? = some n →
      ∃ e, ellipseAt c.ell i = some e ∧ ellipseAt c'.ell j = some (Ell.times (Coef.times c n) e)) ∧
    (∀ τ, level c τ = level c' τ) ∧
    ∀ (a : RecArgs) (E' : Env) (t' : TimeArr), RecArgs.Everything a → reconstruct E' t' c a = reconstruct E' t' c' a := by
  have hfl : c'.opt.flags = c.opt.flags ∧ c'.opt.epoch = c.opt.epoch ∧ c'.opt.notrend = c.opt.notrend ∧
      c'.opt.infer = c.opt.infer := by
    obtain ⟨opt, p, tn0, constit, m, W, rf, full, o, ind, F⟩ := solve_facts R h
    obtain ⟨opt', p', tn1, constit', m', W', rf', full', o', ind', F'⟩ := solve_facts R h'
    obtain ⟨e1, e2, e3, e4⟩ := getOpt_fields opts opts' hnd hnd' _ _ _ F.hopt F'.hopt
    rw [F.copt, F'.copt]
    exact ⟨e1 (hsame _ (by simp)) (hsame _ (by simp)), e2 (hsame _ (by simp)), e3 (hsame _ (by simp)), e4 (hsame _ (by simp))⟩
  obtain ⟨hfl, hep, htr, hin⟩ := hfl
  obtain ⟨p, constit, m, W, rf, full, o, ind, F, hols, hinf, hex1⟩ := run_facts R hnd hm h none (by rw [← hin]; exact hi)
    (by simp) tn (by rw [← hep]; exact htn)
  obtain ⟨p', constit', m', W', rf', full', o', ind', F', hols', hinf', hex2⟩ := run_facts R hnd' hm' h' none hi (by simp) tn htn
  have hed : p'.ed = p.ed := Except.ok.inj (F'.prep.init.edit.symm.trans F.prep.init.edit)
  have hlat : p'.lat = p.lat := Option.some.inj (F'.prep.init.hlat.symm.trans F.prep.init.hlat)
  have href : c'.reftime = c.reftime := by rw [F.creftime, F'.creftime, hed]
  have hh : ∀ n τ, harmonic c' n τ = harmonic c n τ := by
    intro n τ
    rw [F.harmonic_eq, F'.harmonic_eq, hed, hlat, hfl]
  have hn' := hsep.names
  have hn2 := (F'.perm_names R hnd' hk').nodup_iff.1 hn'
  obtain ⟨h0, -⟩ := F.noRefs hinf
  obtain ⟨h0', -⟩ := F'.noRefs hinf'
  have hT : ∀ (f : InfCon → ℂ) (P : String → ℂ), TiedBy p.sel f P := by
    intro f P r hr; rw [h0] at hr; cases hr
  have hT' : ∀ (f : InfCon → ℂ) (P : String → ℂ), TiedBy p'.sel f P := by
    intro f P r hr; rw [h0'] at hr; cases hr
  obtain ⟨P, M, mean, slope, hs, hmc⟩ := F.named_coef R hols hinf
  have hcnt : ∀ n ∈ c'.name, (Coef.times c n : ℂ) ≠ 0 := by
    intro n hn
    have := List.count_pos_iff.2 ((hset n).1 hn)
    unfold Coef.times
    exact_mod_cast this.ne'
  -- curves of one analysis and of the other
  have hcurve : ∀ (Q N : String → ℂ) (a b : ℂ) (τ : ℝ),
      rotaryCurve c' (fun n => (Coef.times c n : ℂ) * Q n) (fun n => (Coef.times c n : ℂ) * N n) a b τ = rotaryCurve c Q N a b τ := by
    intro Q N a b τ
    unfold rotaryCurve
    rw [href, sum_times hn' hset]
    congr 2
    refine congrArg List.sum (List.map_congr_left fun n _ => ?_)
    rw [hh]
    unfold Coef.times
    ring
  have a1 := F.minNorm R hols
  have a2 := F'.minNorm R hols'
  have hmeq : m' = nameCoef p'.sel (!c'.opt.notrend) (fun n => (Coef.times c n : ℂ) * P n) (fun n => (Coef.times c n : ℂ) * M n) mean
      (slope * (p'.ed.lor : ℂ)) := by
    rw [← hinf'] at hsep
    refine optimal_unique p'.nm p'.B (xraw p'.ed) _ _ (F'.prep.height R.ht R.hu R.hv) (F'.indep R hnd' hk' hex2 hsep)
      a2.length (F'.nameCoef_length _ _ _ _) a2.optimal ?_
    intro y hy
    obtain ⟨Q, N, k, s, hQ, hN, hs2, rfl⟩ := F'.exists_coef hn2 y hy
    rw [F'.cost_curve R hnd' hk' hex2 _ _ _ _ (hT' _ _) (hT' _ _) (by rw [htr]; exact hs),
      F'.cost_curve R hnd' hk' hex2 _ _ _ _ hQ hN hs2]
    have h1 := a1.optimal _ (F.nameCoef_length (fun n => Q n / Coef.times c n) (fun n => N n / Coef.times c n) k (s * (p.ed.lor : ℂ)))
    rw [hmc, F.cost_curve R hnd hk hex1 _ _ _ _ (hT _ _) (hT _ _) hs,
      F.cost_curve R hnd hk hex1 _ _ _ _ (hT _ _) (hT _ _) (by rw [← htr]; exact hs2)] at h1
    have e2 : ∀ τ, rotaryCurve c' Q N k s τ = rotaryCurve c (fun n => Q n / Coef.times c n) (fun n => N n / Coef.times c n) k s τ := by
      intro τ
      rw [← hcurve]
      unfold rotaryCurve
      congr 2
      refine congrArg List.sum (List.map_congr_left fun n hn => ?_)
      dsimp only
      rw [mul_div_cancel₀ _ (hcnt n hn), mul_div_cancel₀ _ (hcnt n hn)]
    simp only [hcurve, e2]
    exact h1
  obtain ⟨r1, r2⟩ := F.read hnd P M mean slope (hT _ _) (hT _ _) hmc
  obtain ⟨r3, r4⟩ := F'.read hnd' _ _ mean slope (hT' _ _) (hT' _ _) hmeq
  have hlev : ∀ τ, level c τ = level c' τ := by
    intro τ
    rw [level_meanRec c' _ _ _ _ (by rw [htr]; exact hs) r4 τ, level_meanRec c _ _ _ _ hs r2 τ, href]
  obtain ⟨el, hel⟩ : ∃ el : String → Ell, el = fun n => if v.isSome then ell2 (P n) (M n) else ell1 (P n) (M n) := ⟨_, rfl⟩
  have hA : ∀ (i : ℕ) (n : String), c.name[i]? = some n → ellipseAt c.ell i = some (el n) := by
    intro i n hi
    rw [r1, ellipseAt_map, hi, hel]; rfl
  have hB : ∀ (j : ℕ) (n : String), c'.name[j]? = some n → ellipseAt c'.ell j = some (Ell.times (Coef.times c n) (el n)) := by
    intro j n hj
    rw [r3, ellipseAt_map, hj, hel]
    have hpos : (0 : ℝ) < Coef.times c n := by
      exact_mod_cast List.count_pos_iff.2 ((hset n).1 (List.mem_of_getElem? hj))
    have e1 := ell2_scale _ hpos (P n) (M n)
    have e2 := ell1_scale _ hpos (P n) (M n)
    push_cast at e1 e2
    unfold Ell.times
    show some _ = some _
    cases v.isSome
    · simp only [Bool.false_eq_true, if_false]
      rw [e2, ell1_eq]
      simp
    · simp only [if_true]
      rw [e1]
  refine ⟨fun i j n hi hj => ⟨_, hA i n hi, hB j n hj⟩, hlev, fun a E' t' ha => ?_⟩
  rw [predicted R hnd h hk (fun n => ccw (el n)) (fun n => cw (el n)) (fun i n hi => ⟨_, hA i n hi, rfl, rfl⟩) a ha E' t',
    predicted R hnd' h' hk' (fun n => Coef.times c n * ccw (el n)) (fun n => Coef.times c n * cw (el n))
      (fun j n hj => ⟨_, hB j n hj, by rw [(ccw_times _ _).1]; push_cast; rfl, by rw [(ccw_times _ _).2]; push_cast; rfl⟩) a ha E' t']
  congr 1
  funext l
  refine List.map_congr_left fun x _ => ?_
  congr 1
  funext τ
  rw [hlev, sum_times hn' hset]
  congr 1
  refine congrArg List.sum (List.map_congr_left fun n _ => ?_)
  rw [hh]
  unfold Coef.times
  ring

end

end UTide.Props
