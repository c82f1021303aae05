import Verif.Props.RobustScale
import Verif.Props.AxesProps

/-!
# Robust fits of a current without a second component: C07
-/

namespace UTide.Props

noncomputable section

open Classical

/-- The coefficients of a robust fit solve a system with real weights. -/
theorem Facts.weightedSol {E : Env} {t : TimeArg} {u : Series} {v : Option Series} {lat : Option ℝ}
    {opts : Dict PyVal} {c : Coef} {opt : Opt} {p : Prep} {tn : List Fl} {constit : Constit} {m : List ℂ} {W : List ℝ}
    {rf : Option RobOut} {full : Coef} {o : Order} {ind : List ℕ}
    (F : Facts E t u v lat opts c opt p tn constit m W rf full o ind) (R : Ready E t u v)
    {kw : List (String × PyVal)} (hr : opt.method = .robust kw) (hh : Harmless kw) :
    WeightedSol p.nm p.B (xraw p.ed) m := by
  obtain ⟨a, r, ha, h1, rfl, rfl, rfl⟩ := F.robust_fit hr
  unfold robustfit at h1
  simp only [bind_eq_ok, pure_eq_ok, Except.ok.injEq] at h1
  obtain ⟨wf, -, _, -, e, he, rfl⟩ := h1
  obtain ⟨w', hw'⟩ := robLoop_fit E.num _ _ _ _ _ none (by simp) e he
  dsimp only
  rw [hw']
  refine ⟨w', ?_⟩
  have hl := F.prep.height R.ht R.hu R.hv
  refine ((R.lstsq _ _ _ _ ?_ ?_).2 (hh.args ha)).1
  · intro r hr
    obtain ⟨i, hi, rfl⟩ := List.mem_iff_getElem.1 hr
    rw [List.getElem_zipWith, List.length_map]
    exact F.prep.rows _ (List.getElem_mem _)
  · simp [hl]

/-- C07 for robust fits: with `v = 0` the same weights, the same constituents, and ellipses which are the segments
given by amplitude and phase of the scalar analysis. -/
theorem C07_robust (E : Env) (t : TimeArg) (u w : Series) (lat : Option ℝ) (opts opts' : Dict PyVal)
    (R : Ready E t u none) (R' : Ready E t u (some w)) (hw : ∀ x ∈ w.data, x.value? = some 0)
    (hnd : opts.keys.Nodup) (hnd' : opts'.keys.Nodup)
    (hsame : ∀ k, k ≠ "infer" → requested opts k = requested opts' k)
    (kw : List (String × PyVal)) (hr : AsksRobust opts kw) (hh : Harmless kw)
    (c c' : Coef) (h : solve E t u none lat opts = .ok c) (h' : solve E t u (some w) lat opts' = .ok c')
    (sp : Option InferSpec) (hi : readInfer c.opt.infer = .ok sp) (hi' : readInfer c'.opt.infer = .ok (sp.map doubled)) :
    c'.weights = c.weights ∧
    (∃ mean slope, c.mean = .one mean slope ∧ c'.mean = .two mean 0 (slope.map fun s => (s, 0))) ∧
    (AllKept c → c.name.Nodup → c'.name.Perm c.name ∧
      ∀ i j n, c.name[i]? = some n → c'.name[j]? = some n → ∃ e, ellipseAt c.ell i = some e ∧
        ellipseAt c'.ell j = some ⟨e.Lsmaj, 0, 0, e.g⟩) ∧
    (¬ IsStr c.opt.ordercnstit "SNR" →
      c'.name = c.name ∧ c'.frq = c.frq ∧ c'.lind = c.lind ∧ c'.PE = c.PE ∧
      ∃ A g, c.ell = .one A g ∧ c'.ell = .two A (A.map fun _ => 0) (A.map fun _ => 0) g) := by
  have hsol := fun opt p tn constit m W rf full o ind
      (F : Facts E t u none lat opts c opt p tn constit m W rf full o ind) =>
    F.weightedSol R (F.method_robust hnd hr) hh
  refine ⟨?_, ?_, fun hk hn => ?_, fun ho => ?_⟩
  · obtain ⟨_, _, _, _, _, _, _, _, _, _, _, _, _, _, Z⟩ := zero_twin E t u w lat opts opts' R R' hw hnd hnd' hsame c c' h
      h' hsol sp hi hi'
    exact Z.weights
  · obtain ⟨_, _, _, _, _, _, _, _, _, _, _, _, _, _, Z⟩ := zero_twin E t u w lat opts opts' R R' hw hnd hnd' hsame c c' h
      h' hsol sp hi hi'
    exact Z.mean hnd hnd'
  · obtain ⟨-, h1, h2, -⟩ := zero_byname_core E t u w lat opts opts' R R' hw hnd hnd' hsame c c' h h' hsol hk hn sp hi hi'
    exact ⟨h1, h2⟩
  · obtain ⟨-, h1, h2, h3, h4, h5, -⟩ := zero_component_core E t u w lat opts opts' R R' hw hnd hnd' hsame c c' h h'
      hsol sp hi hi' ho
    exact ⟨h1, h2, h3, h4, h5⟩

end

end UTide.Props
