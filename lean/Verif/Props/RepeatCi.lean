import Mathlib.Analysis.InnerProductSpace.PiL2
import Mathlib.Analysis.InnerProductSpace.Projection.Basic
import Verif.Lemmas.CiScale
import Verif.Props.SwapProps
import Verif.Props.McProps
import Verif.Props.RepeatProps

/-!
# Intervals when samples are listed several times: C113
-/

namespace UTide.Props

noncomputable section

open Classical

/-! ## Specification -/

/-- The half-widths of an interval times `f`. -/
def Ci1.narrow (f : ℝ) (r : Ci1) : Ci1 := ⟨.fin f * r.maj, .fin f * r.min, .fin f * r.theta, .fin f * r.g⟩

/-! ## Smaller standard errors -/

theorem utLinci_narrow (k : ℝ) (hk : 0 < k) (Xu Yu Xv Yv : ℝ) (s1 s2 s3 s4 : Fl) :
    let s := utLinci Xu Yu Xv Yv s1 s2 s3 s4
    utLinci Xu Yu Xv Yv (s1.sc k) (s2.sc k) (s3.sc k) (s4.sc k) = ⟨s.sMaj.sc k, s.sMin.sc k, s.sG.sc k, s.sTheta.sc k⟩ := by
  intro s
  have h1 : ∀ d1 d2 d3 d4 : Fl, linSum d1 d2 d3 d4 (s1.sc k) (s2.sc k) (s3.sc k) (s4.sc k) =
      (linSum d1 d2 d3 d4 s1 s2 s3 s4).sc k := by
    intro d1 d2 d3 d4
    have := linSum_scale 1 k one_pos hk d1 d2 d3 d4 s1 s2 s3 s4
    simpa only [Fl.sc_one, one_mul] using this
  show _ = (⟨(utLinci Xu Yu Xv Yv s1 s2 s3 s4).sMaj.sc k, (utLinci Xu Yu Xv Yv s1 s2 s3 s4).sMin.sc k,
    (utLinci Xu Yu Xv Yv s1 s2 s3 s4).sG.sc k, (utLinci Xu Yu Xv Yv s1 s2 s3 s4).sTheta.sc k⟩ : Linci)
  unfold utLinci
  simp only [h1, Fl.mul_sc k hk]
  by_cases hx : Xv = 0
  · simp only [hx, if_true, ← zero_sc]
  · simp only [hx, if_false, addJ_scale k hk]

theorem linear1_narrow (k : ℝ) (hk : 0 < k) (X Y a b : ℝ) :
    (linear1 none X Y (k ^ 2 * a) (k ^ 2 * b)).1 = Ci1.narrow k (linear1 none X Y a b).1 := by
  have h := utLinci_narrow k hk X Y 0 0 (Fl.fin a).sqrt (Fl.fin b).sqrt (.fin 0) (.fin 0)
  rw [← zero_sc] at h
  unfold linear1 Ci1.narrow
  simp only [Fl.sc_fin, Fl.sc_sqrt k hk, h, Fl.mul_sc k hk, Fl.sc_mul_left k hk, ← zero_sc]

theorem linear2_narrow (k : ℝ) (hk : 0 < k) (X Y X' Y' a b a' b' : ℝ) :
    (linear2 none X Y X' Y' (k ^ 2 * a) (k ^ 2 * b) (k ^ 2 * a') (k ^ 2 * b')).1 =
      Ci1.narrow k (linear2 none X Y X' Y' a b a' b').1 := by
  unfold linear2 utLinci2 Ci1.narrow
  simp only [Fl.sc_fin, Fl.sc_sqrt k hk, addJ_scale k hk, utLinci_narrow k hk, Fl.mul_sc k hk, Fl.sc_mul_left k hk]

/-! ## Best linear unbiased estimates are curves -/

theorem linCurve_comb (c : Coef) (q q' : CurvePar) (x y τ : ℝ) :
    linCurve c ⟨fun n => x * q.X n + y * q'.X n, fun n => x * q.Y n + y * q'.Y n, x * q.mean + y * q'.mean,
      x * q.slope + y * q'.slope⟩ τ = x * linCurve c q τ + y * linCurve c q' τ := by
  unfold linCurve
  dsimp only
  generalize c.name = l
  induction l with
  | nil => simp; ring
  | cons n l ih =>
    simp only [List.map_cons, List.sum_cons] at ih ⊢
    linarith

theorem Admissible.comb {c : Coef} {q q' : CurvePar} (h : Admissible c q) (h' : Admissible c q') (x y : ℝ) :
    Admissible c ⟨fun n => x * q.X n + y * q'.X n, fun n => x * q.Y n + y * q'.Y n, x * q.mean + y * q'.mean,
      x * q.slope + y * q'.slope⟩ := fun hc => by
  show x * q.slope + y * q'.slope = 0
  rw [h hc, h' hc, mul_zero, mul_zero, add_zero]

/-- The values of the curves at given times. -/
def curveSpace (c : Coef) (n : ℕ) (τ : Fin n → ℝ) : Submodule ℝ (EuclideanSpace ℝ (Fin n)) where
  carrier := {x | ∃ q, Admissible c q ∧ ∀ i, x i = linCurve c q (τ i)}
  add_mem' := by
    rintro x y ⟨q, hq, hx⟩ ⟨q', hq', hy⟩
    refine ⟨_, hq.comb hq' 1 1, fun i => ?_⟩
    rw [linCurve_comb, one_mul, one_mul, ← hx, ← hy]
    rfl
  zero_mem' := ⟨⟨fun _ => 0, fun _ => 0, 0, 0⟩, fun _ => rfl, fun i => by simp [linCurve]⟩
  smul_mem' := by
    rintro s x ⟨q, hq, hx⟩
    refine ⟨_, hq.comb hq s 0, fun i => ?_⟩
    rw [linCurve_comb, zero_mul, add_zero, ← hx]
    rfl

/-- The weights of the best linear unbiased estimate are the values of a curve. -/
theorem Blue.curve {c : Coef} {τ : List ℝ} {par : CurvePar → ℝ} {a : List ℝ} (h : Blue c τ par a) :
    ∃ q, Admissible c q ∧ a = τ.map (linCurve c q) := by
  obtain ⟨t, ht⟩ := exists_ofFn τ _ rfl
  obtain ⟨f, hf⟩ := exists_ofFn a _ h.length
  have hmap : ∀ q, τ.map (linCurve c q) = List.ofFn fun i => linCurve c q (t i) := fun q => by
    conv_lhs => rw [ht]
    rw [List.map_ofFn]; rfl
  obtain ⟨y, hy, z, hz, hyz⟩ := (curveSpace c _ t).exists_add_mem_mem_orthogonal (WithLp.toLp 2 f)
  have hfi : ∀ i, f i = y i + z i := fun i => congrArg (fun v : EuclideanSpace ℝ (Fin τ.length) => v i) hyz
  obtain ⟨q, hq, hyq⟩ := hy
  have hzero : ∀ q', Admissible c q' → ∑ i, z i * linCurve c q' (t i) = 0 := by
    intro q' hq'
    have hm : (WithLp.toLp 2 fun i => linCurve c q' (t i) : EuclideanSpace ℝ (Fin τ.length)) ∈ curveSpace c _ t :=
      ⟨q', hq', fun i => rfl⟩
    have h0 := (Submodule.mem_orthogonal _ _).1 hz _ hm
    rw [PiLp.inner_apply] at h0
    rw [← h0]
    exact Finset.sum_congr rfl fun i _ => by simp
  have hb := h.best (List.ofFn fun i => y i) (by simp) (fun q' hq' => by
    rw [← h.unbiased q' hq', hmap, hf, combine_fin, combine_fin]
    have := hzero q' hq'
    simp only [hfi, add_mul, Finset.sum_add_distrib]
    rw [this, add_zero])
  rw [hf, sumSq_fin, sumSq_fin] at hb
  have hc : ∑ i, f i ^ 2 = ∑ i, y i ^ 2 + ∑ i, z i ^ 2 := by
    have h0 := hzero q hq
    have : ∀ i, f i ^ 2 = y i ^ 2 + z i ^ 2 + 2 * (z i * linCurve c q (t i)) := fun i => by
      rw [hfi, ← hyq]; ring
    simp only [this, Finset.sum_add_distrib, ← Finset.mul_sum]
    rw [h0, mul_zero, add_zero]
  have hz0 : ∀ i, z i = 0 := by
    have hs : ∑ i, z i ^ 2 = 0 := le_antisymm (by linarith) (Finset.sum_nonneg fun i _ => sq_nonneg _)
    intro i
    have := (Finset.sum_eq_zero_iff_of_nonneg fun i _ => sq_nonneg (z i)).1 hs i (Finset.mem_univ _)
    exact pow_eq_zero_iff (two_ne_zero) |>.1 this
  refine ⟨q, hq, ?_⟩
  rw [hmap, hf]
  congr 1
  funext i
  rw [hfi, hz0, add_zero, hyq]

/-! ## Repeated samples -/

section
variable {c : Coef} {k : ℕ} {S S' : List (ℝ × ℂ)}

theorem sum_repeated (hS : S'.Perm (List.replicate k S).flatten) (f : ℝ × ℂ → ℝ) :
    (S'.map f).sum = k * (S.map f).sum := by
  rw [(hS.map f).sum_eq, sum_replicate_flatten]

theorem combine_map (f g : ℝ × ℂ → ℝ) (l : List (ℝ × ℂ)) :
    combine (l.map f) (l.map g) = (l.map fun s => f s * g s).sum := by
  unfold combine
  rw [List.zipWith_map, List.zipWith_self]

theorem sum_comb (x : ℝ) (f g : ℝ × ℂ → ℝ) (l : List (ℝ × ℂ)) :
    (l.map fun s => x * f s - g s).sum = x * (l.map f).sum - (l.map g).sum := by
  induction l with
  | nil => simp
  | cons s l ih =>
    simp only [List.map_cons, List.sum_cons, ih]
    ring

theorem zero_of_sum_zero {l : List ℝ} (h : ∀ x ∈ l, 0 ≤ x) (h0 : l.sum = 0) : ∀ x ∈ l, x = 0 := by
  intro x hx
  exact le_antisymm (h0 ▸ List.single_le_sum h x hx) (h x hx)

theorem blue_repeated {par : CurvePar → ℝ} {a a' : List ℝ} (hk : 0 < k) (hS : S'.Perm (List.replicate k S).flatten)
    (h : Blue c (S.map Prod.fst) par a) (h' : Blue c (S'.map Prod.fst) par a') :
    sumSq a' = sumSq a / k ∧ ∀ g : ℝ × ℂ → ℝ, combine a' (S'.map g) = combine a (S.map g) := by
  have hk' : (k : ℝ) ≠ 0 := by exact_mod_cast hk.ne'
  obtain ⟨q, hq, ha⟩ := h.curve
  obtain ⟨q', hq', ha'⟩ := h'.curve
  rw [List.map_map] at ha ha'
  have e : ∀ r, Admissible c r → (S.map fun s => linCurve c q s.1 * linCurve c r s.1).sum = par r := fun r hr => by
    have := h.unbiased r hr
    rwa [ha, List.map_map, combine_map] at this
  have e' : ∀ r, Admissible c r → k * (S.map fun s => linCurve c q' s.1 * linCurve c r s.1).sum = par r := fun r hr => by
    have := h'.unbiased r hr
    rw [ha', List.map_map, combine_map] at this
    rw [← this, ← sum_repeated hS]
    rfl
  have hr0 := hq'.comb hq k (-1)
  have hd : ∀ s ∈ S, k * linCurve c q' s.1 = linCurve c q s.1 := by
    have h0 : (S.map fun s => (k * linCurve c q' s.1 + -1 * linCurve c q s.1) ^ 2).sum = 0 := by
      have h1 := e _ hr0
      have h2 := e' _ hr0
      simp only [linCurve_comb] at h1 h2
      rw [← sub_eq_zero.2 (h2.trans h1.symm), ← sum_comb]
      congr 1
      exact List.map_congr_left fun s _ => by ring
    intro s hs
    have h1 := (zero_of_sum_zero (fun x hx => by
      obtain ⟨s, -, rfl⟩ := List.mem_map.1 hx
      exact sq_nonneg _) h0) _ (List.mem_map_of_mem hs)
    have h2 := pow_eq_zero_iff (two_ne_zero) |>.1 h1
    linarith
  have hc : ∀ g : ℝ × ℂ → ℝ, combine a' (S'.map g) = combine a (S.map g) := by
    intro g
    rw [ha, ha', combine_map, combine_map, sum_repeated hS, ← List.sum_map_mul_left]
    congr 1
    refine List.map_congr_left fun s hs => ?_
    show k * (linCurve c q' s.1 * g s) = linCurve c q s.1 * g s
    rw [← mul_assoc, hd s hs]
  refine ⟨?_, hc⟩
  have h1 : sumSq a' = combine a (S.map (linCurve c q' ∘ Prod.fst)) := by
    rw [← hc, ← combine_self]
    exact congrArg (combine a') ha'
  have h2 : sumSq a = k * combine a (S.map (linCurve c q' ∘ Prod.fst)) := by
    rw [← combine_self]
    conv_lhs => rw [ha]
    conv_rhs => rw [ha]
    rw [combine_map, combine_map, ← List.sum_map_mul_left]
    congr 1
    refine List.map_congr_left fun s hs => ?_
    show linCurve c q s.1 * linCurve c q s.1 = k * (linCurve c q s.1 * linCurve c q' s.1)
    rw [mul_left_comm, hd s hs]
  rw [h1, h2, mul_div_cancel_left₀ _ hk']

theorem noise_repeated {s s' : ℝ} (g : ℝ × ℂ → ℝ) (hS : S'.Perm (List.replicate k S).flatten)
    (hk : 0 < k) (h : NoiseVariance c (S.map Prod.fst) (S.map g) s) (h' : NoiseVariance c (S'.map Prod.fst) (S'.map g) s') :
    s' = k * (((S.length : ℝ) - numPar c) / (k * S.length - numPar c)) * s := by
  obtain ⟨h1, r, h2, rfl⟩ := h
  obtain ⟨h1', r', h2', rfl⟩ := h'
  have hk' : (0 : ℝ) < k := by exact_mod_cast hk
  have hlen : (S'.length : ℝ) = k * S.length := by
    rw [hS.length_eq]
    simp
  have hres : ∀ (l : List (ℝ × ℂ)) q, sumSq (List.zipWith (fun a b => a - b) (l.map g) ((l.map Prod.fst).map (linCurve c q))) =
      (l.map fun s => (g s - linCurve c q s.1) ^ 2).sum := by
    intro l q
    unfold sumSq
    rw [List.map_map, List.zipWith_map, List.zipWith_self, List.map_map]
    rfl
  have hr : r' = k * r := by
    obtain ⟨⟨q, hq, hqr⟩, hle⟩ := h2
    obtain ⟨⟨q', hq', hqr'⟩, hle'⟩ := h2'
    rw [hres] at hqr hqr'
    rw [sum_repeated hS] at hqr'
    refine le_antisymm ?_ ?_
    · refine hle' ⟨q, hq, ?_⟩
      rw [hres, sum_repeated hS, hqr]
    · rw [hqr']
      refine mul_le_mul_of_nonneg_left (hle ⟨q', hq', ?_⟩) hk'.le
      rw [hres]
  simp only [List.length_map] at h1 h1' ⊢
  have p1 : (0 : ℝ) < S.length - numPar c := sub_pos.2 (by exact_mod_cast h1)
  have p2 : (0 : ℝ) < k * S.length - numPar c := by
    rw [← hlen]
    exact sub_pos.2 (by exact_mod_cast h1')
  rw [hr, hlen]
  field_simp

end

/-! ## C113 -/

/-- **C113.** Ordinary least squares without inference, linearised intervals with white noise, `n` usable samples and
`m` parameters per component: if a second call gets every row `k` times, analyses the same constituents and has the same
reference time, the intervals of all parameters shrink by the factor `sqrt ((n - m) / (k n - m))`. -/
theorem C113_repeated {E : Env} {t t' : TimeArg} {u u' : Series} {v v' : Option Series} {lat : Option ℝ}
    {opts : Dict PyVal} {c c' : Coef} {tn tn' : List Fl} (R : Ready E t u v) (R' : Ready E t' u' v')
    (hI : InvOk E.num.inv) (hv : v'.isSome = v.isSome) (H : WhiteRun E t u v lat opts c tn)
    (H' : WhiteRun E t' u' v' lat opts c' tn') (k : ℕ) (hk : 0 < k) (hS : RepeatedRows k tn u v tn' u' v')
    (hn : c'.name.Perm c.name) (href : c'.reftime = c.reftime) :
    ∃ ci ci', c.ci = some ci ∧ c'.ci = some ci' ∧
      ∀ (i j : ℕ) (n : String), c.name[i]? = some n → c'.name[j]? = some n →
        numPar c < (sampleTimes tn u v).length ∧ ∃ r, intervalAt ci i = some r ∧ intervalAt ci' j = some (Ci1.narrow (Real.sqrt
          ((((sampleTimes tn u v).length : ℝ) - numPar c) / (k * (sampleTimes tn u v).length - numPar c))) r) := by
  obtain ⟨p, constit, m, W, rf, full, o, ind, F, -⟩ :=
    run_facts R H.keys H.ols H.returned none H.infer (fun s hs => by cases hs) tn H.time
  obtain ⟨p', constit', m', W', rf', full', o', ind', F', -⟩ :=
    run_facts R' H'.keys H'.ols H'.returned none H'.infer (fun s hs => by cases hs) tn' H'.time
  have hoo : c'.opt = c.opt := by
    have := F'.hopt
    rw [hv, F.hopt] at this
    exact (Except.ok.inj this).symm
  have C : SameCurves c c' := ⟨by rw [hoo], by rw [hoo], href,
    by rw [F.clat, F'.clat, Option.some.inj (F'.prep.init.hlat.symm.trans F.prep.init.hlat)], hn⟩
  have hP := samples_repeated hS
  rw [← usable_samples _ _ _ (F.samples R).1, ← usable_samples _ _ _ (F'.samples R').1] at hP
  obtain ⟨ci, qu, qv, hci, hqu, -, hall⟩ := white_facts R hI H
  obtain ⟨ci', qu', qv', hci', -, -, hall'⟩ := white_facts R' hI H'
  refine ⟨ci, ci', hci, hci', fun i j n hi hj => ?_⟩
  obtain ⟨a, b, su, sv, -, k1, k2, k3, k4, -, -, -, k8⟩ := hall i n hi
  obtain ⟨a', b', su', sv', -, k1', k2', k3', k4', -, -, -, k8'⟩ := hall' j n hj
  refine ⟨k3.1, _, k8, ?_⟩
  have hk0 : (k : ℝ) ≠ 0 := by exact_mod_cast hk.ne'
  obtain ⟨e1, e2⟩ := blue_repeated hk hP k1 (C.blue k1')
  obtain ⟨e3, e4⟩ := blue_repeated hk hP k2 (C.blue k2')
  have e5 := noise_repeated (fun s => s.2.re) hP hk k3 (C.noise k3')
  have e6 := noise_repeated (fun s => s.2.im) hP hk k4 (C.noise k4')
  have c1 : combine a' (sampleU tn' u' v') = combine a (sampleU tn u v) := e2 fun s => s.2.re
  have c2 : combine a' (sampleV tn' u' v') = combine a (sampleV tn u v) := e2 fun s => s.2.im
  have c3 : combine b' (sampleU tn' u' v') = combine b (sampleU tn u v) := e4 fun s => s.2.re
  have c4 : combine b' (sampleV tn' u' v') = combine b (sampleV tn u v) := e4 fun s => s.2.im
  have hl : (usable tn u.data (v.map Series.data)).length = (sampleTimes tn u v).length := by
    unfold sampleTimes; rw [List.length_map]
  rw [hl] at e5 e6
  have p1 : (0 : ℝ) < (sampleTimes tn u v).length - numPar c := sub_pos.2 (by exact_mod_cast k3.1)
  have p2 : (0 : ℝ) < k * (sampleTimes tn u v).length - numPar c := by
    have h1 : (1 : ℝ) ≤ k := by exact_mod_cast hk
    have h2 : (0 : ℝ) ≤ (sampleTimes tn u v).length := by positivity
    nlinarith
  generalize hφ : (((sampleTimes tn u v).length : ℝ) - numPar c) / (k * (sampleTimes tn u v).length - numPar c) = φ at e5 e6 ⊢
  have hφ0 : 0 < φ := by rw [← hφ]; exact div_pos p1 p2
  have hsq : Real.sqrt φ ^ 2 = φ := Real.sq_sqrt hφ0.le
  have hv1 : ∀ s x : ℝ, k * φ * s * (x / k) = Real.sqrt φ ^ 2 * (s * x) := fun s x => by
    rw [hsq]; field_simp
  rw [k8', hv, c1, c2, c3, c4, e1, e3, e5, e6, hv1, hv1, hv1, hv1]
  split_ifs
  · rw [linear2_narrow _ (Real.sqrt_pos.2 hφ0)]
  · rw [linear1_narrow _ (Real.sqrt_pos.2 hφ0)]

end

end UTide.Props
