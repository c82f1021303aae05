import Verif.Props.SwapProps
import Verif.Props.ZeroProps

/-!
# Intervals of an elevation analysed as a current: C112
-/

namespace UTide.Props

noncomputable section

open Classical

local notation "conj" => starRingEnd ℂ

/-! ## Specification -/

/-- **C112**, in full: an elevation given as a current whose second component is zero has the same intervals. -/
def C112_full : Prop :=
  ∀ (E : Env) (t : TimeArg) (u w : Series) (lat : Option ℝ) (opts : Dict PyVal) (c c' : Coef) (ci ci' : CiArr),
    Ready E t u none → Ready E t u (some w) → NumOk E.num → (∀ x ∈ w.data, x.value? = some 0) → opts.keys.Nodup →
    (∃ x, requested opts "conf_int" = some x ∧ IsStr x "linear") → requested opts "infer" = some .none →
    solve E t u none lat opts = .ok c → solve E t u (some w) lat opts = .ok c' → c.ci = some ci → c'.ci = some ci' →
    ∀ (i j : ℕ) (n : String) (r r' : Ci1), c.name[i]? = some n → c'.name[j]? = some n → intervalAt ci i = some r →
      intervalAt ci' j = some r' → r'.maj = r.maj ∧ r'.g = r.g

/-! ## Lemmas -/

theorem Fl_add_zero (s : Fl) : s + Fl.fin 0 = s := by
  cases s
  · exact congrArg Fl.fin (add_zero _)
  all_goals rfl

theorem linear_zero (Xu Yu a b : ℝ) : (linear2 none Xu Yu 0 0 a b 0 0).1 = (linear1 none Xu Yu a b).1 := by
  have h0 : (Fl.fin 0).sqrt = .fin 0 := by
    simp [Fl.sqrt]
  have h1 : ∀ s : Fl, addJ s (.fin 0) = (s, .fin 0) := fun s => by
    have h : Fl.fin 0 * Fl.fin 0 = Fl.fin 0 := congrArg Fl.fin (mul_zero 0)
    unfold addJ
    rw [h, Fl_add_zero]
  have h2 : Fl.fin 1.96 * Fl.fin 0 = Fl.fin 0 := congrArg Fl.fin (mul_zero _)
  have h3 : ∀ s s', (utLinci Xu Yu 0 0 s s' (.fin 0) (.fin 0)).sMin = .fin 0 ∧
      (utLinci Xu Yu 0 0 s s' (.fin 0) (.fin 0)).sTheta = .fin 0 := fun s s' => by
    unfold utLinci
    dsimp only
    rw [if_pos rfl]
    exact ⟨rfl, rfl⟩
  unfold linear2 linear1 utLinci2
  dsimp only
  rw [h0, h1, h1]
  dsimp only
  rw [(h3 _ _).1, (h3 _ _).2, h2]

/-- Data which are zero leave no residual. -/
theorem noise_zero {c : Coef} {τ y : List ℝ} (hy : ∀ x ∈ y, x = 0) {s : ℝ} (h : NoiseVariance c τ y s) : s = 0 := by
  obtain ⟨-, rss, ⟨⟨q, -, hq⟩, h2⟩, rfl⟩ := h
  have h3 : rss ≤ 0 := by
    refine h2 ⟨⟨fun _ => 0, fun _ => 0, 0, 0⟩, fun _ => rfl, ?_⟩
    symm
    refine List.sum_eq_zero fun x hx => ?_
    obtain ⟨z, hz, rfl⟩ := List.mem_map.1 hx
    obtain ⟨i, hi, rfl⟩ := List.mem_iff_getElem.1 hz
    rw [List.getElem_zipWith, List.getElem_map, hy _ (List.getElem_mem _)]
    simp [linCurve]
  have h4 : 0 ≤ rss := by rw [hq]; exact sumSq_nonneg _
  rw [le_antisymm h3 h4, zero_div]

theorem combine_zeros (a : List ℝ) {y : List ℝ} (hy : ∀ x ∈ y, x = 0) : combine a y = 0 := by
  refine List.sum_eq_zero fun x hx => ?_
  obtain ⟨i, hi, rfl⟩ := List.mem_iff_getElem.1 hx
  rw [List.getElem_zipWith, hy _ (List.getElem_mem _), mul_zero]

/-- **C112**, what holds: with white noise, without inference, the elevation given as a current whose second component
is zero has the same intervals as the elevation, constituent by constituent, and those of the minor axis and of the
orientation are zero. Missing: coloured noise (`C112_false`). -/
theorem C112_partial {E : Env} {t : TimeArg} {u w : Series} {lat : Option ℝ} {opts : Dict PyVal} {c c' : Coef}
    {tn tn' : List Fl} (R : Ready E t u none) (R' : Ready E t u (some w)) (hI : InvOk E.num.inv)
    (hw : ∀ x ∈ w.data, x.value? = some 0) (H : WhiteRun E t u none lat opts c tn)
    (H' : WhiteRun E t u (some w) lat opts c' tn') :
    ∃ ci ci', c.ci = some ci ∧ c'.ci = some ci' ∧ c'.name.Perm c.name ∧
      ∀ (i j : ℕ) (n : String), c.name[i]? = some n → c'.name[j]? = some n →
        ∃ r, intervalAt ci i = some r ∧ intervalAt ci' j = some r ∧ r.min = .fin 0 ∧ r.theta = .fin 0 := by
  obtain ⟨p, p', tn₀, constit, constit', m, W, rf, rf', full, full', o, ind, ind', Z⟩ := zero_twin E t u w lat opts opts
    R R' hw H.keys H.keys (fun _ _ => rfl) c c' H.returned H'.returned
    (fun opt p tn constit m W rf full o ind F => .of_min (F.prep.height R.ht R.hu R.hv) (F.minNorm R (by
      obtain ⟨x, hx, hs⟩ := H.ols
      exact (getOpt_requests _ H.keys _ _ F.hopt).ols x hx ((eqStr_iff _ _).2 hs)))) none H.infer H'.infer
  obtain ⟨F, F', T, hoo, -, -, -, hx, hreal⟩ := Z
  have S : SameCurves c c' := ⟨by rw [hoo], by rw [hoo], by rw [F.creftime, F'.creftime, T.tref],
    by rw [F.clat, F'.clat, T.lat], same_names F F' R R' H.keys T.sel H.kept rfl⟩
  obtain rfl : tn = tn₀ := Except.ok.inj (H.time.symm.trans F.prep.init.time)
  obtain rfl : tn' = tn := Except.ok.inj (H'.time.symm.trans F'.prep.init.time)
  obtain ⟨-, a2, a3⟩ := F.samples R
  obtain ⟨-, b2, b3⟩ := F'.samples R'
  have s1 : sampleTimes tn' u (some w) = sampleTimes tn' u none := b2.symm.trans (T.t.trans a2)
  have s2 : sampleU tn' u (some w) = sampleU tn' u none := by
    have := congrArg (List.map Complex.re) (b3.symm.trans (hx.trans a3))
    rw [List.map_map, List.map_map] at this
    exact this
  have s3 : ∀ x ∈ sampleV tn' u (some w), x = 0 := by
    have : sampleV tn' u (some w) = (xraw p.ed).map Complex.im := by
      rw [← hx, b3, List.map_map]; rfl
    intro y hy
    rw [this] at hy
    obtain ⟨z, hz, rfl⟩ := List.mem_map.1 hy
    exact Complex.conj_eq_iff_im.1 (hreal z hz)
  obtain ⟨ci, qu, qv, hci, hqu, hqv, hall⟩ := white_facts R hI H
  obtain ⟨ci', qu', qv', hci', -, -, hall'⟩ := white_facts R' hI H'
  refine ⟨ci, ci', hci, hci', S.name, fun i j n hi hj => ?_⟩
  obtain ⟨a, b, su, sv, -, k1, k2, k3, -, -, -, -, k8⟩ := hall i n hi
  obtain ⟨a', b', su', sv', -, k1', k2', k3', k4', -, -, -, k8'⟩ := hall' j n hj
  rw [s1] at k1' k2' k3' k4'
  rw [s2] at k3' k8'
  cases (S.blue k1').unique k1
  cases (S.blue k2').unique k2
  cases noise_unique (S.noise k3') k3
  cases noise_zero s3 k4'
  simp only [Option.isSome_some, Option.isSome_none, if_true, combine_zeros _ s3, zero_mul, linear_zero,
    Bool.false_eq_true, if_false] at k8 k8'
  exact ⟨_, k8, k8', rfl, rfl⟩

/-! ## Counterexample -/

/-- Zero variances cannot be rescaled. -/
theorem linear2_dead (P : ℝ) (Xu Yu Xv Yv a b : ℝ) : (linear2 (some (.fin P)) Xu Yu Xv Yv a b 0 0).1.maj = .nan := by
  have h0 : rescale (.fin P) 0 (0 + 0) = .nan := by
    have h : Fl.fin P * Fl.fin 0 = Fl.fin 0 := congrArg Fl.fin (mul_zero P)
    unfold rescale
    rw [h, add_zero]
    exact zero_div_zero
  have h1 : Fl.sqrt .nan = .nan := rfl
  have h2 : ∀ s : Fl, addJ s .nan = (.nan, .nan) := fun s => by
    unfold addJ
    rw [mul_nan, add_nan]
  have h3 : ∀ d1 d2 d3 d4 : Fl, linSum d1 d2 d3 d4 .nan .nan .nan .nan = .nan := fun d1 d2 d3 d4 => by
    have hs : Fl.sq .nan = .nan := rfl
    unfold linSum
    rw [hs, mul_nan, nan_add, nan_add, nan_add]
    rfl
  have h4 : (utLinci Xu Yu Xv Yv .nan .nan .nan .nan).sMaj = .nan := by
    unfold utLinci
    dsimp only
    split_ifs
    · exact h3 _ _ _ _
    · rw [h3, h3]
      exact congrArg Prod.fst (h2 _)
  unfold linear2 utLinci2
  dsimp only
  rw [h0, h1, h2, h2, h4, mul_nan]

/-- With coloured noise the variances of the zero component are scaled by a power over a sum which are both zero, while
those of the other component are not scaled at all: the elevation has an interval, the current has none. -/
theorem C112_false : ¬ C112_full := by
  intro h
  obtain ⟨z, Z⟩ := pent_rot
  obtain ⟨c, hname, H, ci, vX, vY, da, dg, r, hci, -, -, -, hr⟩ := pent_scalar z Z.h0 Z.h1 Z.h2 Z.h3 Z.h4 Z.hu Z.hr Z.hi
  obtain ⟨c', Q'⟩ := pent_pair z false 1 1 0 0 0 0
  obtain ⟨ci', a', b', hci', -, -, hr'⟩ := pent_coloured Z Q'
  obtain ⟨h1, -⟩ := h idealEnv pentT (pentData z 1 1 0) (pentData z 0 0 0) (some 45) (ciOpts "linear" false) c c' ci ci'
    (pent_ready _ _ _ _ _ none (.inl rfl)) (pent_pair_ready z 1 1 0 0 0 0) idealNum_ok
    (by simp [pentData, pentSeries]; rfl) (by decide) ⟨.str "linear", rfl, .inl rfl⟩ rfl H.returned
    (PentRun.returned Q') hci hci' 0 0 "M2" _ _ (by rw [hname]; rfl) (by rw [PentRun.name Q']; rfl) hr hr'
  have hS : sumSq (pentRes z 0 0) / 2 = 0 := by
    simp [sumSq, pentRes]
  simp only [hS, zero_mul] at h1
  rw [linear2_dead] at h1
  cases h1

/-- Non-vacuity of `C112_partial`: a run with noise, and the same as a current. -/
example : ∃ u w c c', WhiteRun idealEnv pentT u none (some 45) (ciOpts "linear" true) c pentTn ∧
    WhiteRun idealEnv pentT u (some w) (some 45) (ciOpts "linear" true) c' pentTn ∧
    ∃ ci ci' r, c.ci = some ci ∧ c'.ci = some ci' ∧ intervalAt ci 0 = some r ∧ intervalAt ci' 0 = some r := by
  obtain ⟨z, Z⟩ := pent_rot
  obtain ⟨c, Q, -⟩ : ∃ co, PentRun (ciOpts "linear" true) (ciOpt false true true)
      (1 * (z.re ^ 2 - z.im ^ 2) + 1 * (1 - z.re) + 0 * z.im)
      (1 * z.re - 1 * (1 - (z.re ^ 2 - z.im ^ 2)) - 0 * (2 * z.re * z.im))
      (1 + 1 * (2 * (z.re - (z.re ^ 2 - z.im ^ 2))))
      (1 * z.re - 1 * (1 - (z.re ^ 2 - z.im ^ 2)) + 0 * (2 * z.re * z.im))
      (1 * (z.re ^ 2 - z.im ^ 2) + 1 * (1 - z.re) - 0 * z.im) none co ∧ co.ci ≠ none :=
    pent_ci _ _ _ _ _ none (.inl rfl) true
  obtain ⟨c', Q'⟩ := pent_pair z true 1 1 0 0 0 0
  have H : WhiteRun idealEnv pentT (pentData z 1 1 0) none (some 45) (ciOpts "linear" true) c pentTn :=
    ⟨Q.returned, by decide, ⟨.str "ols", rfl, .inl rfl⟩, by rw [Q.opt]; rfl, by rw [Q.opt]; rfl,
      by rw [Q.opt]; rfl, by rw [Q.opt]; rfl, Q.kept, by rw [Q.opt]; exact pent_times⟩
  have H' : WhiteRun idealEnv pentT (pentData z 1 1 0) (some (pentData z 0 0 0)) (some 45) (ciOpts "linear" true) c'
      pentTn :=
    ⟨PentRun.returned Q', by decide, ⟨.str "ols", rfl, .inl rfl⟩, by rw [PentRun.opt Q']; rfl,
      by rw [PentRun.opt Q']; rfl, by rw [PentRun.opt Q']; rfl, by rw [PentRun.opt Q']; rfl, PentRun.kept Q',
      by rw [PentRun.opt Q']; exact pent_times⟩
  obtain ⟨ci, ci', h1, h2, -, h3⟩ := C112_partial (pent_ready _ _ _ _ _ none (.inl rfl))
    (pent_pair_ready z 1 1 0 0 0 0) idealNum_ok.inv (by simp [pentData, pentSeries]; rfl) H H'
  obtain ⟨r, h4, h5, -⟩ := h3 0 0 "M2" (by rw [Q.name]; rfl) (by rw [PentRun.name Q']; rfl)
  exact ⟨_, _, c, c', H, H', ci, ci', r, h1, h2, h4, h5⟩

end

end UTide.Props
