import Verif.Props.AxesProps
import Verif.Props.ValueFreeProps
import Verif.Props.NeedProps
import Verif.Props.RelExamples
import Verif.Props.MirrorProps

/-!
# C155: a current along a line
-/

namespace UTide

namespace Props

noncomputable section

open Classical

/-- Specification: the current `u`, `w` is `h` along the direction of `φ` degrees: `u = h cos φ`, `v = h sin φ`, missing
where `h` is missing. -/
def AlongLine (φ : ℝ) (h u w : Series) : Prop :=
  sampleValues u.data (some w.data) = (sampleValues h.data none).map (Option.map fun x => cisd φ * x)

/-- A series of zeros. -/
def zeros (h : Series) : Series := ⟨h.shape, h.data.map fun _ => ⟨.fin 0, false⟩⟩

theorem zeros_values (h : Series) : sampleValues h.data (some (zeros h).data) = sampleValues h.data none := by
  unfold sampleValues zeros
  dsimp only
  induction h.data with
  | nil => rfl
  | cons a l ih =>
    simp only [List.map_cons, List.zipWith_cons_cons, ih]
    congr 1
    cases a.value? with
    | none => rfl
    | some x => rfl

/-- **C155.** Least squares without intervals and without inference: the analysis of the current that `h` is along a
line, compared with the analysis of `h`. The names, frequencies and percent energies are the same; every ellipse is
a segment along the line whose length is the amplitude, with the phase of the elevation (half turns of orientation
and phase going together); mean and slope lie along the line. -/
theorem C155_line (E : Env) (t : TimeArg) (h u w : Series) (lat : Option ℝ) (opts : Dict PyVal) (φ : ℝ)
    (R : Ready E t h none) (R' : Ready E t u (some w)) (hnd : opts.keys.Nodup) (ha : AlongLine φ h u w)
    (hm : ∃ x, requested opts "method" = some x ∧ IsStr x "ols")
    (hc : ∃ x, requested opts "conf_int" = some x ∧ IsStr x "none") (hi : requested opts "infer" = some .none)
    (c c' : Coef) (hr : solve E t h none lat opts = .ok c) (hr' : solve E t u (some w) lat opts = .ok c')
    (ho : ¬ IsStr c.opt.ordercnstit "SNR") (ho' : ¬ IsStr c'.opt.ordercnstit "SNR") :
    c'.name = c.name ∧ c'.frq = c.frq ∧ c'.lind = c.lind ∧ c'.PE = c.PE ∧
    (∃ m s, c.mean = .one m s ∧ c'.mean = .two (m * (cisd φ).re) (m * (cisd φ).im)
      (s.map fun b => (b * (cisd φ).re, b * (cisd φ).im))) ∧
    ∀ i e, ellipseAt c.ell i = some e → ∃ e', ellipseAt c'.ell i = some e' ∧ e'.Lsmaj = e.Lsmaj ∧ e'.Lsmin = 0 ∧
      (0 < e.Lsmaj → ∃ a b : ℤ, e'.theta = φ + 180 * a ∧ e'.g = e.g + 180 * b ∧ Even (a - b)) := by
  have R0 : Ready E t h (some (zeros h)) := ⟨R.lstsq, R.argsort, R.ht, R.hu, by
    rintro w0 hw
    cases hw
    have := R.hu
    unfold Series.WF at this ⊢
    simpa [zeros] using this⟩
  obtain ⟨q, p, tn, con, m, W, rf, full, o, ind, F⟩ := solve_facts R hr
  obtain ⟨q', p', tn', con', m', W', rf', full', o', ind', F'⟩ := solve_facts R' hr'
  have hs := F.prep.init.shapes
  have hs' := F'.prep.init.shapes
  -- the current (h, 0)
  have hout := C106_outcome E t u h (some w) (some (zeros h)) lat opts hnd R'.ht R'.hu R'.hv R0.hu R0.hv hm hc
    (hs.1.symm.trans hs'.1) (by
      simp only [Option.map_some]
      rw [hs'.2.2 w rfl, ← hs'.1, hs.1]
      rfl) (by
      intro i
      simp only [Option.map_some]
      rw [zeros_values, ha, List.getElem?_map]
      cases (sampleValues h.data none)[i]? with
      | none => simp
      | some x => cases x <;> simp)
  rw [hr'] at hout
  obtain ⟨c0, hr0⟩ : ∃ c0, solve E t h (some (zeros h)) lat opts = .ok c0 := by
    cases hz : solve E t h (some (zeros h)) lat opts with
    | ok c0 => exact ⟨c0, rfl⟩
    | error e => rw [hz] at hout; cases hout
  have hopt0 : c0.opt = c'.opt := by
    obtain ⟨a, h1, h2⟩ := solve_opt _ _ _ _ _ _ _ hr0
    obtain ⟨b, h3, h4⟩ := solve_opt _ _ _ _ _ _ _ hr'
    rw [h2, h4]
    exact Except.ok.inj (h1.symm.trans h3)
  have hinf : ∀ (v : Option Series) (x : Series) (co : Coef), solve E t x v lat opts = .ok co →
      readInfer co.opt.infer = .ok none := by
    intro v x co hco
    obtain ⟨a, h1, h2⟩ := solve_opt _ _ _ _ _ _ _ hco
    have h3 : a.infer = .none := (Except.ok.inj ((getOpt_requests _ hnd _ _ h1).infer _ hi)).symm
    rw [h2, h3]
    rfl
  obtain ⟨n1, f1, l1, P1, ⟨A, g, e1, e2⟩, mean, slope, m1, m2⟩ := C07_zero_component E t h (zeros h) lat opts opts R R0
    (by
      intro x hx
      simp only [zeros, List.mem_map] at hx
      obtain ⟨_, _, rfl⟩ := hx
      rfl) hnd hnd (fun _ _ => rfl) hm c c0 hr hr0 none (hinf _ _ _ hr) (hinf _ _ _ hr0) ho
  obtain ⟨n2, f2, l2, P2, m3, hell⟩ := C08_rotation E t h (zeros h) u w lat opts R0 R' hnd hm c0 c' hr0 hr' tn'
    (by rw [hopt0, F'.copt]; exact F'.prep.init.time) φ (by
      intro i τ _
      simp only [Option.map_some]
      rw [zeros_values, ha, List.getElem?_map]) (by rw [hopt0]; exact ho')
  refine ⟨n2.trans n1, f2.trans f1, l2.trans l1, P2.trans P1, ⟨mean, slope, m1, ?_⟩, ?_⟩
  · rw [m3, m2]
    unfold rotateMean
    cases slope <;> simp [Complex.mul_re, Complex.mul_im, mul_comm]
  · intro i e he
    have h0 : ellipseAt c0.ell i = some ⟨e.Lsmaj, 0, 0, e.g⟩ := by
      rw [e1] at he
      rw [e2]
      unfold ellipseAt at he ⊢
      dsimp only at he ⊢
      rw [List.getElem?_map]
      cases hA : A[i]? with
      | none => rw [hA] at he; cases he
      | some a =>
        cases hg : g[i]? with
        | none => rw [hA, hg] at he; cases he
        | some b =>
          rw [hA, hg] at he
          cases Option.some.inj he
          rfl
    obtain ⟨e', he', T1, T2, T3, -⟩ := hell i _ h0
    refine ⟨e', he', T1, T2, fun hpos => ?_⟩
    obtain ⟨a, b, ht, hg, hev⟩ := T3 (by simpa using hpos)
    exact ⟨a, b, by rw [ht]; ring, hg, hev⟩

/-- Non-vacuity: the series 1, 0, 2 along 90 degrees is the current with components 0 and 1, 0, 2. -/
theorem line_along : AlongLine 90 (daySeries 1 0 2) (daySeries 0 0 0) (daySeries 1 0 2) := by
  unfold AlongLine
  rw [cisd_90]
  simp [sampleValues, daySeries, Cell.value?, Fl.toReal?, Complex.ext_iff]

example : ∃ c c', solve idealEnv dayT (daySeries 1 0 2) none (some 45) exOpts = .ok c ∧
    solve idealEnv dayT (daySeries 0 0 0) (some (daySeries 1 0 2)) (some 45) exOpts = .ok c' ∧ c'.name = c.name ∧
    ∀ i e, ellipseAt c.ell i = some e → ∃ e', ellipseAt c'.ell i = some e' ∧ e'.Lsmaj = e.Lsmaj ∧ e'.Lsmin = 0 ∧
      (0 < e.Lsmaj → ∃ a b : ℤ, e'.theta = 90 + 180 * a ∧ e'.g = e.g + 180 * b ∧ Even (a - b)) := by
  obtain ⟨c, hc, D⟩ := day_run 1 0 2 none (.inl rfl)
  obtain ⟨c', hc', D'⟩ := day_run 0 0 0 (some (daySeries 1 0 2)) (.inr ⟨1, 0, 2, rfl⟩)
  have R : Ready idealEnv dayT (daySeries 1 0 2) none :=
    idealReady _ _ _ dayReady.ht (by simp [Series.WF, daySeries]) (by simp)
  have R' : Ready idealEnv dayT (daySeries 0 0 0) (some (daySeries 1 0 2)) :=
    idealReady _ _ _ dayReady.ht (by simp [Series.WF, daySeries]) (by rintro w h; cases h; simp [Series.WF, daySeries])
  obtain ⟨h1, -, -, -, -, h2⟩ := C155_line idealEnv dayT (daySeries 1 0 2) (daySeries 0 0 0) (daySeries 1 0 2) (some 45)
    exOpts 90 R R' (by decide) line_along ⟨_, rfl, .inl rfl⟩ ⟨_, rfl, .inl rfl⟩ rfl c c' hc hc'
    (by rw [D.opt]; exact not_snr _) (by rw [D'.opt]; exact not_snr _)
  exact ⟨c, c', hc, hc', h1, h2⟩

end

end Props

end UTide
