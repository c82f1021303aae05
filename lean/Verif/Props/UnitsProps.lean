import Verif.Props.AvailProps
import Verif.Props.RobustScale
import Verif.Lemmas.SpecScale

/-!
# Signal-to-noise ratios and intervals of a record in other units: C83, C84
-/

namespace UTide.Props

noncomputable section

open Classical

local notation "conj" => starRingEnd ℂ

/-! ## Specification -/

/-- Every interval of an amplitude or semi-axis times `k`. -/
def scaleCi (k : ℝ) : CiArr → CiArr
  | .one A g => .one (A.map (Fl.fin k * ·)) g
  | .two a b c d => .two (a.map (Fl.fin k * ·)) (b.map (Fl.fin k * ·)) c d

/-! ## Lemmas -/

theorem ciSc_eq (k : ℝ) (hk : 0 < k) (c : CiArr) : c.sc k = scaleCi k c := by
  have : (Fl.fin k * ·) = Fl.sc k := by funext a; exact Fl.sc_mul_left k hk a
  cases c <;> simp only [CiArr.sc, scaleCi, this]

theorem scaleCi_permute (k : ℝ) (c : CiArr) (ind : List ℕ) : (scaleCi k c).permute ind = scaleCi k (c.permute ind) := by
  cases c <;> simp only [scaleCi, CiArr.permute, gather_map]

theorem noises_sc (k : ℝ) (hk : 0 < k) (c : CiArr) : noises (c.sc k) = (noises c).map (Fl.sc (k ^ 2)) := by
  have h1 : ∀ a : Fl, (a.sc k / Fl.fin 1.96).sq = (a / Fl.fin 1.96).sq.sc (k ^ 2) := by
    intro a
    have := Fl.sc_div' k 1 hk one_pos a (Fl.fin 1.96)
    rw [Fl.sc_one, div_one] at this
    rw [this, Fl.sc_sq k hk]
  cases c with
  | one A g => simp only [CiArr.sc, noises, List.map_map, Function.comp_def, h1]
  | two a b c d => simp only [CiArr.sc, noises, List.zipWith_map, List.map_zipWith, h1, Fl.sc_add]

theorem snr_scale (k : ℝ) (hk : 0 < k) (e : EllArr) (c : CiArr) : snr (scaleEll k e) (some (c.sc k)) = snr e (some c) := by
  have h2 : 0 < k ^ 2 := by positivity
  simp only [snr, energies_scale, noises_sc k hk, List.zipWith_map]
  congr 2
  funext x n
  rw [Fl.sc_fin, Fl.sc_div _ _ h2 h2, div_self h2.ne', Fl.sc_one]

theorem xmodOf_vscale (td : Bool) (B : List (List ℂ)) (k : ℝ) (m : List ℂ) :
    xmodOf td B (vscale k m) = vscale k (xmodOf td B m) := by
  unfold xmodOf
  conv_rhs => rw [vscale, List.map_map]
  refine List.map_congr_left fun r _ => ?_
  cases td <;> simp [dot_vscale]

theorem weightedResidual_vscale (W : List ℝ) (k : ℝ) (x y : List ℂ) :
    weightedResidual W (vscale k x) (vscale k y) = vscale k (weightedResidual W x y) := by
  unfold weightedResidual
  rw [zipWith_vscale]
  have : List.zipWith (fun a b => (k : ℂ) * a - k * b) x y = (List.zipWith (fun a b => a - b) x y).map ((k : ℂ) * ·) := by
    rw [List.map_zipWith]
    congr 1
    funext a b
    ring
  rw [this, List.zipWith_map_right]
  unfold vscale
  rw [List.map_zipWith]
  congr 1
  funext a b
  ring

section
variable {E : Env} {t : TimeArg} {u : Series} {v : Option Series} {lat : Option ℝ} {opts : Dict PyVal}
  {c : Coef} {opt : Opt} {p : Prep} {tn : List Fl} {constit : Constit} {m : List ℂ} {W : List ℝ}
  {rf : Option RobOut} {full : Coef} {o : Order} {ind : List ℕ}
  {u' : Series} {v' : Option Series} {c' : Coef} {p' : Prep} {constit' : Constit} {m' : List ℂ} {W' : List ℝ}
  {rf' : Option RobOut} {full' : Coef} {ind' : List ℕ}

/-- Time statistics of two runs on the same usable times. -/
theorem twin_times (F : Facts E t u v lat opts c opt p tn constit m W rf full o ind)
    (F' : Facts E t u' v' lat opts c' opt p' tn constit' m' W' rf' full' o ind') (R : Ready E t u v) (R' : Ready E t u' v')
    (f : ℝ → ℂ → ℂ) (T : Twin f p p') :
    p'.ed.tin = p.ed.tin ∧ p'.ed.equi = p.ed.equi ∧ p'.ed.elor = p.ed.elor := by
  obtain ⟨a1, a2, -, -, a5⟩ := editData_usable _ _ _ (F.samples R).1 _ F.prep.init.edit
  obtain ⟨b1, b2, -, -, b5⟩ := editData_usable _ _ _ (F'.samples R').1 _ F'.prep.init.edit
  rw [← a2] at a5
  rw [← b2, T.t, a5] at b5
  have h6 := Except.ok.inj b5
  exact ⟨by rw [a1, b1], (congrArg (fun x => x.2.2.2) h6).symm, (congrArg (fun x => x.2.2.1) h6).symm⟩

theorem confIn_scale (F : Facts E t u v lat opts c opt p tn constit m W rf full o ind)
    (F' : Facts E t u' v' lat opts c' opt p' tn constit' m' W' rf' full' o ind') (k : ℝ) (hk : 0 < k)
    (T : Twin (fun _ x => k * x) p p') (hinf : p'.infer = p.infer) (hm : m' = vscale k m) (hW : W' = W) :
    confIn p' m' W' = (confIn p m W).sc k p'.ed := by
  obtain ⟨us, h1, h2, h3⟩ := T.x
  have hx : xraw p'.ed = vscale k (xraw p.ed) := by rw [h3, h2, vscale, List.map_map]; rfl
  unfold confIn ConfIn.sc
  dsimp only
  rw [F.prep.hopt, F'.prep.hopt, T.sel, T.nm, T.B, hinf, hm, hW, hx, xmodOf_vscale, weightedResidual_vscale, apOf_vscale,
    amOf_vscale, allAp_vscale, allAm_vscale, ellOf_scale _ k hk]
  have hz : ∀ (f : ℂ → ℂ → ℝ), (∀ x y, f (k * x) (k * y) = k * f x y) → ∀ a b : List ℂ,
      List.zipWith f (vscale k a) (vscale k b) = (List.zipWith f a b).map (k * ·) := by
    intro f hf a b
    rw [zipWith_vscale, List.map_zipWith]
    congr 1
    funext x y
    exact hf x y
  congr 1
  · exact hz _ (fun x y => by simp; ring) _ _
  · exact hz _ (fun x y => by simp; ring) _ _
  · split
    · exact hz _ (fun x y => by simp; ring) _ _
    · rfl
  · split
    · exact hz _ (fun x y => by simp; ring) _ _
    · rfl
  · cases ellOf opt.twodim (allAp p.sel m) (allAm p.sel m) <;> rfl
  · cases ellOf opt.twodim (allAp p.sel m) (allAm p.sel m) <;> rfl

theorem Twin.shift (k : ℝ) (T : Twin (fun _ x => k * x) p p')
    (F : Facts E t u v lat opts c opt p tn constit m W rf full o ind) (R : Ready E t u v) :
    xraw p'.ed = shiftBy p.B (List.replicate p.nm 0) (vscale k (xraw p.ed)) := by
  obtain ⟨us, h1, h2, h3⟩ := T.x
  have hx : xraw p'.ed = vscale k (xraw p.ed) := by rw [h3, h2, vscale, List.map_map]; rfl
  have hdot0 : ∀ (r : List ℂ) (n : ℕ), dot r (List.replicate n 0) = 0 := by
    intro r n
    induction r generalizing n with
    | nil => simp
    | cons x r ih => cases n with
      | zero => simp
      | succ n => rw [List.replicate_succ, dot_cons, ih]; simp
  have hB := F.prep.height R.ht R.hu R.hv
  rw [hx]
  unfold shiftBy
  simp only [hdot0, add_zero]
  apply List.ext_getElem
  · simp [hB]
  · intro i h1 h2; simp

theorem vadd_replicate (x : List ℂ) (n : ℕ) (h : x.length = n) : vadd x (List.replicate n 0) = x := by
  unfold vadd
  apply List.ext_getElem
  · simp [h]
  · intro i h1 h2; simp

/-- Everything returned, for two runs with coefficients `m` and `k m`. -/
theorem units_results (F : Facts E t u v lat opts c opt p tn constit m W rf full o ind)
    (F' : Facts E t u' v' lat opts c' opt p' tn constit' m' W' rf' full' o ind') (R : Ready E t u v) (R' : Ready E t u' v')
    (hL : LombOk E.num.lombscargle) (hnd : opts.keys.Nodup)
    (hci : ∃ x, requested opts "conf_int" = some x ∧ IsStr x "linear") (k : ℝ) (hk : 0 < k)
    (T : Twin (fun _ x => k * x) p p') (hinf : p'.infer = p.infer) (hm : m' = vscale k m) (hW : W' = W)
    (hWl : W.length = p.ed.t.length) :
    c'.name = c.name ∧ c'.frq = c.frq ∧ c'.lind = c.lind ∧ c'.PE = c.PE ∧ c'.SNR = c.SNR ∧ c'.diagn = c.diagn ∧
      c'.ell = scaleEll k c.ell ∧ c'.mean = scaleMean k c.mean ∧ (∃ ci, c.ci = some ci ∧ c'.ci = some (scaleCi k ci)) := by
  have hq := getOpt_requests _ hnd _ _ F.hopt
  have hlin : opt.confInt = true ∧ opt.linci = true := by
    obtain ⟨x, hx, hs⟩ := hci
    have := hq.conf x hx
    have he := (eqStr_iff _ _).2 hs
    revert this
    generalize opt.confInt = a
    generalize opt.linci = b
    intro this
    cases this with
    | linear => exact ⟨rfl, rfl⟩
    | mc h => rw [he] at h; cases h
    | none h => rw [he] at h; cases h
  have hfe : full'.ell = scaleEll k full.ell := by
    rw [F.solved.ell, F'.solved.ell, F.prep.hopt, F'.prep.hopt, T.sel, hm, allAp_vscale, allAm_vscale, ellOf_scale _ k hk]
  have hpe : pe full'.ell = pe full.ell := by rw [hfe]; exact pe_scale k hk.ne' (energies_scale k _)
  have hname : full'.name = full.name := by rw [F.solved.name, F'.solved.name, T.sel]
  have hfrq : full'.frq = full.frq := by rw [F.solved.frq, F'.solved.frq, T.sel]
  have hlind : full'.lind = full.lind := by rw [F.solved.lind, F'.solved.lind, T.sel]
  obtain ⟨ci, hconf, hfc⟩ : ∃ ci, confidence E.num (confIn p m W) = .ok ci ∧ full.ci = some ci := by
    rcases F.solved.ci with ⟨h, -⟩ | ⟨-, h⟩
    · rw [F.prep.hopt, hlin.1] at h; cases h
    · exact h
  obtain ⟨ci', hconf', hfc'⟩ : ∃ ci, confidence E.num (confIn p' m' W') = .ok ci ∧ full'.ci = some ci := by
    rcases F'.solved.ci with ⟨h, -⟩ | ⟨-, h⟩
    · rw [F'.prep.hopt, hlin.1] at h; cases h
    · exact h
  have hcc : ci' = ci.sc k := by
    obtain ⟨e1, e2, e3⟩ := twin_times F F' R R' _ T
    have hlen : p.ed.t.length = (confIn p m W).e.length := by
      show _ = (weightedResidual W (xraw p.ed) (xmodOf p.opt.twodim p.B m)).length
      obtain ⟨us, h1, h2, -⟩ := T.x
      have hB := F.prep.height R.ht R.hu R.hv
      have hx : (xraw p.ed).length = p.ed.t.length := by rw [h1, h2]; simp
      simp [weightedResidual, xmodOf, hB, hx, hWl]
    have := confidence_scale hL k hk p'.ed (confIn p m W) (by show p.opt.linci = true; rw [F.prep.hopt]; exact hlin.2)
      T.t e1 e2 e3 hlen
    rw [← confIn_scale F F' k hk T hinf hm hW, hconf, hconf'] at this
    exact Except.ok.inj this
  have hsn : ∃ s, full.SNR = some s ∧ full'.SNR = some s ∧ full'.diagn = full.diagn := by
    rcases F.solved.SNR with ⟨h, -⟩ | ⟨-, s, h1, h2, h3⟩
    · rw [F.prep.hopt, hq.diagn, hlin.1] at h; cases h
    · rcases F'.solved.SNR with ⟨h, -⟩ | ⟨-, s', h1', h2', h3'⟩
      · rw [F'.prep.hopt, hq.diagn, hlin.1] at h; cases h
      · rw [hfe, hfc', hcc, snr_scale k hk, ← hfc, h1] at h1'
        cases Except.ok.inj h1'
        exact ⟨s, h2, h2', by rw [h3, h3', hpe, hname]⟩
  obtain ⟨s, hs1, hs2, hdi⟩ := hsn
  have hind : ind' = ind := by
    by_cases ho : o = .SNR
    · obtain ⟨a, ha, ha'⟩ := F.solved.indSNR ho
      obtain ⟨b, hb, hb'⟩ := F'.solved.indSNR ho
      rw [hs1] at ha
      rw [hs2] at hb
      cases ha
      cases hb
      rw [ha', hb']
    · exact same_ind F.solved F'.solved rfl ho hname hfrq hpe
  subst hind
  have hPE : full'.PE = full.PE := by rw [F.solved.PE, F'.solved.PE, hpe, F.prep.hopt, F'.prep.hopt]
  have hmean : full'.mean = scaleMean k full.mean := by
    rw [F.solved.head.mean, F'.solved.head.mean]
    show meanOf p'.opt.twodim p'.opt.notrend p'.ed.lor p'.nm m' = scaleMean k (meanOf p.opt.twodim p.opt.notrend p.ed.lor p.nm m)
    rw [F.prep.hopt, F'.prep.hopt, T.lor, T.nm, hm, meanOf_scale]
  rw [F.solved.result, F'.solved.result]
  refine ⟨?_, ?_, ?_, ?_, ?_, hdi, ?_, hmean, ci.permute ind', ?_, ?_⟩
  · show gather full'.name ind' = gather full.name ind'; rw [hname]
  · show gather full'.frq ind' = gather full.frq ind'; rw [hfrq]
  · show gather full'.lind ind' = gather full.lind ind'; rw [hlind]
  · show full'.PE.map _ = full.PE.map _; rw [hPE]
  · show full'.SNR.map _ = full.SNR.map _; rw [hs1, hs2]
  · show full'.ell.permute ind' = scaleEll k (full.ell.permute ind'); rw [hfe, scaleEll_permute]
  · show full.ci.map _ = _; rw [hfc]; rfl
  · show full'.ci.map _ = _; rw [hfc', hcc, ciSc_eq k hk, ← scaleCi_permute]; rfl

end

/-! ## C84 -/

/-- C84: with linear intervals, a record in other units has intervals of amplitudes and semi-axes in these units, the
same intervals of the angles, the same signal-to-noise ratios and so the same order, whatever the order asked for. -/
theorem C84_units (E : Env) (hN : NumOk E.num) (t : TimeArg) (u u' : Series) (v v' : Option Series) (lat : Option ℝ)
    (opts : Dict PyVal) (R : Ready E t u v) (R' : Ready E t u' v') (hv : v'.isSome = v.isSome) (hnd : opts.keys.Nodup)
    (hm : (∃ x, requested opts "method" = some x ∧ IsStr x "ols") ∨ ∃ kw, AsksRobust opts kw ∧ Harmless kw)
    (hci : ∃ x, requested opts "conf_int" = some x ∧ IsStr x "linear")
    (c c' : Coef) (h : solve E t u v lat opts = .ok c) (h' : solve E t u' v' lat opts = .ok c')
    (tn : List Fl) (htn : normalizeTime E.dt64 t.arr c.opt.epoch = .ok tn)
    (k : ℝ) (hk : 0 < k) (hu : Transformed (fun _ x => k * x) tn u v u' v') :
    c'.name = c.name ∧ c'.frq = c.frq ∧ c'.lind = c.lind ∧ c'.PE = c.PE ∧ c'.SNR = c.SNR ∧ c'.diagn = c.diagn ∧
      c'.ell = scaleEll k c.ell ∧ c'.mean = scaleMean k c.mean ∧ (∃ ci, c.ci = some ci ∧ c'.ci = some (scaleCi k ci)) := by
  have hwl := (C82_weights E t u v lat opts R hnd c h tn htn).1
  obtain ⟨opt, p, tn0, constit, m, W, rf, full, o, ind, F⟩ := solve_facts R h
  obtain ⟨opt', p', tn', constit', m', W', rf', full', o', ind', F'⟩ := solve_facts R' h'
  have hc := F.copt
  subst hc
  cases Except.ok.inj (F.prep.init.time.symm.trans htn)
  obtain ⟨rfl, rfl, rfl, hinf, T⟩ := twin' F F' R R' hv _ hu
  have hq := getOpt_requests _ hnd _ _ F.hopt
  have hWl : W.length = p.ed.t.length := by
    obtain ⟨hl, s2, s3⟩ := F.samples R
    rw [F.cweights, ← usable_samples _ _ _ hl] at hwl
    rw [hwl, s2]; simp
  have hmW : m' = vscale k m ∧ W' = W := by
    rcases hm with ⟨x, hx, hs⟩ | ⟨kw, hr, hh⟩
    · have hols : c.opt.method = .ols := hq.ols x hx ((eqStr_iff _ _).2 hs)
      refine ⟨vscale_coef (k : ℂ) (by exact_mod_cast hk.ne') F F' R R' hols T, ?_⟩
      have f1 := F.solved.fit
      have f2 := F'.solved.fit
      unfold stageFit at f1 f2
      rw [F.prep.hopt, hols] at f1
      rw [F'.prep.hopt, hols] at f2
      simp only [Except.ok.injEq, Prod.mk.injEq] at f1 f2
      rw [← f1.2.1, ← f2.2.1, T.t]
    · have hrob := F.method_robust hnd hr
      obtain ⟨h1, h2, -⟩ := robust_coef F F' R hrob hh _ T k (Complex.ofReal_ne_zero.2 hk.ne')
        (List.replicate p.nm 0) (by simp) (T.shift k F R) (fun _ _ _ _ _ _ => spread_real _ _ _)
      refine ⟨?_, h2⟩
      rw [h1, vadd_replicate _ _ (by simp [F.mlen])]
  exact units_results F F' R R' hN.lomb hnd hci k hk T hinf hmW.1 hmW.2 hWl

/-- Non-vacuity: four samples of M2 that leave a residual, in metres and in feet. -/
example : ∃ c c' ci, solve idealEnv quadT (quadSeries 1 0 2 5) none (some 45) (ciOpts "linear" true) = .ok c ∧
    solve idealEnv quadT (quadSeries (3.28 * 1) (3.28 * 0) (3.28 * 2) (3.28 * 5)) none (some 45) (ciOpts "linear" true) =
      .ok c' ∧ c.name = ["M2"] ∧ c.ci = some ci ∧ c'.ci = some (scaleCi 3.28 ci) ∧ c'.SNR = c.SNR := by
  obtain ⟨c, Q, -⟩ := quad_ci 1 0 2 5 none (.inl rfl) true
  obtain ⟨c', Q', -⟩ := quad_ci (3.28 * 1) (3.28 * 0) (3.28 * 2) (3.28 * 5) none (.inl rfl) true
  obtain ⟨-, -, -, -, h5, -, -, -, ci, h8, h9⟩ := C84_units idealEnv idealNum_ok quadT _ _ none none (some 45)
    (ciOpts "linear" true) (quad_ready 1 0 2 5 none (.inl rfl)) (quad_ready _ _ _ _ none (.inl rfl)) rfl (by decide)
    (.inl ⟨.str "ols", rfl, .inl rfl⟩) ⟨.str "linear", rfl, .inl rfl⟩ c c' Q.returned Q'.returned quadTn
    (by rw [Q.opt]; exact quad_times) 3.28 (by norm_num) (by
      intro i τ _
      rcases i with _ | _ | _ | _ | i <;> simp [sampleValues, quadSeries, Cell.value?, Fl.toReal?])
  exact ⟨c, c', ci, Q.returned, Q'.returned, Q.name, h8, h9, h5⟩

/-! ## C83 -/

theorem fl_div_fin (x y : ℝ) (h : y ≠ 0) : Fl.div (.fin x) (.fin y) = .fin (x / y) := if_neg h

theorem fl_div_zero (x : ℝ) (h : 0 < x) : Fl.div (.fin x) (.fin 0) = .pinf := by
  show (if (0 : ℝ) = 0 then if x = 0 then Fl.nan else if 0 < x then Fl.pinf else Fl.ninf else Fl.fin (x / 0)) = _
  rw [if_pos rfl, if_neg h.ne', if_pos h]

theorem div196 (h : ℝ) : (Fl.fin h / Fl.fin 1.96) = Fl.fin (h / 1.96) :=
  fl_div_fin _ _ (by norm_num)

/-- C83: the reported signal-to-noise ratio is the energy of the constituent over the square of its standard error,
which is the 95% half width divided by 1.96; for currents the energies of both axes and of both errors are added. -/
theorem C83_snr (E : Env) (t : TimeArg) (u : Series) (v : Option Series) (lat : Option ℝ) (opts : Dict PyVal)
    (R : Ready E t u v) (hnd : opts.keys.Nodup) (c : Coef) (h : solve E t u v lat opts = .ok c) :
    (c.SNR = none ↔ c.ci = none) ∧
    (∀ A g dA dg S, c.ell = .one A g → c.ci = some (.one dA dg) → c.SNR = some S → S.length = c.name.length ∧
      ∀ (i : ℕ) (a : ℝ) (d s : Fl), A[i]? = some a → dA[i]? = some d → S[i]? = some s →
        (∀ x, d = .fin x → x ≠ 0 → s = .fin (a ^ 2 / (x / 1.96) ^ 2)) ∧
        (d = .fin 0 → a ≠ 0 → s = .pinf) ∧ (d = .nan → s = .nan)) ∧
    (∀ M m th g dM dm dth dg S, c.ell = .two M m th g → c.ci = some (.two dM dm dth dg) → c.SNR = some S →
      S.length = c.name.length ∧
      ∀ (i : ℕ) (a b : ℝ) (d e s : Fl), M[i]? = some a → m[i]? = some b → dM[i]? = some d → dm[i]? = some e →
        S[i]? = some s →
        (∀ x y, d = .fin x → e = .fin y → (x ≠ 0 ∨ y ≠ 0) →
          s = .fin ((a ^ 2 + b ^ 2) / ((x / 1.96) ^ 2 + (y / 1.96) ^ 2))) ∧
        (d = .fin 0 → e = .fin 0 → (a ≠ 0 ∨ b ≠ 0) → s = .pinf) ∧ (d = .nan ∨ e = .nan → s = .nan)) := by
  obtain ⟨opt, p, tn, constit, m, W, rf, full, o, ind, F⟩ := solve_facts R h
  have hq := getOpt_requests _ hnd _ _ F.hopt
  have hco := F.coherent hnd
  have hce : c.ell = full.ell.permute ind := by rw [F.solved.result]; rfl
  have hcc : c.ci = full.ci.map (CiArr.permute ind) := by rw [F.solved.result]; rfl
  have hcs : c.SNR = full.SNR.map (gather · ind) := by rw [F.solved.result]; rfl
  have hcn : c.name.length = ind.length := by
    have := (hco.permute ind F.lt).len.name
    rwa [← F.solved.result] at this
  have hnone : c.SNR = none ↔ c.ci = none := by
    rw [hcc, hcs]
    simp only [Option.map_eq_none_iff]
    rcases F.solved.SNR with ⟨h1, h2, -⟩ | ⟨h1, s, h2, h3, -⟩
    · rcases F.solved.ci with ⟨-, h4⟩ | ⟨h4, -⟩
      · simp [h2, h4]
      · rw [F.prep.hopt] at h1 h4; rw [hq.diagn, h4] at h1; cases h1
    · rw [h3]
      constructor
      · intro h; cases h
      · intro h; rw [h] at h2; cases h2
  have key : ∀ x S, c.ci = some x → c.SNR = some S → S.length = c.name.length ∧ S = List.zipWith (fun x n => (Fl.fin x).div n)
      (energies c.ell) (noises x) := by
    intro x S hx hS
    rcases F.solved.SNR with ⟨-, h2, -⟩ | ⟨h1, s, h2, h3, -⟩
    · rw [hcs, h2] at hS; cases hS
    · rw [hcs, h3] at hS
      cases hS
      obtain ⟨y, hy, hyl⟩ := hco.ci (by rw [F.solved.head.opt]; exact h1)
      rw [hcc, hy] at hx
      cases hx
      rw [hy] at h2
      have := snr_permute hco.len.ell (ci := some y) (fun z hz => by cases hz; exact hyl) ind
      rw [h2] at this
      have hs : _ = gather s ind := Except.ok.inj this
      have hsl : s.length = p.sel.lind.length := by
        cases Except.ok.inj h2
        simp [energies_length hco.len.ell, noises_length hyl]
      refine ⟨?_, ?_⟩
      · show (gather s ind).length = _
        rw [gather_length _ _ (by rw [hsl]; exact F.lt), hcn]
      · show gather s ind = _
        rw [← hs, hce]
  refine ⟨hnone, ?_, ?_⟩
  · intro A g dA dg S he hx hS
    obtain ⟨hl, hS'⟩ := key _ _ hx hS
    refine ⟨hl, ?_⟩
    intro i a d s ha hd hs
    rw [hS', he] at hs
    simp only [energies, noises, List.getElem?_zipWith, List.getElem?_map, ha, hd, Option.map_some, Option.some.injEq] at hs
    subst hs
    refine ⟨?_, ?_, ?_⟩
    · rintro x rfl hx0
      rw [div196]
      show Fl.div (.fin (a ^ 2)) (.fin (x / 1.96 * (x / 1.96))) = _
      have : x / 1.96 ≠ 0 := div_ne_zero hx0 (by norm_num)
      rw [fl_div_fin _ _ (mul_self_ne_zero.2 this), pow_two (x / 1.96)]
    · rintro rfl ha0
      rw [div196]
      show Fl.div (.fin (a ^ 2)) (.fin (0 / 1.96 * (0 / 1.96))) = _
      have : 0 < a ^ 2 := by positivity
      rw [show (0 / 1.96 * (0 / 1.96) : ℝ) = 0 by norm_num, fl_div_zero _ this]
    · rintro rfl; rfl
  · intro M mi th g dM dm dth dg S he hx hS
    obtain ⟨hl, hS'⟩ := key _ _ hx hS
    refine ⟨hl, ?_⟩
    intro i a b d e s ha hb hd hde hs
    rw [hS', he] at hs
    simp only [energies, noises, List.getElem?_zipWith, ha, hb, hd, hde, Option.some.injEq] at hs
    subst hs
    refine ⟨?_, ?_, ?_⟩
    · rintro x y rfl rfl hxy
      rw [div196, div196]
      show Fl.div (.fin (a ^ 2 + b ^ 2)) (.fin (x / 1.96 * (x / 1.96) + y / 1.96 * (y / 1.96))) = _
      have : 0 < x / 1.96 * (x / 1.96) + y / 1.96 * (y / 1.96) := by
        rcases hxy with h | h
        · have : x / 1.96 ≠ 0 := div_ne_zero h (by norm_num)
          have := mul_self_pos.2 this
          have := mul_self_nonneg (y / 1.96)
          linarith
        · have : y / 1.96 ≠ 0 := div_ne_zero h (by norm_num)
          have := mul_self_pos.2 this
          have := mul_self_nonneg (x / 1.96)
          linarith
      rw [fl_div_fin _ _ this.ne', pow_two (x / 1.96), pow_two (y / 1.96)]
    · rintro rfl rfl hab
      rw [div196]
      show Fl.div (.fin (a ^ 2 + b ^ 2)) (.fin (0 / 1.96 * (0 / 1.96) + 0 / 1.96 * (0 / 1.96))) = _
      have : 0 < a ^ 2 + b ^ 2 := by
        rcases hab with h | h <;> positivity
      rw [show (0 / 1.96 * (0 / 1.96) + 0 / 1.96 * (0 / 1.96) : ℝ) = 0 by norm_num, fl_div_zero _ this]
    · rintro (rfl | rfl)
      · rfl
      · have : ∀ z : Fl, z + Fl.nan = Fl.nan := by intro z; cases z <;> rfl
        show Fl.div _ ((d / Fl.fin 1.96).sq + Fl.nan) = _
        rw [this]
        rfl

/-- Non-vacuity: the ratio of the example above is that of its amplitude and interval. -/
example : ∃ c S A g dA dg, solve idealEnv quadT (quadSeries 1 0 2 5) none (some 45) (ciOpts "linear" true) = .ok c ∧
    c.name = ["M2"] ∧ c.SNR = some S ∧ S.length = 1 ∧ c.ell = .one A g ∧ c.ci = some (.one dA dg) := by
  obtain ⟨c, Q, hci⟩ := quad_ci 1 0 2 5 none (.inl rfl) true
  have R := quad_ready 1 0 2 5 none (.inl rfl)
  obtain ⟨h1, h2, -⟩ := C83_snr idealEnv quadT _ none (some 45) (ciOpts "linear" true) R (by decide) c Q.returned
  obtain ⟨opt, p, tn, constit, m, W, rf, full, o, ind, F⟩ := solve_facts R Q.returned
  have hco := (F.coherent (by decide)).permute ind F.lt
  rw [← F.solved.result] at hco
  obtain ⟨S, hS⟩ := Option.ne_none_iff_exists'.1 fun h => hci (h1.1 h)
  obtain ⟨x, hx⟩ := Option.ne_none_iff_exists'.1 hci
  have h53 := ((C53_ci idealEnv quadT _ none (some 45) (ciOpts "linear" true) (by decide) R c Q.returned).2 x hx).1
  rcases hco.kind with ⟨-, A, g, _, _, he, -⟩ | ⟨htd, -⟩
  · cases x with
    | one dA dg =>
      exact ⟨c, S, A, g, dA, dg, Q.returned, Q.name, hS, by rw [(h2 A g dA dg S he hx hS).1, Q.name]; rfl, he, hx⟩
    | two => simp [ciArrays] at h53
  · rw [Q.opt] at htd; cases htd

end

end UTide.Props
