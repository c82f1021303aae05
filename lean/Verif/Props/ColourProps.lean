import Verif.Props.PentExample

/-!
# Coloured noise: the variances of a constituent add up to the residual power in its band: C51
-/

namespace UTide.Props

noncomputable section

open Classical Matrix

local notation "conj" => starRingEnd ℂ

/-! ## Specification -/

/-- The run of C51: as C70, with coloured noise. -/
structure ColourRun (E : Env) (t : TimeArg) (u : Series) (v : Option Series) (lat : Option ℝ) (opts : Dict PyVal)
    (c : Coef) (tn : List Fl) : Prop where
  returned : solve E t u v lat opts = .ok c
  keys : opts.keys.Nodup
  ols : ∃ x, requested opts "method" = some x ∧ IsStr x "ols"
  infer : readInfer c.opt.infer = .ok none
  ci : c.opt.confInt = true
  linear : c.opt.linci = true
  coloured : c.opt.white = false
  kept : AllKept c
  time : normalizeTime E.dt64 t.arr c.opt.epoch = .ok tn

/-! ## Lemmas -/

section
variable {E : Env} {t : TimeArg} {u : Series} {v : Option Series} {lat : Option ℝ} {opts : Dict PyVal}
  {c : Coef} {opt : Opt} {p : Prep} {tn : List Fl} {constit : Constit} {m : List ℂ} {W : List ℝ}
  {rf : Option RobOut} {full : Coef} {o : Order} {ind : List ℕ}

/-- The residual handed to the noise spectrum. -/
theorem Facts.residual (F : Facts E t u v lat opts c opt p tn constit m W rf full o ind) (R : Ready E t u v)
    (hnd : opts.keys.Nodup) (hols : opt.method = .ols) (hinf : p.infer = none) (hi : IndepColumns p.nm p.B)
    (x : Fin p.B.length → ℂ) (hx : xraw p.ed = List.ofFn x) :
    (confIn p m W).e = List.ofFn fun j => (⟨gramRes (designM p.nm p.B) (fun j => (x j).re) j,
      gramRes (designM p.nm p.B) (fun j => (x j).im) j⟩ : ℂ) := by
  have hS := F.split R hnd hinf x hx (F.solution R hols hi x hx)
  have h1 : xmodOf p.opt.twodim p.B m = _ := hS.xmod
  show weightedResidual W (xraw p.ed) (xmodOf p.opt.twodim p.B m) = _
  rw [h1, hx, F.ones hols]
  unfold weightedResidual
  apply List.ext_getElem
  · simp [confIn]
  · intro i h2 h3
    simp only [List.getElem_zipWith, List.getElem_map, List.getElem_ofFn]
    apply Complex.ext <;> simp [gramRes, confIn]

end

/-! ## C51 -/

/-- **C51**: with coloured noise, the intervals of a scalar series are propagated to first order from variances of the
cosine and sine coefficients which are in the same ratio as those of least squares and add up to the power assigned to
the constituent: the power, in its frequency band, of the residuals of the curve of least squares (C62). -/
theorem C51_coloured {E : Env} {t : TimeArg} {u : Series} {lat : Option ℝ} {opts : Dict PyVal} {c : Coef} {tn : List Fl}
    (R : Ready E t u none) (hI : InvOk E.num.inv) (H : ColourRun E t u none lat opts c tn) :
    ∃ ci ed q frq w, c.ci = some ci ∧ editData tn u.data none = .ok ed ∧
      BestFit c (sampleTimes tn u none) (sampleU tn u none) q ∧ frq.Perm c.frq ∧
      residualPower E.num ed ((residuals c (sampleTimes tn u none) (sampleU tn u none) q).map Complex.ofReal) frq = .ok w ∧
      ∀ (i : ℕ) (n : String), c.name[i]? = some n →
      ∃ a b : List ℝ, ∃ s2 : ℝ, ∃ P : Fl, ∃ (k : ℕ) (f : ℝ),
        Blue c (sampleTimes tn u none) (fun q => q.X n) a ∧ Blue c (sampleTimes tn u none) (fun q => q.Y n) b ∧
        NoiseVariance c (sampleTimes tn u none) (sampleU tn u none) s2 ∧
        c.frq[i]? = some f ∧ frq[k]? = some f ∧ w.Puu[k]? = some P ∧
        ellipseAt c.ell i = some (cs2cep1 (q.X n) (q.Y n)) ∧
        ∀ r : ℝ, P = .fin r → 0 ≤ r → s2 ≠ 0 → ![q.X n, q.Y n] ≠ (0 : Fin 2 → ℝ) →
          ∃ vX vY da dg : ℝ, 0 ≤ vX ∧ 0 ≤ vY ∧ vX + vY = r ∧ vX * sumSq b = vY * sumSq a ∧
            Propagated 0 ampOf ![q.X n, q.Y n] ![Real.sqrt vX, Real.sqrt vY] da ∧
            Propagated 360 phaseOf ![q.X n, q.Y n] ![Real.sqrt vX, Real.sqrt vY] dg ∧
            intervalAt ci i = some ⟨.fin (1.96 * da), .fin 0, .fin 0, .fin (1.96 * dg)⟩ := by
  obtain ⟨p, constit, m, W, rf, full, o, ind, F, hols, hinf, -⟩ :=
    run_facts R H.keys H.ols H.returned none H.infer (fun s hs => by cases hs) tn H.time
  obtain ⟨x, hx⟩ := F.data R
  obtain ⟨hi, hlt⟩ := F.full_rank R hI hols H.ci
  obtain ⟨ci, pw, hci, -, hw, hrow⟩ := F.ciRow R hI H.keys hols H.ci H.linear hinf x hx
  obtain ⟨w, rfl, hres⟩ := hw H.coloured
  obtain ⟨-, hts, hxs⟩ := F.samples R
  have hU : sampleU tn u none = List.ofFn fun j => (x j).re := by
    have : sampleU tn u none = (xraw p.ed).map Complex.re := by rw [hxs, List.map_map]; rfl
    rw [this, hx, List.map_ofFn]; rfl
  have hT : sampleTimes tn u none = p.ed.t := hts.symm
  obtain ⟨q, hq, hqr, hqp⟩ := F.bestFit R H.keys H.kept hinf hi fun j => (x j).re
  have hcc : c.ci = some (ci.permute ind) := by
    rw [F.solved.result]; show full.ci.map _ = _; rw [hci]; rfl
  have hfrq : p.sel.frq.Perm c.frq := by
    have : c.frq = gather full.frq ind := by rw [F.solved.result]; rfl
    rw [this, ← F.solved.frq]
    exact (gather_perm _ (by rw [F.len.frq]; exact F.kept H.keys R H.kept)).symm
  refine ⟨ci.permute ind, p.ed, q, p.sel.frq, w, hcc, F.prep.init.edit, by rw [hT, hU]; exact hq, hfrq, ?_, fun i n hn => ?_⟩
  · rw [hT, hU, hqr, ← hres]
    congr 1
    rw [F.residual R H.keys hols hinf hi x hx, List.map_ofFn]
    congr 1
    funext j
    have h0 : (fun j => (x j).im) = fun _ => 0 := by funext j; exact F.scalar_im R rfl x hx j
    rw [h0]
    apply Complex.ext
    · simp
    · simp [gramRes, fitted]
  · obtain ⟨k, hk, hkn, hki, he, ci', hci', hint⟩ := F.position hinf ci hci i n hn
    cases Option.some.inj (hci'.symm.trans hcc)
    obtain ⟨r1, r2⟩ := hrow k hk
    obtain ⟨hrefs, hnR, hname, hlen, hnm⟩ := F.noRefs hinf
    have hll : p.sel.lind.length = p.sel.nNR := by rw [F.prep.aligned.lind_eq, hrefs, F.prep.aligned.nNR]; simp
    have hfl : k.val < p.sel.frq.length := by rw [F.prep.aligned.frq, List.length_map, hll]; exact hk
    have hPl : k.val < w.Puu.length := by
      unfold residualPower at hres
      simp only [bind_eq_ok, pure_eq_ok, Except.ok.injEq] at hres
      obtain ⟨ba, -, rfl⟩ := hres
      simpa using hfl
    have bX := F.blue_cos R H.keys H.kept hinf hi k n hkn
    have bY := F.blue_sin R H.keys H.kept hinf hi k n hkn
    obtain ⟨eX, eY⟩ := hqp k n hkn
    refine ⟨List.ofFn (cosForm (designM p.nm p.B) k), List.ofFn (sinForm (designM p.nm p.B) k),
      (∑ j, gramRes (designM p.nm p.B) (fun j => (x j).re) j ^ 2) / ((p.B.length : ℝ) - p.nm), w.Puu[k.val], k.val,
      p.sel.frq[k.val], by rw [hT]; exact bX, by rw [hT]; exact bY, ?_, ?_, List.getElem?_eq_getElem hfl,
      List.getElem?_eq_getElem hPl, ?_, ?_⟩
    · rw [hT, hU]; exact F.noise R H.keys H.kept hinf hi hlt _
    · have : c.frq = gather full.frq ind := by rw [F.solved.result]; rfl
      rw [this, gather_getElem? _ _ (by rw [F.len.frq]; exact F.lt), hki, F.solved.frq]
      exact List.getElem?_eq_getElem hfl
    · rw [he, r1, eX, eY]
      rfl
    · intro r hr hr0 hs2 hne
      have pa : 0 < sumSq (List.ofFn (cosForm (designM p.nm p.B) k)) :=
        bX.sumSq_pos ⟨fun _ => 1, fun _ => 0, 0, 0⟩ (fun _ => rfl) rfl
      rw [eX, eY] at hne ⊢
      rw [sumSq_fin] at pa
      rw [sumSq_fin, sumSq_fin]
      generalize (∑ j, gramRes (designM p.nm p.B) (fun j => (x j).re) j ^ 2) / ((p.B.length : ℝ) - p.nm) = s2 at hs2 r2
      have ha : 0 ≤ ∑ j, cosForm (designM p.nm p.B) k j ^ 2 := Finset.sum_nonneg fun _ _ => sq_nonneg _
      have hb : 0 ≤ ∑ j, sinForm (designM p.nm p.B) k j ^ 2 := Finset.sum_nonneg fun _ _ => sq_nonneg _
      generalize (∑ j, cosForm (designM p.nm p.B) k j ^ 2) = a at pa ha r2 ⊢
      generalize (∑ j, sinForm (designM p.nm p.B) k j ^ 2) = b at hb r2 ⊢
      have hpr : powerRow (some w) Power.Puu k = some (.fin r) := by
        show w.Puu[k.val]? = _
        rw [List.getElem?_eq_getElem hPl, hr]
      rw [hpr] at r2
      have hab : a + b ≠ 0 := by linarith
      have hden : s2 * a + s2 * b ≠ 0 := by rw [← mul_add]; exact mul_ne_zero hs2 hab
      have hvar : ∀ z, r * (s2 * z) / (s2 * a + s2 * b) = r * z / (a + b) := by
        intro z
        rw [← mul_add]
        field_simp
      have habp : 0 < a + b := lt_of_le_of_ne (by linarith) (Ne.symm hab)
      have nX : 0 ≤ r * a / (a + b) := div_nonneg (mul_nonneg hr0 ha) habp.le
      have nY : 0 ≤ r * b / (a + b) := div_nonneg (mul_nonneg hr0 hb) habp.le
      obtain ⟨da, dg, k1, k2, k3⟩ := C50_scalar (some (.fin r)) _ ![Real.sqrt (r * a / (a + b)), Real.sqrt (r * b / (a + b))]
        ![s2 * a, s2 * b] hne (fun i => by fin_cases i <;> exact Real.sqrt_nonneg _) (by
          show (⟨rescale (.fin r) (s2 * a) (s2 * a + s2 * b), rescale (.fin r) (s2 * b) (s2 * a + s2 * b), .fin 0, .fin 0⟩ : Vars) =
            ⟨.fin (Real.sqrt (r * a / (a + b)) ^ 2), .fin (Real.sqrt (r * b / (a + b)) ^ 2), .fin 0, .fin 0⟩
          rw [Real.sq_sqrt nX, Real.sq_sqrt nY, ← hvar a, ← hvar b]
          have hre : ∀ z, rescale (.fin r) (s2 * z) (s2 * a + s2 * b) = .fin (r * (s2 * z) / (s2 * a + s2 * b)) := by
            intro z
            show (if s2 * a + s2 * b = 0 then _ else Fl.fin (r * (s2 * z) / (s2 * a + s2 * b))) = _
            rw [if_neg hden]
          rw [hre, hre])
      refine ⟨r * a / (a + b), r * b / (a + b), da, dg, nX, nY, by rw [← add_div, ← mul_add, mul_div_assoc, div_self hab, mul_one], by ring, k1, k2, ?_⟩
      rw [hint, r2]
      exact congrArg some k3

/-! ## Non-vacuity -/

theorem pent_curve {opts : Dict PyVal} {q : Opt} {y0 y1 y2 y3 y4 : ℝ} {v : Option Series} {co : Coef}
    (Q : PentRun opts q y0 y1 y2 y3 y4 v co) (hq : LikeEx q) (z : ℂ) (h0 : m2 0.25 = conj z ^ 2) (h1 : m2 0.375 = conj z)
    (h2 : m2 0.5 = 1) (h3 : m2 0.625 = z) (h4 : m2 0.75 = z ^ 2) (f : CurvePar) (hf : Admissible co f) :
    [0.25, 0.375, 0.5, 0.625, 0.75].map (linCurve co f) =
      [f.mean + f.X "M2" * (z.re ^ 2 - z.im ^ 2) - f.Y "M2" * (2 * z.re * z.im),
       f.mean + f.X "M2" * z.re - f.Y "M2" * z.im, f.mean + f.X "M2",
       f.mean + f.X "M2" * z.re + f.Y "M2" * z.im,
       f.mean + f.X "M2" * (z.re ^ 2 - z.im ^ 2) + f.Y "M2" * (2 * z.re * z.im)] := by
  have hs : f.slope = 0 := hf (by rw [Q.opt]; exact hq.notrend)
  have hh : ∀ τ, harmonic co "M2" τ = m2 τ := by
    intro τ
    unfold harmonic m2
    rw [Q.opt, Q.reftime, Q.lat, hq.flags]
  have hc : ∀ τ, linCurve co f τ = f.mean + f.X "M2" * (m2 τ).re + f.Y "M2" * (m2 τ).im := by
    intro τ
    unfold linCurve
    rw [Q.name, hs]
    simp only [List.map_cons, List.map_nil, List.sum_cons, List.sum_nil, hh]
    ring
  simp only [List.map_cons, List.map_nil, hc, h0, h1, h2, h3, h4]
  simp only [sq, Complex.mul_re, Complex.mul_im, Complex.conj_re, Complex.conj_im, Complex.one_re, Complex.one_im]
  refine List.cons_eq_cons.2 ⟨by ring, List.cons_eq_cons.2 ⟨by ring, List.cons_eq_cons.2 ⟨by ring,
    List.cons_eq_cons.2 ⟨by ring, List.cons_eq_cons.2 ⟨by ring, rfl⟩⟩⟩⟩⟩

/-- The data of the example: `x` times the real part of the harmonic, and `e` and `d` times two residuals orthogonal to
all curves, one even and one odd in time. -/
def pentData (z : ℂ) (x e d : ℝ) : Series :=
  pentSeries (x * (z.re ^ 2 - z.im ^ 2) + e * (1 - z.re) + d * z.im)
    (x * z.re - e * (1 - (z.re ^ 2 - z.im ^ 2)) - d * (2 * z.re * z.im))
    (x + e * (2 * (z.re - (z.re ^ 2 - z.im ^ 2))))
    (x * z.re - e * (1 - (z.re ^ 2 - z.im ^ 2)) + d * (2 * z.re * z.im))
    (x * (z.re ^ 2 - z.im ^ 2) + e * (1 - z.re) - d * z.im)

/-- The values of `pentData`. -/
def pentValues (z : ℂ) (x e d : ℝ) : List ℝ :=
  [x * (z.re ^ 2 - z.im ^ 2) + e * (1 - z.re) + d * z.im,
    x * z.re - e * (1 - (z.re ^ 2 - z.im ^ 2)) - d * (2 * z.re * z.im),
    x + e * (2 * (z.re - (z.re ^ 2 - z.im ^ 2))),
    x * z.re - e * (1 - (z.re ^ 2 - z.im ^ 2)) + d * (2 * z.re * z.im),
    x * (z.re ^ 2 - z.im ^ 2) + e * (1 - z.re) - d * z.im]

/-- Its residuals. -/
def pentRes (z : ℂ) (e d : ℝ) : List ℝ :=
  [e * (1 - z.re) + d * z.im, -(e * (1 - (z.re ^ 2 - z.im ^ 2))) - d * (2 * z.re * z.im),
    e * (2 * (z.re - (z.re ^ 2 - z.im ^ 2))), -(e * (1 - (z.re ^ 2 - z.im ^ 2))) + d * (2 * z.re * z.im),
    e * (1 - z.re) - d * z.im]

theorem five_squares {a b c d e : ℝ} (h : a ^ 2 + b ^ 2 + c ^ 2 + d ^ 2 + e ^ 2 ≤ 0) : b = 0 ∧ c = 0 ∧ d = 0 := by
  have h1 := sq_nonneg a
  have h2 := sq_nonneg b
  have h3 := sq_nonneg c
  have h4 := sq_nonneg d
  have h5 := sq_nonneg e
  refine ⟨?_, ?_, ?_⟩ <;> refine pow_eq_zero_iff (two_ne_zero) |>.1 ?_ <;> linarith

/-- The curve of least squares through the example data. -/
theorem pent_best {opts : Dict PyVal} {q : Opt} {y0 y1 y2 y3 y4 : ℝ} {v : Option Series} {co : Coef}
    (Q : PentRun opts q y0 y1 y2 y3 y4 v co) (hq : LikeEx q) (z : ℂ) (h0 : m2 0.25 = conj z ^ 2) (h1 : m2 0.375 = conj z)
    (h2 : m2 0.5 = 1) (h3 : m2 0.625 = z) (h4 : m2 0.75 = z ^ 2) (hu : z.re ^ 2 + z.im ^ 2 = 1) (hr : 0 < z.re)
    (hi : 0 < z.im) (x e d : ℝ) (f : CurvePar)
    (hf : BestFit co [0.25, 0.375, 0.5, 0.625, 0.75] (pentValues z x e d) f) :
    f.X "M2" = x ∧ f.Y "M2" = 0 ∧
      residuals co [0.25, 0.375, 0.5, 0.625, 0.75] (pentValues z x e d) f = pentRes z e d := by
  have hadm : Admissible co ⟨fun _ => x, fun _ => 0, 0, 0⟩ := fun _ => rfl
  have hb := hf.best _ hadm
  unfold residuals at hb ⊢
  rw [pent_curve Q hq z h0 h1 h2 h3 h4 f hf.adm] at hb ⊢
  rw [pent_curve Q hq z h0 h1 h2 h3 h4 _ hadm] at hb
  unfold pentValues at hb ⊢
  unfold pentRes
  simp only [List.zipWith_cons_cons, List.zipWith_nil_left, sumSq, List.map_cons, List.map_nil, List.sum_cons, List.sum_nil] at hb ⊢
  obtain ⟨X, Y, μ, sl⟩ := f
  dsimp only at hb ⊢
  have him : z.im ^ 2 = 1 - z.re ^ 2 := by linarith
  have hlt : z.re < 1 := by nlinarith
  generalize X "M2" = X at hb ⊢
  generalize Y "M2" = Y at hb ⊢
  generalize z.re = c at *
  generalize z.im = s at *
  rw [him] at hb
  have hg : ((x - X) * (c ^ 2 - (1 - c ^ 2)) - μ + Y * (2 * c * s)) ^ 2 + ((x - X) * c - μ + Y * s) ^ 2 + ((x - X) - μ) ^ 2 +
      ((x - X) * c - μ - Y * s) ^ 2 + ((x - X) * (c ^ 2 - (1 - c ^ 2)) - μ - Y * (2 * c * s)) ^ 2 ≤ 0 := by
    linarith [hb]
  obtain ⟨g1, g2, g3⟩ := five_squares hg
  have hY : Y = 0 := by
    have : Y * s = 0 := by linarith
    exact (mul_eq_zero.1 this).resolve_right hi.ne'
  have hX : x - X = 0 := by
    have : (x - X) * (c - 1) = 0 := by rw [hY] at g1; linarith
    exact (mul_eq_zero.1 this).resolve_right (by linarith)
  have hμ : μ = 0 := by linarith
  have hX' : X = x := by linarith
  subst hY hX' hμ
  refine ⟨rfl, rfl, ?_⟩
  refine List.cons_eq_cons.2 ⟨by ring, List.cons_eq_cons.2 ⟨by ring, List.cons_eq_cons.2 ⟨by ring,
    List.cons_eq_cons.2 ⟨by ring, List.cons_eq_cons.2 ⟨by ring, rfl⟩⟩⟩⟩⟩

theorem pent_sampleTimes (z : ℂ) (x e d : ℝ) (v : Option Series) (hv : PentV v) :
    sampleTimes pentTn (pentData z x e d) v = [0.25, 0.375, 0.5, 0.625, 0.75] := pent_usable _ _ _ _ _ v hv

theorem pent_valuesU (y0 y1 y2 y3 y4 : ℝ) :
    sampleU pentTn (pentSeries y0 y1 y2 y3 y4) none = [y0, y1, y2, y3, y4] := by
  simp [sampleU, usable, pentSeries, pentTn, goodSamples, Fl.toReal?, Cell.value?]

theorem pent_valuesUV (y0 y1 y2 y3 y4 w0 w1 w2 w3 w4 : ℝ) :
    sampleU pentTn (pentSeries y0 y1 y2 y3 y4) (some (pentSeries w0 w1 w2 w3 w4)) = [y0, y1, y2, y3, y4] ∧
    sampleV pentTn (pentSeries y0 y1 y2 y3 y4) (some (pentSeries w0 w1 w2 w3 w4)) = [w0, w1, w2, w3, w4] := by
  constructor <;>
  simp [sampleU, sampleV, usable, pentSeries, pentTn, goodSamples2, Fl.toReal?, Cell.value?]

theorem pent_sampleU (z : ℂ) (x e d : ℝ) : sampleU pentTn (pentData z x e d) none = pentValues z x e d := pent_valuesU _ _ _ _ _

theorem pent_sampleUV (z : ℂ) (x e d x' e' d' : ℝ) :
    sampleU pentTn (pentData z x e d) (some (pentData z x' e' d')) = pentValues z x e d ∧
    sampleV pentTn (pentData z x e d) (some (pentData z x' e' d')) = pentValues z x' e' d' := pent_valuesUV _ _ _ _ _ _ _ _ _ _

theorem pent_edited (z : ℂ) (x e d : ℝ) (v : Option Series) (hv : PentV v) (q : Opt) (hq : LikeEx q) (ed : Edited)
    (h : editData pentTn (pentData z x e d).data (v.map Series.data) = .ok ed) :
    ed.t = [0.25, 0.375, 0.5, 0.625, 0.75] ∧ ed.tin = [0.25, 0.375, 0.5, 0.625, 0.75] ∧ ed.equi = true ∧
      ed.elor = .fin 0.625 := by
  obtain ⟨p, P⟩ := pent_prep _ _ _ _ _ v hv q hq
  cases Except.ok.inj (P.prep.init.edit.symm.trans h)
  exact ⟨P.t, P.tin, P.equi, P.elor⟩

/-- The noise variance of the example is not zero if there is a residual. -/
theorem pent_noise {opts : Dict PyVal} {q : Opt} {y0 y1 y2 y3 y4 : ℝ} {v : Option Series} {co : Coef}
    (Q : PentRun opts q y0 y1 y2 y3 y4 v co) (hq : LikeEx q) (z : ℂ) (h0 : m2 0.25 = conj z ^ 2) (h1 : m2 0.375 = conj z)
    (h2 : m2 0.5 = 1) (h3 : m2 0.625 = z) (h4 : m2 0.75 = z ^ 2) (hu : z.re ^ 2 + z.im ^ 2 = 1) (hr : 0 < z.re)
    (hi : 0 < z.im) (x e d s2 : ℝ) (hs : NoiseVariance co [0.25, 0.375, 0.5, 0.625, 0.75] (pentValues z x e d) s2) :
    s2 = sumSq (pentRes z e d) / 2 := by
  obtain ⟨hlt, rss, ⟨⟨f, hf, hrf⟩, hlow⟩, rfl⟩ := hs
  have hbest : BestFit co [0.25, 0.375, 0.5, 0.625, 0.75] (pentValues z x e d) f :=
    ⟨hf, fun q' hq' => by
      have := hlow ⟨q', hq', rfl⟩
      rw [hrf] at this
      exact this⟩
  obtain ⟨-, -, hres⟩ := pent_best Q hq z h0 h1 h2 h3 h4 hu hr hi x e d f hbest
  have h5 : rss = sumSq (pentRes z e d) := by
    rw [hrf]
    change sumSq (residuals co _ _ f) = _
    rw [hres]
  have h6 : numPar co = 3 := by
    unfold numPar
    rw [Q.name, Q.opt, hq.notrend]
    rfl
  rw [h5, h6]
  norm_num

/-- Even residuals give a positive power at M2. -/
theorem pent_even_pos (z : ℂ) (hu : z.re ^ 2 + z.im ^ 2 = 1) (hr : 0 < z.re) (hi : 0 < z.im) :
    z.re < 1 ∧ 0 < 1 * (2 * (z.re - (z.re ^ 2 - z.im ^ 2))) -
      (-(1 * (1 - (z.re ^ 2 - z.im ^ 2))) + -(1 * (1 - (z.re ^ 2 - z.im ^ 2)))) / 2 := by
  have hlt : z.re < 1 := by nlinarith
  refine ⟨hlt, ?_⟩
  have : 1 * (2 * (z.re - (z.re ^ 2 - z.im ^ 2))) - (-(1 * (1 - (z.re ^ 2 - z.im ^ 2))) + -(1 * (1 - (z.re ^ 2 - z.im ^ 2)))) / 2 =
      (1 - z.re) * (6 * z.re + 4) := by
    have : z.im ^ 2 = 1 - z.re ^ 2 := by linarith
    rw [this]; ring
  rw [this]
  exact mul_pos (by linarith) (by linarith)

/-- A run whose noise spectrum is finite and not zero at M2. -/
theorem pent_scalar (z : ℂ) (h0 : m2 0.25 = conj z ^ 2) (h1 : m2 0.375 = conj z) (h2 : m2 0.5 = 1) (h3 : m2 0.625 = z)
    (h4 : m2 0.75 = z ^ 2) (hu : z.re ^ 2 + z.im ^ 2 = 1) (hr : 0 < z.re) (hi : 0 < z.im) :
    ∃ c, c.name = ["M2"] ∧ ColourRun idealEnv pentT (pentData z 1 1 0) none (some 45) (ciOpts "linear" false) c pentTn ∧
    ∃ ci vX vY da dg r, c.ci = some ci ∧ vX + vY = r ∧ 0 < r ∧
      Propagated 0 ampOf ![1, 0] ![Real.sqrt vX, Real.sqrt vY] da ∧
      intervalAt ci 0 = some ⟨.fin (1.96 * da), .fin 0, .fin 0, .fin (1.96 * dg)⟩ := by
  obtain ⟨hlt, hpos⟩ := pent_even_pos z hu hr hi
  obtain ⟨c, Q, -⟩ : ∃ co, PentRun (ciOpts "linear" false) (ciOpt false true false)
      (1 * (z.re ^ 2 - z.im ^ 2) + 1 * (1 - z.re) + 0 * z.im)
      (1 * z.re - 1 * (1 - (z.re ^ 2 - z.im ^ 2)) - 0 * (2 * z.re * z.im))
      (1 + 1 * (2 * (z.re - (z.re ^ 2 - z.im ^ 2))))
      (1 * z.re - 1 * (1 - (z.re ^ 2 - z.im ^ 2)) + 0 * (2 * z.re * z.im))
      (1 * (z.re ^ 2 - z.im ^ 2) + 1 * (1 - z.re) - 0 * z.im) none co ∧ co.ci ≠ none :=
    pent_ci _ _ _ _ _ none (.inl rfl) false
  have hq : LikeEx (ciOpt false true false) := ⟨rfl, rfl, rfl, rfl, rfl⟩
  have H : ColourRun idealEnv pentT (pentData z 1 1 0) none (some 45) (ciOpts "linear" false) c pentTn :=
    ⟨Q.returned, by decide, ⟨.str "ols", rfl, .inl rfl⟩, by rw [Q.opt]; rfl, by rw [Q.opt]; rfl,
      by rw [Q.opt]; rfl, by rw [Q.opt]; rfl, Q.kept, by rw [Q.opt]; exact pent_times⟩
  refine ⟨c, Q.name, H, ?_⟩
  obtain ⟨ci, ed, f, frq, w, hci, hed, hf, hperm, hw, hall⟩ :=
    C51_coloured (u := pentData z 1 1 0) (pent_ready _ _ _ _ _ none (.inl rfl)) idealNum_ok.inv H
  rw [pent_sampleTimes z 1 1 0 none (.inl rfl), pent_sampleU] at hf hw hall
  obtain ⟨eX, eY, hres⟩ := pent_best Q hq z h0 h1 h2 h3 h4 hu hr hi 1 1 0 f hf
  obtain ⟨a, b, s2, P, k, g, -, -, hs2, -, hk, hP, -, hmain⟩ := hall 0 "M2" (by rw [Q.name]; rfl)
  have hfrq : frq = [linFreqs 0.5 47] := List.perm_singleton.1 (by rw [← Q.frq]; exact hperm)
  subst hfrq
  have hk0 : k = 0 := by
    rcases k with _ | k
    · rfl
    · simp at hk
  subst hk0
  obtain ⟨e1, e2, e3, e4⟩ := pent_edited z 1 1 0 none (.inl rfl) _ hq ed hed
  rw [hres] at hw
  simp only [pentRes, List.map_cons, List.map_nil, zero_mul, sub_zero, add_zero] at hw
  obtain ⟨hPu, -⟩ := pent_power idealEnv.num ed e1 e2 e3 e4 _ _ _ _ _ w hw
  have hPe := Option.some.inj (hP.symm.trans hPu)
  simp only [Complex.ofReal_re] at hPe
  have hs : s2 ≠ 0 := by
    rw [pent_noise Q hq z h0 h1 h2 h3 h4 hu hr hi 1 1 0 s2 hs2]
    simp only [sumSq, pentRes, List.map_cons, List.map_nil, List.sum_cons, List.sum_nil, zero_mul, sub_zero, add_zero]
    have : 0 < (1 * (1 - z.re)) ^ 2 := pow_pos (by linarith) 2
    positivity
  obtain ⟨vX, vY, da, dg, -, -, k1, -, k2, -, k3⟩ := hmain _ hPe (by positivity) hs (by
    rw [eX]
    intro hc
    have := congrFun hc 0
    simp at this)
  rw [eX, eY] at k2
  exact ⟨ci, vX, vY, da, dg, _, hci, k1, by positivity, k2, k3⟩

/-- Non-vacuity: all hypotheses of the theorem hold; the variances add up to the power. -/
example : ∃ u c, ColourRun idealEnv pentT u none (some 45) (ciOpts "linear" false) c pentTn ∧
    ∃ ci vX vY da dg r, c.ci = some ci ∧ vX + vY = r ∧ 0 < r ∧
      Propagated 0 ampOf ![1, 0] ![Real.sqrt vX, Real.sqrt vY] da ∧
      intervalAt ci 0 = some ⟨.fin (1.96 * da), .fin 0, .fin 0, .fin (1.96 * dg)⟩ := by
  obtain ⟨z, h0, h1, h2, h3, h4, hu, hr, hi⟩ := m2_pent
  obtain ⟨c, -, H, h⟩ := pent_scalar z h0 h1 h2 h3 h4 hu hr hi
  exact ⟨_, c, H, h⟩

end

end UTide.Props
