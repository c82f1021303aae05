import Verif.Props.RobustCi
import Verif.Props.RobustAvail
import Verif.Props.ZeroExample

/-!
# Confidence intervals of a robust analysis of currents: C145

As C137, for vector series with a white noise floor.
-/

namespace UTide.Props

noncomputable section

open Classical Matrix

local notation "conj" => starRingEnd ℂ

/-! ## Specification -/

/-- The curves `qu`, `qv` of the two components are what the result says. -/
structure ReportedCurrent (c : Coef) (qu qv : CurvePar) : Prop where
  admU : Admissible c qu
  admV : Admissible c qv
  ellipse : ∀ i n, c.name[i]? = some n → ellipseAt c.ell i = some (cs2cep2 (qu.X n) (qu.Y n) (qv.X n) (qv.Y n))
  predicts : ∀ (a : RecArgs), RecArgs.Everything a → ∀ (E' : Env) (t' : TimeArr),
    reconstruct E' t' c a = (normalizeTime E'.dt64 t' a.epoch).map fun tn => tn.map fun x => x.toReal?.map fun τ =>
      (⟨linCurve c qu τ, linCurve c qv τ⟩ : ℂ)

/-! ## Lemmas -/

/-- `varMSM` and the factor of `gamP`, complex data. -/
theorem msm_complex (c : ConfIn) {n : ℕ} (w : Fin n → ℝ) (x y : Fin n → ℂ) (hW : c.W = List.ofFn w)
    (hx : c.xraw = List.ofFn x) (hy : c.xmod = List.ofFn y) :
    msmNum c = ∑ j, w j * (x j).re * ((x j).re - (y j).re) + ∑ j, w j * (x j).im * ((x j).im - (y j).im) ∧
    (pseudoNum c).re = ∑ j, w j * (x j).re * ((x j).re - (y j).re) - ∑ j, w j * (x j).im * ((x j).im - (y j).im) := by
  have hz : List.zipWith (fun (w : ℝ) z => (w : ℂ) * z) c.W c.xraw = List.ofFn fun j => (w j : ℂ) * x j := by
    rw [hW, hx]
    apply List.ext_getElem
    · simp
    · intro i h1 h2
      simp
  have hre : ∀ (f : Fin n → ℂ), (∑ j, f j).re = ∑ j, (f j).re := fun f => Complex.re_sum _ _
  constructor
  · unfold msmNum wdot
    rw [hz, hx, hy, List.map_ofFn, List.map_ofFn, dot_ofFn, dot_ofFn, ← Finset.sum_sub_distrib, hre,
      ← Finset.sum_add_distrib]
    refine Finset.sum_congr rfl fun j _ => ?_
    simp [Complex.mul_re]
    ring
  · unfold pseudoNum wdot
    rw [hz, hx, hy, dot_ofFn, dot_ofFn, ← Finset.sum_sub_distrib, hre, ← Finset.sum_sub_distrib]
    refine Finset.sum_congr rfl fun j _ => ?_
    simp [Complex.mul_re]
    ring

/-- The four variances of column pair `i`. -/
theorem vars_complex {n k : ℕ} {D : Matrix (Fin n) (Fin k) ℂ} {σ : Equiv.Perm (Fin k)} (hP : Paired D σ)
    (hd : (Dᴴ * D).det ≠ 0) (s a b : ℝ) (z : ℂ) (hs : s = a + b) (hz : z.re = a - b) (i : Fin k)
    (G H : Matrix (Fin k) (Fin k) ℂ)
    (hG : G = (s : ℂ) • invGram D + z • (invGram D).submatrix (Equiv.refl _) σ)
    (hH : H = (s : ℂ) • invGram D - z • (invGram D).submatrix (Equiv.refl _) σ) :
    varXuOf !![G i i, G i (σ i); G (σ i) i, G (σ i) (σ i)] = a * ∑ j, cosForm D i j ^ 2 ∧
    varYuOf !![H i i, H i (σ i); H (σ i) i, H (σ i) (σ i)] = a * ∑ j, sinForm D i j ^ 2 ∧
    varXvOf !![H i i, H i (σ i); H (σ i) i, H (σ i) (σ i)] = b * ∑ j, cosForm D i j ^ 2 ∧
    varYvOf !![G i i, G i (σ i); G (σ i) i, G (σ i) (σ i)] = b * ∑ j, sinForm D i j ^ 2 := by
  rw [hP.sum_cos hd, hP.sum_sin hd]
  have k1 : invGram D (σ i) (σ i) = conj (invGram D i i) := hP.invGram i i
  have k2 : invGram D (σ i) i = conj (invGram D i (σ i)) := by
    have := hP.invGram i (σ i); rwa [hP.inv] at this
  have k3 : (invGram D i i).im = 0 := by
    have := congrArg Complex.im (invGram_conj D i i)
    rw [Complex.conj_im] at this
    linarith
  simp only [varXuOf, varYuOf, varXvOf, varYvOf, hG, hH, Matrix.of_apply, Matrix.cons_val_zero, Matrix.cons_val_one,
    Matrix.cons_val', Matrix.add_apply, Matrix.sub_apply, Matrix.smul_apply, submatrix_apply, Equiv.refl_apply,
    smul_eq_mul, hP.inv, k1, k2, Matrix.cons_val_fin_one, Complex.add_re, Complex.sub_re, Complex.add_im, Complex.sub_im,
    Complex.conj_re, Complex.conj_im, Complex.mul_re, Complex.mul_im, Complex.re_ofNat, Complex.im_ofNat, Complex.ofReal_re,
    Complex.ofReal_im, hs, hz, k3]
  refine ⟨?_, ?_, ?_, ?_⟩ <;> ring

section
variable {E : Env} {t : TimeArg} {u v : Series} {lat : Option ℝ} {opts : Dict PyVal}
  {c : Coef} {opt : Opt} {p : Prep} {tn : List Fl} {constit : Constit} {m : List ℂ} {W : List ℝ}
  {rf : Option RobOut} {full : Coef} {o : Order} {ind : List ℕ}

/-- The curves of a vector analysis and their values at the samples, any method. -/
theorem Facts.reportedCurrent (F : Facts E t u (some v) lat opts c opt p tn constit m W rf full o ind)
    (R : Ready E t u (some v)) (hnd : opts.keys.Nodup) (h : solve E t u (some v) lat opts = .ok c) (hk : AllKept c)
    (hinf : p.infer = none) (hi : IndepColumns p.nm p.B) :
    ∃ qu qv, ReportedCurrent c qu qv ∧
      xmodOf p.opt.twodim p.B m = p.ed.t.map (fun τ => (⟨linCurve c qu τ, linCurve c qv τ⟩ : ℂ)) ∧
      ∀ (k : Fin p.nm) (n : String), p.sel.nrName[k.val]? = some n → k.val < p.sel.nNR → ∀ f : Fin p.nm → ℂ,
        m = List.ofFn f → qu.X n = (f k + f (swapPerm p.sel.nNR p.nm (F.two_le hinf) k)).re ∧
          qu.Y n = -(f k - f (swapPerm p.sel.nNR p.nm (F.two_le hinf) k)).im ∧
          qv.X n = (f k + f (swapPerm p.sel.nNR p.nm (F.two_le hinf) k)).im ∧
          qv.Y n = (f k - f (swapPerm p.sel.nNR p.nm (F.two_le hinf) k)).re := by
  obtain ⟨h0, hnR, hname, hlen, hnm⟩ := F.noRefs hinf
  obtain ⟨P, M, mean, slope, hP, hM, hs, hm⟩ := F.exists_coef (F.nodup hinf hi) m F.mlen
  obtain ⟨r1, r2⟩ := F.read hnd P M mean slope hP hM hm
  have hre : ∀ τ, rotaryCurve c P M mean slope τ =
      ⟨linCurve c ⟨fun n => (P n + M n).re, fun n => -(P n - M n).im, mean.re, slope.re⟩ τ,
        linCurve c ⟨fun n => (P n + M n).im, fun n => (P n - M n).re, mean.im, slope.im⟩ τ⟩ := by
    intro τ
    unfold rotaryCurve linCurve
    have e1 : ∀ l : List ℂ, l.sum.re = (l.map Complex.re).sum := by
      intro l
      induction l with
      | nil => rfl
      | cons a l ih => simp [ih]
    have e1' : ∀ l : List ℂ, l.sum.im = (l.map Complex.im).sum := by
      intro l
      induction l with
      | nil => rfl
      | cons a l ih => simp [ih]
    have e2 : (c.name.map (Complex.re ∘ fun n => harmonic c n τ * P n + conj (harmonic c n τ) * M n)) =
        c.name.map fun n => (P n + M n).re * (harmonic c n τ).re + -(P n - M n).im * (harmonic c n τ).im := by
      refine List.map_congr_left fun n _ => ?_
      simp only [Function.comp_apply, Complex.add_re, Complex.mul_re, Complex.conj_re, Complex.conj_im, Complex.sub_im]
      ring
    have e3 : (c.name.map (Complex.im ∘ fun n => harmonic c n τ * P n + conj (harmonic c n τ) * M n)) =
        c.name.map fun n => (P n + M n).im * (harmonic c n τ).re + (P n - M n).re * (harmonic c n τ).im := by
      refine List.map_congr_left fun n _ => ?_
      simp only [Function.comp_apply, Complex.add_im, Complex.mul_im, Complex.conj_re, Complex.conj_im, Complex.sub_re]
      ring
    apply Complex.ext
    · rw [Complex.add_re, Complex.add_re, Complex.re_mul_ofReal, e1, List.map_map, e2]
      ring
    · rw [Complex.add_im, Complex.add_im, Complex.im_mul_ofReal, e1', List.map_map, e3]
      ring
  refine ⟨⟨fun n => (P n + M n).re, fun n => -(P n - M n).im, mean.re, slope.re⟩,
    ⟨fun n => (P n + M n).im, fun n => (P n - M n).re, mean.im, slope.im⟩, ⟨fun hn => ?_, fun hn => ?_, fun i n hn => ?_,
    fun a ha E' t' => ?_⟩, ?_, fun k n hn hkl f hf => ?_⟩
  · dsimp only
    rw [hs (by rw [F.copt] at hn; exact hn)]; rfl
  · dsimp only
    rw [hs (by rw [F.copt] at hn; exact hn)]; rfl
  · rw [r1, ellipseAt_map, hn]
    rfl
  · have hell : ∀ i n, c.name[i]? = some n → ∃ e, ellipseAt c.ell i = some e ∧ ccw e = P n ∧ cw e = M n := by
      intro i n hn
      refine ⟨ell2 (P n) (M n), ?_, ?_, ?_⟩
      · rw [r1, ellipseAt_map, hn]
        rfl
      · exact ccw_ell2 _ _
      · exact cw_ell2 _ _
    rw [predicted R hnd h hk _ _ hell a ha E' t']
    congr 1
    funext tn
    refine List.map_congr_left fun x _ => ?_
    congr 1
    funext τ
    rw [level_meanRec c _ _ _ _ hs r2 τ]
    simp only [Option.isSome_some, if_true]
    rw [← hre]
    unfold rotaryCurve
    ring
  · have htd : p.opt.twodim = true := F.td hnd
    unfold xmodOf
    rw [htd, F.B_eq, List.map_map]
    refine List.map_congr_left fun τ hτ => ?_
    simp only [Function.comp_apply, if_true]
    rw [hm, F.row_curve R hnd hk (by rw [hinf]; rfl) P M mean slope hP hM hs τ hτ, hre]
  · have hm2 := hm
    rw [nameCoef_noRefs h0] at hm2
    have hkn : k.val < p.sel.nrName.length := (List.getElem?_eq_some_iff.1 hn).1
    have hget : ∀ i : Fin p.nm, m[i.val]? = some (f i) := by
      intro i; rw [hf, List.getElem?_ofFn]; simp
    have fP : f k = P n := by
      have := hget k
      rw [hm2, List.append_assoc, List.getElem?_append_left (by rw [List.length_map]; exact hkn), List.getElem?_map, hn] at this
      exact (Option.some.inj this).symm
    have fM : f (swapPerm p.sel.nNR p.nm (F.two_le hinf) k) = M n := by
      have := hget (swapPerm p.sel.nNR p.nm (F.two_le hinf) k)
      have hv := swapPerm_val p.sel.nNR p.nm (F.two_le hinf) k
      generalize swapPerm p.sel.nNR p.nm (F.two_le hinf) k = l at this hv ⊢
      rw [hv, hm2] at this
      rw [show swapIdx p.sel.nNR k.val = k.val + p.sel.nNR from if_pos hkl, List.append_assoc,
        List.getElem?_append_right (by rw [List.length_map]; omega),
        List.getElem?_append_left (by rw [List.length_map, List.length_map]; omega), List.getElem?_map, List.length_map,
        show k.val + p.sel.nNR - p.sel.nrName.length = k.val by omega, hn] at this
      exact (Option.some.inj this).symm
    rw [fP, fM]
    exact ⟨rfl, rfl, rfl, rfl⟩

/-- Interval of the constituent at position `k` of the selection, any method, vector series. -/
theorem Facts.ciRowWeighted2 (F : Facts E t u (some v) lat opts c opt p tn constit m W rf full o ind)
    (R : Ready E t u (some v))
    (hI : InvOk E.num.inv) (hnd : opts.keys.Nodup) (hci : opt.confInt = true) (hlin : opt.linci = true)
    (hinf : p.infer = none) (w : Fin p.B.length → ℝ) (hW : W = List.ofFn w) (hw : ∀ j, 0 ≤ w j)
    (f : Fin p.nm → ℂ) (hm : m = List.ofFn f) :
    ∃ ci pw, full.ci = some ci ∧ (opt.white = true → pw = none) ∧
      p.B.length ≠ p.nm ∧ ((weighted w (designM p.nm p.B))ᴴ * weighted w (designM p.nm p.B)).det ≠ 0 ∧
      ∀ (y z : Fin p.B.length → ℂ), xraw p.ed = List.ofFn y →
        xmodOf p.opt.twodim p.B m = List.ofFn z → ∀ (k : Fin p.nm), k.val < p.sel.nNR →
        let su := (∑ j, w j * (y j).re * ((y j).re - (z j).re)) / ((p.B.length : ℝ) - p.nm)
        let sv := (∑ j, w j * (y j).im * ((y j).im - (z j).im)) / ((p.B.length : ℝ) - p.nm)
        let vc := ∑ j, cosForm (weighted w (designM p.nm p.B)) k j ^ 2
        let vs := ∑ j, sinForm (weighted w (designM p.nm p.B)) k j ^ 2
        intervalAt ci k = some (linear2 (powerRow pw Power.Pvv k)
          (f k + f (swapPerm p.sel.nNR p.nm (F.two_le hinf) k)).re
          (-(f k - f (swapPerm p.sel.nNR p.nm (F.two_le hinf) k)).im)
          (f k + f (swapPerm p.sel.nNR p.nm (F.two_le hinf) k)).im
          (f k - f (swapPerm p.sel.nNR p.nm (F.two_le hinf) k)).re
          (su * vc) (su * vs) (sv * vc) (sv * vs)).1 := by
  have hP := F.paired hinf
  obtain ⟨hrefs, hnR, hname, hlen, hnm⟩ := F.noRefs hinf
  rcases F.solved.ci with ⟨h4, -⟩ | ⟨-, ci, hc, hfull⟩
  · rw [F.prep.hopt, hci] at h4; cases h4
  have hxl : (xraw p.ed).length = p.B.length := (F.prep.height R.ht R.hu R.hv).symm
  unfold confidence at hc
  simp only [bind_eq_ok, pure_eq_ok, Except.ok.injEq] at hc
  obtain ⟨pw, hpw, GH, hGH, rows, hrows, inf, hinf', hpack⟩ := hc
  obtain ⟨hne, hd, hGHe⟩ := covariances_weighted hI (confIn p m W) w hw hW _ hP hGH
  have hml : m.length = numCols (!opt.notrend) p.sel := by rw [F.mlen, F.prep.nm]
  obtain ⟨a1, a2⟩ := apOf_length _ m hml
  have hXl : (confIn p m W).Xu.length = p.sel.nNR := by simp [confIn, a1, a2, hnR]
  refine ⟨ci, pw, hfull, ?_, fun h0 => hne (hxl.trans h0), hd, ?_⟩
  · intro hw
    have : (confIn p m W).white = true := by show p.opt.white = true; rw [F.prep.hopt, hw]
    rw [this, if_pos rfl] at hpw
    exact (Except.ok.inj hpw).symm
  · intro y z hy hz k hk
    dsimp only
    obtain ⟨m1, m2⟩ := msm_complex (confIn p m W) w y z hW hy hz
    have hxl' : (confIn p m W).xraw.length = p.B.length := hxl
    obtain ⟨su, hsu⟩ : ∃ su, su = (∑ j, w j * (y j).re * ((y j).re - (z j).re)) / ((p.B.length : ℝ) - p.nm) := ⟨_, rfl⟩
    obtain ⟨sv, hsv⟩ : ∃ sv, sv = (∑ j, w j * (y j).im * ((y j).im - (z j).im)) / ((p.B.length : ℝ) - p.nm) := ⟨_, rfl⟩
    obtain ⟨G, H⟩ := GH
    obtain ⟨hG, hH⟩ := Prod.mk.inj hGHe
    have c1 : msmNum (confIn p m W) / (((confIn p m W).xraw.length : ℝ) - (confIn p m W).nm) = su + sv := by
      rw [m1, hxl', hsu, hsv, ← add_div]; rfl
    have c2 : (pseudoNum (confIn p m W) / ((((confIn p m W).xraw.length : ℝ) - (confIn p m W).nm : ℝ) : ℂ)).re =
        su - sv := by
      rw [Complex.div_ofReal_re, m2, hxl', hsu, hsv, ← sub_div]; rfl
    rw [c1] at hG hH
    obtain ⟨v1, v2, v3, v4⟩ := vars_complex (hP.weighted w) hd (su + sv) su sv _ rfl c2 k G H hG hH
    rw [← hsu, ← hsv]
    obtain ⟨g1, g2⟩ := F.ap_get hinf _ hm k hk
    have hbd : (swapPerm p.sel.nNR p.nm (F.two_le hinf) k).val = k.val + p.sel.nNR := by
      rw [swapPerm_val]; exact if_pos hk
    have hbG := block_ok (nm := p.nm) G p.sel.nNR k _ hbd
    have hbH := block_ok (nm := p.nm) H p.sel.nNR k _ hbd
    have hXu : (confIn p m W).Xu[k.val]? = some (f k + f (swapPerm p.sel.nNR p.nm (F.two_le hinf) k)).re := by
      show (List.zipWith _ _ _)[k.val]? = _
      rw [List.getElem?_zipWith, g1, g2]
    have hYu : (confIn p m W).Yu[k.val]? = some (-(f k - f (swapPerm p.sel.nNR p.nm (F.two_le hinf) k)).im) := by
      show (List.zipWith _ _ _)[k.val]? = _
      rw [List.getElem?_zipWith, g1, g2]
    have htd : p.opt.twodim = true := F.td hnd
    obtain ⟨row, hrow1, hrow2⟩ := mapM_getElem? _ _ _ hrows k.val k.val (by
      rw [List.getElem?_range (by rw [hXl]; exact hk)])
    have htd' : (confIn p m W).twodim = true := htd
    have hrow : intervalAt ci k.val = some row.1 := by
      have hl : (rows.map Prod.fst ++ inf)[k.val]? = some row.1 := by
        rw [List.getElem?_append_left (by rw [List.length_map]; exact (List.getElem?_eq_some_iff.1 hrow1).1),
          List.getElem?_map, hrow1]; rfl
      rw [← hpack, htd']
      unfold packCi
      simp only [if_true, intervalAt, List.getElem?_map, hl, Option.map_some, Option.bind_some]
    rw [hrow]
    congr 1
    unfold ciOne at hrow2
    simp only [bind_eq_ok, getIdx_ok] at hrow2
    obtain ⟨G', hG', H', hH', Xu, hXu', Yu, hYu', g, hg, pu, hpu, hrow2⟩ := hrow2
    rw [hXl] at hG' hH'
    have eG := Except.ok.inj (hbG.symm.trans hG')
    have eH := Except.ok.inj (hbH.symm.trans hH')
    have eXu := Option.some.inj (hXu.symm.trans hXu')
    have eYu := Option.some.inj (hYu.symm.trans hYu')
    have hlin' : (confIn p m W).linci = true := by show p.opt.linci = true; rw [F.prep.hopt, hlin]
    rw [htd', hlin'] at hrow2
    simp only [if_true, pure_eq_ok, Except.ok.injEq, bind_eq_ok, getIdx_ok] at hrow2
    obtain ⟨Xv, hXv, Yv, hYv, pv, hpv, hrow2⟩ := hrow2
    have eXv : Xv = (f k + f (swapPerm p.sel.nNR p.nm (F.two_le hinf) k)).im := by
      have : (confIn p m W).Xv[k.val]? = some (f k + f (swapPerm p.sel.nNR p.nm (F.two_le hinf) k)).im := by
        show (if p.opt.twodim then List.zipWith _ _ _ else [])[k.val]? = _
        rw [if_pos htd, List.getElem?_zipWith, g1, g2]
      exact Option.some.inj (hXv.symm.trans this)
    have eYv : Yv = (f k - f (swapPerm p.sel.nNR p.nm (F.two_le hinf) k)).re := by
      have : (confIn p m W).Yv[k.val]? = some (f k - f (swapPerm p.sel.nNR p.nm (F.two_le hinf) k)).re := by
        show (if p.opt.twodim then List.zipWith _ _ _ else [])[k.val]? = _
        rw [if_pos htd, List.getElem?_zipWith, g1, g2]
      exact Option.some.inj (hYv.symm.trans this)
    rw [← hrow2, ← eG, ← eH, ← eXu, ← eYu, power_row pw Power.Pvv _ _ hpv, eXv, eYv]
    erw [v1, v2, v3, v4]

end

/-- A negative variance of either component makes the intervals not a number. -/
theorem linear2_negative (Xu Yu Xv Yv a b a' b' : ℝ) (h : a < 0 ∨ a' < 0) :
    (linear2 none Xu Yu Xv Yv a b a' b').1.maj = .nan ∧ (linear2 none Xu Yu Xv Yv a b a' b').1.g = .nan ∧
    (Xv ≠ 0 → (linear2 none Xu Yu Xv Yv a b a' b').1.min = .nan ∧ (linear2 none Xu Yu Xv Yv a b a' b').1.theta = .nan) := by
  have h3 : ∀ d1 d2 d3 d4 s2 s3 s4 : Fl, linSum d1 d2 d3 d4 .nan s2 s3 s4 = .nan := fun d1 d2 d3 d4 s2 s3 s4 => by
    have hs : Fl.sq .nan = .nan := rfl
    unfold linSum
    rw [hs, mul_nan, nan_add, nan_add, nan_add]
    rfl
  have h1 : (addJ (Fl.fin a).sqrt (Fl.fin a').sqrt).1 = .nan := by
    unfold addJ
    rcases h with h | h
    · rw [show (Fl.fin a).sqrt = .nan from if_pos h, nan_add]
    · rw [show (Fl.fin a').sqrt = .nan from if_pos h, mul_nan, add_nan]
  have h4 : ∀ s2 s3 s4 : Fl, (utLinci Xu Yu Xv Yv .nan s2 s3 s4).sMaj = .nan ∧ (utLinci Xu Yu Xv Yv .nan s2 s3 s4).sG = .nan ∧
      (Xv ≠ 0 → (utLinci Xu Yu Xv Yv .nan s2 s3 s4).sMin = .nan ∧ (utLinci Xu Yu Xv Yv .nan s2 s3 s4).sTheta = .nan) := by
    intro s2 s3 s4
    by_cases hX : Xv = 0
    · refine ⟨?_, ?_, fun h => absurd hX h⟩
      · unfold utLinci; dsimp only; rw [if_pos hX]; exact h3 _ _ _ _ _ _ _
      · unfold utLinci; dsimp only; rw [if_pos hX]; dsimp only; rw [h3, mul_nan]
    · refine ⟨?_, ?_, fun _ => ⟨?_, ?_⟩⟩
      · unfold utLinci; dsimp only; rw [if_neg hX]; dsimp only [addJ]; rw [h3, nan_add]
      · unfold utLinci; dsimp only; rw [if_neg hX]; dsimp only [addJ]; rw [h3, mul_nan, nan_add]
      · unfold utLinci; dsimp only; rw [if_neg hX]; exact h3 _ _ _ _ _ _ _
      · unfold utLinci; dsimp only; rw [if_neg hX]; dsimp only [addJ]; rw [h3, mul_nan]
  unfold linear2 utLinci2
  dsimp only
  rw [h1]
  obtain ⟨k1, k2, k3⟩ := h4 (addJ (Fl.fin b).sqrt (Fl.fin b').sqrt).1 (addJ (Fl.fin a).sqrt (Fl.fin a').sqrt).2
    (addJ (Fl.fin b).sqrt (Fl.fin b').sqrt).2
  refine ⟨by rw [k1, mul_nan], by rw [k2, mul_nan], fun hX => ?_⟩
  obtain ⟨k4, k5⟩ := k3 hX
  exact ⟨by rw [k4, mul_nan], by rw [k5, mul_nan]⟩

/-! ## C145 -/

/-- What C145 says about one constituent. -/
theorem robust_row2 {E : Env} {t : TimeArg} {u v : Series} {lat : Option ℝ} {opts : Dict PyVal} {c : Coef} {tn : List Fl}
    (R : Ready E t u (some v)) (hI : InvOk E.num.inv) (H : IntervalRun E t u (some v) lat opts c tn) :
    ∃ ci qu qv pw, c.ci = some ci ∧ ReportedCurrent c qu qv ∧ (c.opt.white = true → pw = none) ∧
      (sampleTimes tn u (some v)).length ≠ numPar c ∧
      ∀ (i : ℕ) (n : String), c.name[i]? = some n → ∃ (a b : List ℝ) (k : ℕ),
        WeightedBlue c (sampleTimes tn u (some v)) c.weights (fun q => q.X n) a ∧
        WeightedBlue c (sampleTimes tn u (some v)) c.weights (fun q => q.Y n) b ∧
        0 < varSum c.weights a ∧ 0 ≤ varSum c.weights b ∧
        intervalAt ci i = some (linear2 (powerRow pw Power.Pvv k) (qu.X n) (qu.Y n) (qv.X n) (qv.Y n)
          (weightedMSM c (sampleTimes tn u (some v)) (sampleU tn u (some v)) c.weights qu * varSum c.weights a)
          (weightedMSM c (sampleTimes tn u (some v)) (sampleU tn u (some v)) c.weights qu * varSum c.weights b)
          (weightedMSM c (sampleTimes tn u (some v)) (sampleV tn u (some v)) c.weights qv * varSum c.weights a)
          (weightedMSM c (sampleTimes tn u (some v)) (sampleV tn u (some v)) c.weights qv * varSum c.weights b)).1 := by
  obtain ⟨opt, p, tn0, constit, m, W, rf, full, o, ind, F⟩ := solve_facts R H.returned
  have hc := F.copt
  subst hc
  cases Except.ok.inj (F.prep.init.time.symm.trans H.time)
  have hinf : p.infer = none := Except.ok.inj (F.prep.hinfer.symm.trans H.infer)
  obtain ⟨w, hW, hw⟩ := F.weightsFin R H.keys H.returned
  obtain ⟨f, hm⟩ := UTide.exists_ofFn p.nm m F.mlen
  obtain ⟨ci, pw, hci, hwh, hne, hd, hrow⟩ := F.ciRowWeighted2 R hI H.keys H.ci H.linear hinf w hW hw f hm
  have hi := indep_of_weighted p.nm p.B F.prep.rows w hd
  obtain ⟨qu, qv, hq, hxm, hqp⟩ := F.reportedCurrent R H.keys H.returned H.kept hinf hi
  obtain ⟨x, hx⟩ := F.data R
  obtain ⟨-, hts, hxs⟩ := F.samples R
  have hU : sampleU tn u (some v) = List.ofFn fun j => (x j).re := by
    have : sampleU tn u (some v) = (xraw p.ed).map Complex.re := by rw [hxs, List.map_map]; rfl
    rw [this, hx, List.map_ofFn]; rfl
  have hV : sampleV tn u (some v) = List.ofFn fun j => (x j).im := by
    have : sampleV tn u (some v) = (xraw p.ed).map Complex.im := by rw [hxs, List.map_map]; rfl
    rw [this, hx, List.map_ofFn]; rfl
  have hT : sampleTimes tn u (some v) = p.ed.t := hts.symm
  have hcw : c.weights = List.ofFn w := F.cweights.trans hW
  obtain ⟨z, hz⟩ := UTide.exists_ofFn p.B.length (p.ed.t.map fun τ => (⟨linCurve c qu τ, linCurve c qv τ⟩ : ℂ))
    (by rw [List.length_map, F.t_length])
  have hz' : xmodOf p.opt.twodim p.B m = List.ofFn z := hxm.trans hz
  have hzu : p.ed.t.map (linCurve c qu) = List.ofFn fun j => (z j).re := by
    have := congrArg (List.map Complex.re) hz
    rw [List.map_map, List.map_ofFn] at this
    exact this
  have hzv : p.ed.t.map (linCurve c qv) = List.ofFn fun j => (z j).im := by
    have := congrArg (List.map Complex.im) hz
    rw [List.map_map, List.map_ofFn] at this
    exact this
  have hcc : c.ci = some (ci.permute ind) := by
    rw [F.solved.result]; show full.ci.map _ = _; rw [hci]; rfl
  have hmsm : ∀ (q : CurvePar) (Y : List ℝ) (y1 z1 : Fin p.B.length → ℝ), Y = List.ofFn y1 →
      p.ed.t.map (linCurve c q) = List.ofFn z1 →
      weightedMSM c (sampleTimes tn u (some v)) Y c.weights q =
        (∑ j, w j * y1 j * (y1 j - z1 j)) / ((p.B.length : ℝ) - p.nm) := by
    intro q Y y1 z1 hY hz1
    have hwr : weightedResiduals c (sampleTimes tn u (some v)) Y c.weights q = List.ofFn fun j => w j * (y1 j - z1 j) := by
      unfold weightedResiduals residuals
      rw [hT, hY, hcw, hz1, sub_fin]
      apply List.ext_getElem
      · simp
      · intro i _ _; simp
    unfold weightedMSM
    rw [hwr, hY, combine_fin, hT, F.t_length, F.numPar_eq R H.keys H.kept hinf]
    congr 1
    exact Finset.sum_congr rfl fun j _ => by ring
  refine ⟨ci.permute ind, qu, qv, pw, hcc, hq, hwh, ?_, fun i n hn => ?_⟩
  · rw [hT, F.t_length, F.numPar_eq R H.keys H.kept hinf]; exact hne
  · obtain ⟨k, hk, hkn, hki, he, ci', hci', hint⟩ := F.position hinf ci hci i n hn
    cases Option.some.inj (hci'.symm.trans hcc)
    obtain ⟨⟨bX, vX⟩, bY, vY⟩ := F.weighted_cos R H.keys H.kept hinf w hw hd k n hkn
    obtain ⟨eX, eY, eXv, eYv⟩ := hqp k n hkn hk f hm
    refine ⟨_, _, k.val, by rw [hT, hcw]; exact bX, by rw [hT, hcw]; exact bY, ?_, ?_, ?_⟩
    · rw [hcw, vX]
      rcases (Finset.sum_nonneg fun j (_ : j ∈ Finset.univ) =>
        sq_nonneg (cosForm (weighted w (designM p.nm p.B)) k j)).lt_or_eq with h0 | h0
      · exact h0
      · exfalso
        have h1 : ∀ j, cosForm (weighted w (designM p.nm p.B)) k j = 0 := by
          intro j
          have := (Finset.sum_eq_zero_iff_of_nonneg fun j (_ : j ∈ Finset.univ) =>
            sq_nonneg (cosForm (weighted w (designM p.nm p.B)) k j)).1 h0.symm j (Finset.mem_univ j)
          exact pow_eq_zero_iff two_ne_zero |>.1 this
        have h2 := bX.unbiased ⟨fun _ => 1, fun _ => 0, 0, 0⟩ fun _ => rfl
        simp only [h1, mul_zero] at h2
        obtain ⟨z', hz2⟩ := UTide.exists_ofFn p.B.length (p.ed.t.map (linCurve c ⟨fun _ => 1, fun _ => 0, 0, 0⟩))
          (by rw [List.length_map, F.t_length])
        rw [hz2, combine_fin] at h2
        simp at h2
    · rw [hcw, vY]; exact Finset.sum_nonneg fun j _ => sq_nonneg _
    · rw [hint, hrow _ _ hx hz' k hk, hmsm qu _ _ _ hU hzu, hmsm qv _ _ _ hV hzv, hcw, vX, vY, eX, eY, eXv, eYv]

/-- **C145**: white noise floor, any method, currents. -/
theorem C145_white {E : Env} {t : TimeArg} {u v : Series} {lat : Option ℝ} {opts : Dict PyVal} {c : Coef} {tn : List Fl}
    (R : Ready E t u (some v)) (hI : InvOk E.num.inv) (H : IntervalRun E t u (some v) lat opts c tn)
    (hwhite : c.opt.white = true) :
    ∃ ci qu qv, c.ci = some ci ∧ ReportedCurrent c qu qv ∧ (sampleTimes tn u (some v)).length ≠ numPar c ∧
      ∀ su sv, su = weightedMSM c (sampleTimes tn u (some v)) (sampleU tn u (some v)) c.weights qu →
      sv = weightedMSM c (sampleTimes tn u (some v)) (sampleV tn u (some v)) c.weights qv →
      ∀ (i : ℕ) (n : String), c.name[i]? = some n → ∃ a b : List ℝ,
        WeightedBlue c (sampleTimes tn u (some v)) c.weights (fun q => q.X n) a ∧
        WeightedBlue c (sampleTimes tn u (some v)) c.weights (fun q => q.Y n) b ∧
        ∀ x σ : Fin 4 → ℝ, x = ![qu.X n, qu.Y n, qv.X n, qv.Y n] →
          σ = ![Real.sqrt (su * varSum c.weights a), Real.sqrt (su * varSum c.weights b),
            Real.sqrt (sv * varSum c.weights a), Real.sqrt (sv * varSum c.weights b)] →
          (0 ≤ su → 0 ≤ sv → NotCircular x → ∃ r, intervalAt ci i = some r ∧ (x 2 ≠ 0 → FirstOrderCi x σ r) ∧
            ∃ da dg, Propagated 0 (fun y => (ellRow y).Lsmaj) x σ da ∧ Propagated 180 (fun y => (ellRow y).g) x σ dg ∧
              r.maj = .fin (1.96 * da) ∧ r.g = .fin (1.96 * dg)) ∧
          (su < 0 ∨ sv < 0 → ∃ r, intervalAt ci i = some r ∧ r.maj = .nan ∧ r.g = .nan ∧
            (x 2 ≠ 0 → r.min = .nan ∧ r.theta = .nan)) := by
  obtain ⟨ci, qu, qv, pw, hci, hq, hpw, hne, hrow⟩ := robust_row2 R hI H
  have := hpw hwhite
  subst this
  refine ⟨ci, qu, qv, hci, hq, hne, fun su sv hsu hsv i n hn => ?_⟩
  obtain ⟨a, b, k, h1, h2, ha, hb, h5⟩ := hrow i n hn
  rw [← hsu, ← hsv] at h5
  refine ⟨a, b, h1, h2, fun x σ hx hσ => ⟨fun h0 h0' hxy => ?_, fun h0 => ?_⟩⟩
  · subst hx hσ
    have na : 0 ≤ su * varSum c.weights a := mul_nonneg h0 ha.le
    have nb : 0 ≤ su * varSum c.weights b := mul_nonneg h0 hb
    have na' : 0 ≤ sv * varSum c.weights a := mul_nonneg h0' ha.le
    have nb' : 0 ≤ sv * varSum c.weights b := mul_nonneg h0' hb
    have := C50_vector_partial none _ ![Real.sqrt (su * varSum c.weights a), Real.sqrt (su * varSum c.weights b),
      Real.sqrt (sv * varSum c.weights a), Real.sqrt (sv * varSum c.weights b)]
      ![su * varSum c.weights a, su * varSum c.weights b, sv * varSum c.weights a, sv * varSum c.weights b] hxy
      (fun i => by fin_cases i <;> exact Real.sqrt_nonneg _) (by
        simp [linear2, Real.sq_sqrt na, Real.sq_sqrt nb, Real.sq_sqrt na', Real.sq_sqrt nb'])
    exact ⟨_, h5, this⟩
  · subst hx
    refine ⟨_, h5, linear2_negative _ _ _ _ _ _ _ _ ?_⟩
    exact h0.imp (fun h => mul_neg_of_neg_of_pos h ha) fun h => mul_neg_of_neg_of_pos h ha

/-- The six observations as a current along the x axis, robust analysis with intervals. -/
theorem six_zero_ci : ∃ c, IntervalRun idealEnv sixT (sixSeries (sixY 1 0)) (some (sixSeries fun _ => 0)) (some 45)
    (robCiOpts sixKw) c sixTn ∧ c.opt = { ciOpt true true true with method := .robust sixKw } ∧ c.name = ["M2"] := by
  have hv : SixV (some (sixSeries fun _ => 0)) := .inr ⟨_, rfl⟩
  have R := six_ready (sixY 1 0) _ hv
  obtain ⟨c0, h0, ho0⟩ := six_zero
  obtain ⟨opt, p, tn, constit, m, W, rf, full, o, ind, F⟩ := solve_facts R h0
  have hopt : opt = { exOpt true with method := .robust sixKw } := F.copt.symm.trans ho0
  have hq : LikeEx opt := by rw [hopt]; exact ⟨rfl, rfl, rfl, rfl, rfl⟩
  obtain ⟨z, p', hz, hz', hp'⟩ := six_prep (sixY 1 0) _ hv opt hq
  have htn : tn = sixTn := by
    have h1 := F.prep.init.time
    rw [hq.epoch, six_times] at h1
    exact (Except.ok.inj h1).symm
  subst htn
  have hpp : p = p' := Except.ok.inj (((stagePrep_ok _ _ _ _ _ _ _).2 ⟨_, _, F.prep⟩).symm.trans
    ((stagePrep_ok _ _ _ _ _ _ _).2 ⟨_, _, hp'.prep⟩))
  subst hpp
  have hinf : p.infer = none := by
    have := F.prep.hinfer; rw [hq.infer] at this; exact (Except.ok.inj this).symm
  have hk0 : AllKept c0 := .inl (.inr (.inl (.inl (by rw [ho0]; rfl))))
  have hnd : (methodOpts "robust" sixKw).keys.Nodup := by decide
  have hwt : W = sixW := by
    obtain ⟨c1, H⟩ := six_run' 1 0 one_ne_zero
    obtain ⟨p1, constit1, m1, rf1, full1, o1, ind1, z1, F1, -⟩ := six_facts (methodOpts_robust sixKw)
      ⟨rfl, rfl, rfl, rfl, rfl⟩ rfl H.returned
    obtain ⟨h1, -⟩ := C07_robust idealEnv sixT _ _ (some 45) (methodOpts "robust" sixKw) (methodOpts "robust" sixKw)
      (six_ready _ none (.inl rfl)) R (by simp [sixSeries, Cell.value?, Fl.toReal?])
      (by decide) (by decide) (fun _ _ => rfl) sixKw ⟨⟨"robust", by decide, rfl⟩, false, rfl⟩ ⟨by decide, by simp [sixKw]⟩
      c1 c0 H.returned h0 none (by rw [H.opt]; rfl) (by rw [ho0]; rfl)
    rw [← F.cweights, h1, F1.cweights]
  have hd : Determined c0 sixTn (sixSeries (sixY 1 0)) (some (sixSeries fun _ => 0)) := by
    obtain ⟨w, hW, hw⟩ := F.weightsFin R hnd h0
    refine ⟨(F.weighted_separated R hnd hk0 hinf w hW hw).1 ?_, ?_⟩
    · rw [weighted_det p.nm p.B F.prep.rows w hw]
      intro x hx hzero
      rw [hp'.nm] at hx
      refine six_indep z hz hz' x hx fun r hr => ?_
      rw [← hp'.B] at hr
      obtain ⟨j, hj, rfl⟩ := List.mem_iff_getElem.1 hr
      refine hzero ⟨j, hj⟩ (sixW_ne _ ?_)
      rw [← hwt, hW, List.mem_ofFn]
      exact ⟨_, rfl⟩
    · have hT : sampleTimes sixTn (sixSeries (sixY 1 0)) (some (sixSeries fun _ => 0)) = [0, 0, 0.5, 0.5, 1, 1] :=
        six_usable (sixY 1 0) _ hv
      rw [F.numPar_eq R hnd hk0 hinf, hp'.nm, hT]
      simp
  have hnd' : (robCiOpts sixKw).keys.Nodup := by decide
  have hread : getOpt (robCiOpts sixKw) true = .ok { ciOpt true true true with method := .robust sixKw } := by
    unfold robCiOpts
    kernel_rfl
  obtain ⟨c, hc⟩ := C138_available R idealNum_ok.inv idealNum_ok.mvn hnd hnd' (robCiOpts_requested sixKw) h0
    (by rw [ho0]; rfl) hk0 (by rw [ho0]; exact six_times) hd _ hread rfl rfl
  obtain ⟨opt2, p2, tn2, constit2, m2, W2, rf2, full2, o2, ind2, F2⟩ := solve_facts R hc
  have hco : c.opt = { ciOpt true true true with method := .robust sixKw } :=
    F2.copt.trans (Except.ok.inj (hread.symm.trans F2.hopt)).symm
  have hk : AllKept c := .inl (.inr (.inl (.inl (by rw [hco]; rfl))))
  refine ⟨c, ⟨hc, hnd', by rw [hco]; rfl, by rw [hco]; rfl, by rw [hco]; rfl, hk, by rw [hco]; exact six_times⟩, hco, ?_⟩
  exact List.perm_singleton.1 ((C17_honoured idealEnv sixT _ _ (some 45) (robCiOpts sixKw) R
      (by decide) .list (by simp) ["M2"] rfl rfl (.str "frequency") rfl c hc).1 (.inr ⟨_, rfl⟩))

/-- Non-vacuity of C145: a robust analysis of a current with intervals. -/
example : ∃ c ci r, solve idealEnv sixT (sixSeries (sixY 1 0)) (some (sixSeries fun _ => 0)) (some 45) (robCiOpts sixKw) =
    .ok c ∧ c.ci = some ci ∧ intervalAt ci 0 = some r := by
  obtain ⟨c, H, ho, hname⟩ := six_zero_ci
  obtain ⟨ci, qu, qv, pw, hci, -, -, -, hall⟩ := robust_row2 (six_ready _ _ (.inr ⟨_, rfl⟩)) idealNum_ok.inv H
  obtain ⟨a, b, k, -, -, -, -, h⟩ := hall 0 "M2" (by rw [hname]; rfl)
  obtain ⟨ci', qu', qv', hci', -⟩ := C145_white (six_ready _ _ (.inr ⟨_, rfl⟩)) idealNum_ok.inv H (by rw [ho]; rfl)
  exact ⟨c, ci, _, H.returned, hci, h⟩

end

end UTide.Props
