import Verif.Props.InferCiProps
import Verif.Props.OctRun
import Verif.Props.SwapProps

/-!
# C90 for every phase offset
-/

namespace UTide.Props

noncomputable section

open Classical

local notation "conj" => starRingEnd ℂ

/-- What `ut_linci` returns for a scalar series: the standard deviations along and across the phasor. -/
theorem utLinci_scalar (X Y a b : ℝ) (h : X ^ 2 + Y ^ 2 ≠ 0) :
    (utLinci X Y 0 0 (.fin a) (.fin b) (.fin 0) (.fin 0)).sMaj =
      .fin (Real.sqrt ((X ^ 2 * a ^ 2 + Y ^ 2 * b ^ 2) / (X ^ 2 + Y ^ 2))) ∧
    (utLinci X Y 0 0 (.fin a) (.fin b) (.fin 0) (.fin 0)).sG =
      .fin (180 / Real.pi * Real.sqrt ((Y ^ 2 * a ^ 2 + X ^ 2 * b ^ 2) / (X ^ 2 + Y ^ 2) ^ 2)) := by
  have he := fun hp hm => utLinci_eq ![X, Y, 0, 0] ![a, b, 0, 0] hp hm
  simp only [Matrix.cons_val] at he
  obtain ⟨v1, v2, v3, v4, v5, v6, v7, v8, v9, v10, v11, v12, v13, v14, v15, v16⟩ := dir_values
  have hP : posC ![X, Y, 0, 0] = ⟨X / 2, -Y / 2⟩ := by
    apply Complex.ext
    · rw [posC_re]; simp
    · rw [posC_im]; simp
  have hM : negC ![X, Y, 0, 0] = ⟨X / 2, Y / 2⟩ := by
    apply Complex.ext
    · rw [negC_re]; simp
    · rw [negC_im]; simp
  have nP : ‖posC ![X, Y, 0, 0]‖ ^ 2 = (X ^ 2 + Y ^ 2) / 4 := by rw [norm_sq', hP]; ring
  have nM : ‖negC ![X, Y, 0, 0]‖ ^ 2 = (X ^ 2 + Y ^ 2) / 4 := by rw [norm_sq', hM]; ring
  have n1 : ‖posC ![X, Y, 0, 0]‖ = ‖negC ![X, Y, 0, 0]‖ :=
    (sq_eq_sq₀ (norm_nonneg _) (norm_nonneg _)).1 (nP.trans nM.symm)
  have k1 : negC ![X, Y, 0, 0] ≠ 0 := by
    intro h0
    rw [h0, norm_zero] at nM
    apply h; linarith
  have k0 : posC ![X, Y, 0, 0] ≠ 0 := by
    intro h0
    rw [h0, norm_zero] at nP
    apply h; linarith
  have n2 : ‖negC ![X, Y, 0, 0]‖ ≠ 0 := norm_ne_zero_iff.2 k1
  have hPr := congrArg Complex.re hP
  have hPi := congrArg Complex.im hP
  have hMr := congrArg Complex.re hM
  have hMi := congrArg Complex.im hM
  dsimp only at hPr hPi hMr hMi
  rw [he k0 k1]
  refine ⟨congrArg Fl.fin ?_, congrArg Fl.fin ?_⟩
  · simp only [Fin.sum_univ_four, Matrix.cons_val, dNorm, n1, hPr, hPi, hMr, hMi, v1, v2, v3, v4, v9, v10, v11, v12]
    congr 1
    generalize ‖negC ![X, Y, 0, 0]‖ = N at nM n2
    have h4 : X ^ 2 + Y ^ 2 = 4 * N ^ 2 := by linarith
    rw [h4]
    field_simp
    ring
  · simp only [Fin.sum_univ_four, Matrix.cons_val, dAngle, n1, hPr, hPi, hMr, hMi, v1, v2, v3, v4, v9, v10, v11, v12]
    have hpi : (0 : ℝ) ≤ 180 / Real.pi := by positivity
    rw [nM]
    conv_rhs => rw [← Real.sqrt_sq hpi, ← Real.sqrt_mul (sq_nonneg _)]
    congr 1
    field_simp
    ring

/-- A phasor of length zero has no intervals. -/
theorem utLinci_scalar_nan (a b : Fl) (x : ℝ) : (utLinci 0 0 0 0 a b (.fin 0) (.fin 0)).sMaj ≠ .fin x := by
  have hc := utLinci_circular ![0, 0, 0, 0] ![a, b, .fin 0, .fin 0] (.inl (by simp [posC]))
  simp only [Matrix.cons_val] at hc
  rw [hc]
  simp

section
variable {E : Env} {t : TimeArg} {u : Series} {lat : Option ℝ} {opts : Dict PyVal}
  {c : Coef} {opt : Opt} {p : Prep} {tn : List Fl} {constit : Constit} {m : List ℂ} {W : List ℝ}
  {rf : Option RobOut} {full : Coef} {o : Order} {ind : List ℕ}

/-- The cosine and sine coefficients of a reference constituent are those of the amplitude in the result. -/
theorem Facts.refAmplitude (F : Facts E t u none lat opts c opt p tn constit m W rf full o ind) (hnd : opts.keys.Nodup)
    (hn : p.sel.name.Nodup) (k l : ℕ) (r : RefCon) (X Y : ℝ) (hr : p.sel.refs[k]? = some r)
    (hX : (confIn p m W).Xu[p.sel.nNR + k]? = some X) (hY : (confIn p m W).Yu[p.sel.nNR + k]? = some Y)
    (hl : c.name[l]? = some r.name) : ∃ e, ellipseAt c.ell l = some e ∧ e.Lsmaj ^ 2 = X ^ 2 + Y ^ 2 ∧ 0 ≤ e.Lsmaj := by
  obtain ⟨P, M, mean, slope, hP, hM, -, hmm⟩ := F.exists_coef hn m F.mlen
  obtain ⟨hell, -⟩ := F.read hnd P M mean slope hP hM hmm
  have hb := nameCoef_blocks F.prep.aligned (!opt.notrend) P M mean (slope * (p.ed.lor : ℂ))
  rw [← hmm] at hb
  have hap : (apOf p.sel m)[p.sel.nNR + k]? = some (P r.name) := by
    rw [hb.ap, List.getElem?_append_right (by rw [hb.a]; omega), hb.a, Nat.add_sub_cancel_left, List.getElem?_map, hr]
    rfl
  have ham : (amOf p.sel m)[p.sel.nNR + k]? = some (M r.name) := by
    rw [hb.am, List.getElem?_append_right (by rw [hb.b]; omega), hb.b, Nat.add_sub_cancel_left, List.getElem?_map, hr]
    rfl
  have hX' : (P r.name + M r.name).re = X := by
    have : (confIn p m W).Xu = List.zipWith (fun a b => (a + b).re) (apOf p.sel m) (amOf p.sel m) := rfl
    rw [this, List.getElem?_zipWith, hap, ham] at hX
    exact Option.some.inj hX
  have hY' : -(P r.name - M r.name).im = Y := by
    have : (confIn p m W).Yu = List.zipWith (fun a b => -(a - b).im) (apOf p.sel m) (amOf p.sel m) := rfl
    rw [this, List.getElem?_zipWith, hap, ham] at hY
    exact Option.some.inj hY
  refine ⟨_, by rw [hell, ellipseAt_map, hl]; rfl, ?_⟩
  simp only [Option.isSome_none, Bool.false_eq_true, if_false, ell1_eq]
  refine ⟨?_, norm_nonneg _⟩
  rw [norm_sq', ← hX', ← hY']
  simp only [Complex.add_re, Complex.add_im, Complex.sub_im, Complex.conj_re, Complex.conj_im]
  ring

end

/-- One inferred constituent of a scalar series, with factors `k e^{iφ}` and its conjugate. -/
theorem inferOne_any (k C S : ℝ) (hk : 0 < k) (v : Vars) (X Y x y : ℝ) (hx : v.xu = .fin x) (hy : v.yu = .fin y)
    (hx0 : 0 ≤ x) (hy0 : 0 ≤ y) (h0 : X ^ 2 + Y ^ 2 ≠ 0) (q : InfCon)
    (h1 : q.Rp.re ^ 2 + q.Rm.re ^ 2 = 2 * k ^ 2 * C ^ 2) (h2 : q.Rp.im ^ 2 + q.Rm.im ^ 2 = 2 * k ^ 2 * S ^ 2) :
    (inferOne false v X Y 0 0 q).maj = .fin (1.96 * Real.sqrt (k ^ 2 / 2 *
      (C ^ 2 * ((X ^ 2 * x + Y ^ 2 * y) / (X ^ 2 + Y ^ 2)) + S ^ 2 * ((Y ^ 2 * x + X ^ 2 * y) / (X ^ 2 + Y ^ 2))))) ∧
    (inferOne false v X Y 0 0 q).g = .fin (1.96 * (180 / Real.pi * Real.sqrt (k ^ 2 / 2 *
      (C ^ 2 * ((Y ^ 2 * x + X ^ 2 * y) / (X ^ 2 + Y ^ 2) ^ 2) + S ^ 2 * ((X ^ 2 * x + Y ^ 2 * y) / (X ^ 2 + Y ^ 2) ^ 2))))) := by
  have e : ∀ a b : ℝ, 0 ≤ a → 0 ≤ b → (Fl.fin (2 * k ^ 2 * C ^ 2) * (Fl.fin 0.25 * Fl.fin a) +
      Fl.fin (2 * k ^ 2 * S ^ 2) * (Fl.fin 0.25 * Fl.fin b)).sqrt = .fin (Real.sqrt (k ^ 2 / 2 * (C ^ 2 * a + S ^ 2 * b))) := by
    intro a b ha hb
    rw [← fin_sqrt _ (by positivity)]
    congr 1
    show Fl.fin _ = Fl.fin _
    congr 1
    ring
  have e' : ∀ a b : ℝ, 0 ≤ a → 0 ≤ b → (Fl.fin (2 * k ^ 2 * C ^ 2) * (Fl.fin 0.25 * Fl.fin b) +
      Fl.fin (2 * k ^ 2 * S ^ 2) * (Fl.fin 0.25 * Fl.fin a)).sqrt = .fin (Real.sqrt (k ^ 2 / 2 * (C ^ 2 * b + S ^ 2 * a))) :=
    fun a b ha hb => e b a hb ha
  unfold inferOne
  simp only [Bool.false_eq_true, if_false, hx, hy, h1, h2, e x y hx0 hy0, e' x y hx0 hy0]
  obtain ⟨u1, u2⟩ := utLinci_scalar X Y (Real.sqrt (k ^ 2 / 2 * (C ^ 2 * x + S ^ 2 * y)))
    (Real.sqrt (k ^ 2 / 2 * (C ^ 2 * y + S ^ 2 * x))) h0
  rw [Real.sq_sqrt (by positivity), Real.sq_sqrt (by positivity)] at u1 u2
  rw [u1, u2]
  refine ⟨?_, ?_⟩
  · show Fl.fin _ = Fl.fin _
    congr 3
    ring
  · show Fl.fin _ = Fl.fin _
    congr 4
    ring

/-- **C90**, what holds for every phase offset `φ`: with `h` the amplitude of the reference and `A`, `G` the intervals of
its amplitude and phase, the interval of the inferred amplitude is `a / √2` times the root of
`(cos φ · A)² + (sin φ · h · G)²` (`G` in radians), and that of its phase `a / √2` times the root of
`(cos φ · G)² + (sin φ · A / h)²`. -/
theorem C90_offset_partial {E : Env} {t : TimeArg} {u : Series} {lat : Option ℝ} {opts : Dict PyVal} {c : Coef}
    {ci : CiArr} {n r : String} {a φ : ℚ} {i l : ℕ} (R : Ready E t u none)
    (H : InferredRun E t u lat opts c ci n r a φ i l) (ha : 0 < a) (A G : ℝ)
    (hr : intervalAt ci l = some ⟨.fin A, .fin 0, .fin 0, .fin G⟩) :
    ∃ e, ellipseAt c.ell l = some e ∧ 0 < e.Lsmaj ∧
      intervalAt ci i = some
        ⟨.fin (a / Real.sqrt 2 * Real.sqrt ((Real.cos (φ * Real.pi / 180) * A) ^ 2 +
            (Real.sin (φ * Real.pi / 180) * (e.Lsmaj * (G * Real.pi / 180))) ^ 2)), .fin 0, .fin 0,
         .fin (a / Real.sqrt 2 * Real.sqrt ((Real.cos (φ * Real.pi / 180) * G) ^ 2 +
            (Real.sin (φ * Real.pi / 180) * (A / e.Lsmaj * 180 / Real.pi)) ^ 2))⟩ := by
  obtain ⟨opt, p, tn, constit, m, W, rf, full, o, ind, F⟩ := solve_facts R H.returned
  have hc := F.copt
  subst hc
  obtain ⟨s, j, hi, h1, h2, h3, h4⟩ := H.tie
  have hinf : p.infer = some s := Except.ok.inj (F.prep.hinfer.symm.trans hi)
  have hn' : p.sel.name.Nodup := (F.perm_names R H.keys H.kept).nodup_iff.1 H.distinct
  obtain ⟨f, hf, hrefs⟩ := F.inferCiRows H.keys H.linear s hinf hn' ci H.intervals
  have hsel := F.prep.hsel
  rw [hinf] at hsel
  obtain ⟨l0, -, -, -, -, hrefs', -⟩ := cnstitsel_some _ _ _ _ _ hsel
  obtain ⟨x, hx, hx'⟩ := mapM_mem _ _ _ hrefs' r ((mem_firsts _ _).2 (List.mem_of_getElem? h2))
  obtain ⟨hxn, -, -, hinfx⟩ := mkRef_ok _ _ _ _ hx'
  obtain ⟨q, hq, hq'⟩ := mapM_mem _ _ _ hinfx j ((mem_refPositions _ _ _).2 h2)
  obtain ⟨a', ph, ha', hph, hRp, -, hshort, hname, -, -⟩ := mkInf_ok _ _ _ _ hq'
  rw [h1] at hname; rw [h3] at ha'; rw [h4] at hph
  cases hname; cases ha'; cases hph
  obtain ⟨P, X, Y, vx, vy, e1, e2, k, hk, hkX, hkY⟩ := hrefs x hx
  have e2 := e2 q hq
  obtain ⟨e, he, hamp, hnn⟩ := F.refAmplitude H.keys hn' k l x X Y hk hkX hkY (by rw [hxn]; exact H.posReference)
  rw [hxn] at e1
  have hrow := hf l r H.posReference
  rw [hr] at hrow
  obtain ⟨hA, -, -, hG⟩ := Ci1.mk.inj (Option.some.inj hrow)
  rw [e1] at hA hG
  obtain ⟨xx, yy, k1, k2, k3, k4⟩ := linear1_parts P X Y vx vy A hA.symm
  have hRm := hshort (by
    obtain ⟨-, hl, -⟩ := F.inferLengths H.keys s hinf
    simp only [Option.isSome_none, Bool.false_eq_true, if_false] at hl
    omega)
  -- the reference has an amplitude, and its variances are not negative
  rw [k3] at hA
  rw [k4] at hG
  obtain ⟨-, z, hz⟩ := fl_fin_of_mul hA.symm
  have hXY : X ^ 2 + Y ^ 2 ≠ 0 := by
    intro h0
    have hX0 : X = 0 := by nlinarith [sq_nonneg X, sq_nonneg Y]
    have hY0 : Y = 0 := by nlinarith [sq_nonneg X, sq_nonneg Y]
    rw [hX0, hY0] at hz
    exact utLinci_scalar_nan _ _ _ hz
  obtain ⟨⟨w1, hw1⟩, w2, hw2⟩ := utLinci_zero_fin hz
  have hnonneg : ∀ b w : ℝ, (Fl.fin b).sqrt = .fin w → 0 ≤ b := by
    intro b w hb
    by_contra h0
    simp [Fl.sqrt, not_le.1 h0] at hb
  have hx0 := hnonneg _ _ hw1
  have hy0 := hnonneg _ _ hw2
  obtain ⟨u1, u2⟩ := utLinci_scalar X Y (Real.sqrt xx) (Real.sqrt yy) hXY
  rw [Real.sq_sqrt hx0, Real.sq_sqrt hy0] at u1 u2
  rw [fin_sqrt _ hx0, fin_sqrt _ hy0, u1] at hA
  rw [fin_sqrt _ hx0, fin_sqrt _ hy0, u2] at hG
  have hA' : A = 1.96 * Real.sqrt ((X ^ 2 * xx + Y ^ 2 * yy) / (X ^ 2 + Y ^ 2)) := Fl.fin.inj hA
  have hG' : G = 1.96 * (180 / Real.pi * Real.sqrt ((Y ^ 2 * xx + X ^ 2 * yy) / (X ^ 2 + Y ^ 2) ^ 2)) := Fl.fin.inj hG
  have hpos : 0 < X ^ 2 + Y ^ 2 := lt_of_le_of_ne (by positivity) (Ne.symm hXY)
  have hh : 0 < e.Lsmaj := by
    rcases hnn.lt_or_eq with h | h
    · exact h
    · rw [← h] at hamp
      exact absurd (by linarith) hXY
  have ha0 : (0 : ℝ) < a := by exact_mod_cast ha
  -- the factors
  have hcis : Complex.exp (Complex.I * (φ : ℂ) * Real.pi / 180) =
      ⟨Real.cos (φ * Real.pi / 180), Real.sin (φ * Real.pi / 180)⟩ := by
    have : Complex.I * (φ : ℂ) * (Real.pi : ℂ) / 180 = ((φ * Real.pi / 180 : ℝ) : ℂ) * Complex.I := by push_cast; ring
    rw [this]
    apply Complex.ext
    · rw [Complex.exp_ofReal_mul_I_re]
    · rw [Complex.exp_ofReal_mul_I_im]
  have hre : q.Rp.re = a * Real.cos (φ * Real.pi / 180) := by
    rw [hRp, hcis, ← Complex.ofReal_ratCast, Complex.re_ofReal_mul]
  have him : q.Rp.im = a * Real.sin (φ * Real.pi / 180) := by
    rw [hRp, hcis, ← Complex.ofReal_ratCast, Complex.im_ofReal_mul]
  generalize Real.cos (φ * Real.pi / 180) = C at hre ⊢
  generalize Real.sin (φ * Real.pi / 180) = S at him ⊢
  obtain ⟨g1, g2⟩ := inferOne_any a C S ha0 _ X Y xx yy k1 k2 hx0 hy0 hXY q (by
    rw [hRm, Complex.conj_re, hre]; ring) (by
    rw [hRm, Complex.conj_im, him]; ring)
  refine ⟨e, he, hh, ?_⟩
  rw [hf i _ H.posInferred, e2, g1, g2]
  have s2 : (Real.sqrt 2) ^ 2 = 2 := Real.sq_sqrt (by norm_num)
  have hroot : ∀ y z w : ℝ, 0 ≤ y → y ^ 2 * z = w → y * Real.sqrt z = Real.sqrt w := by
    intro y z w hy hw
    rw [← hw, Real.sqrt_mul (sq_nonneg y), Real.sqrt_sq hy]
  have hpi := Real.pi_pos
  have sA : A ^ 2 = 1.96 ^ 2 * ((X ^ 2 * xx + Y ^ 2 * yy) / (X ^ 2 + Y ^ 2)) := by
    rw [hA', mul_pow, Real.sq_sqrt (by positivity)]
  have sG : G ^ 2 = 1.96 ^ 2 * ((180 / Real.pi) ^ 2 * ((Y ^ 2 * xx + X ^ 2 * yy) / (X ^ 2 + Y ^ 2) ^ 2)) := by
    rw [hG', mul_pow, mul_pow, Real.sq_sqrt (by positivity)]
  have hcong : ∀ w x y z : ℝ, w = x → y = z → (some (⟨.fin w, .fin 0, .fin 0, .fin y⟩ : Ci1)) = some ⟨.fin x, .fin 0, .fin 0, .fin z⟩ := by
    rintro w x y z rfl rfl; rfl
  have hs2 : (a / Real.sqrt 2 : ℝ) ^ 2 = (a : ℝ) ^ 2 / 2 := by rw [div_pow, s2]
  refine hcong _ _ _ _ ?_ ?_
  · rw [hroot _ _ _ (by norm_num) rfl, hroot _ _ _ (by positivity) rfl]
    refine congrArg Real.sqrt ?_
    rw [hs2]
    simp only [mul_pow, div_pow, sA, sG, hamp]
    field_simp
  · rw [hroot _ _ _ (by positivity) rfl, hroot _ _ _ (by norm_num) rfl, hroot _ _ _ (by positivity) rfl]
    refine congrArg Real.sqrt ?_
    rw [hs2]
    simp only [mul_pow, div_pow, sA, sG, hamp]
    field_simp

/-- Non-vacuity: S6 inferred from S2. -/
example : ∃ c ci i l e, InferredRun idealEnv octT octU (some 45) (octOpts "linear") c ci "S6" "S2" 1 0 i l ∧
    ellipseAt c.ell l = some e ∧ 0 < e.Lsmaj := by
  obtain ⟨c, ci, O⟩ := oct_run
  obtain ⟨i, hi⟩ := oct_position O "S6" (by simp)
  obtain ⟨l, hl⟩ := oct_position O "S2" (by simp)
  have H := oct_inferred O i l hi hl
  obtain ⟨e, he, h0, -⟩ := C90_offset_partial oct_ready H (by norm_num) _ _ (O.intervals l (.inr hl))
  exact ⟨c, ci, i, l, e, H, he, h0⟩

end

end UTide.Props
