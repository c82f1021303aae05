import Verif.Props.ConvertProps
import Verif.Props.JoinProps
import Verif.Props.SmoothProps
import Verif.Lemmas.CatalogueFreq

/-!
# How much the linearisation of the phases costs: C133
-/

namespace UTide.Props

noncomputable section

open Classical

local notation "conj" => starRingEnd ℂ

/-! ## Specification -/

/-- Within a million days of noon of 31 December 1899: the years -800 to 4600. -/
def Era (t : ℝ) : Prop := |t - 693595.5| ≤ 1000000

/-- What the quadratic and cubic terms of the astronomical arguments may amount to over `d` days, in cycles: 6e-6 for
10000 days, that is 0.0022 degrees in 27 years. -/
def curvature (d : ℝ) : ℝ := 6 / 10 ^ 6 * (d / 10000) ^ 2

/-! ## Arguments -/

/-- Greenwich argument less its linearisation. -/
def phaseShift (tref t : ℝ) (k : ℕ) : ℝ := greenwich t k - greenwich tref k - 24 * (t - tref) * linFreqs tref k

/-- The derivative of a cubic longitude. -/
def longRate (b c d t : ℝ) : ℝ := (b + c * 2.0e-4 * ((t - 693595.5) / 10000) + d * 3.0e-4 * ((t - 693595.5) / 10000) ^ 2) / 360

theorem longitude_shift (a b c d tref t : ℝ) :
    longitude a b c d t - longitude a b c d tref - longRate b c d tref * (t - tref) =
      ((t - tref) / 10000) ^ 2 * (c / 360 + d / 360 * ((t - 693595.5) / 10000 + 2 * ((tref - 693595.5) / 10000))) := by
  unfold longitude longRate
  norm_num
  ring

theorem dotDargs_longRate (c : Cubic) (t : ℝ) : c.dotDargs t / 360.0 = longRate c.c1 c.c2 c.c3 t := by
  unfold Cubic.dotDargs longRate daten
  norm_num
  ring

theorem rateCoef_one (d : Doodson) : ((rateCoef 1 d : ℚ) : ℝ) = 2.0e-4 / 8640 *
    (d.d1 * (0.00002267 - -0.0000850) + d.d2 * -0.0000850 + d.d3 * 0.00002267 + d.d4 * -0.0007739 +
      d.d5 * -0.0001557 + d.d6 * 0.0000339) := by
  unfold rateCoef rateRow
  push_cast
  norm_num
  ring

theorem rateCoef_two (d : Doodson) : ((rateCoef 2 d : ℚ) : ℝ) = 3.0e-4 / 8640 *
    (d.d1 * (0 - 0.000000039) + d.d2 * 0.000000039 + d.d3 * 0 + d.d4 * -0.00000026 +
      d.d5 * -0.000000050 + d.d6 * 0.000000070) := by
  unfold rateCoef rateRow
  push_cast
  norm_num
  ring

theorem equilibrium_shift (d : Doodson) (s : Dy) (tref t : ℝ) :
    equilibrium d s t - equilibrium d s tref - d.dot (ader tref) * (t - tref) =
      240000 * ((t - tref) / 10000) ^ 2 * ((rateCoef 1 d : ℝ) / 2 +
        rateCoef 2 d / 3 * ((t - daten) / 10000 + 2 * ((tref - daten) / 10000))) := by
  rw [rateCoef_one, rateCoef_two]
  unfold equilibrium lunarTime moonL sunL perigeeL nodeL sunPerigeeL Doodson.dot ader
  simp only [dotDargs_longRate, scCoef, hcCoef, pcCoef, npcCoef, ppcCoef]
  have S := longitude_shift 270.434164 13.1763965268 (-0.0000850) 0.000000039 tref t
  have H := longitude_shift 279.696678 0.9856473354 0.00002267 0 tref t
  have P := longitude_shift 334.329556 0.1114040803 (-0.0007739) (-0.00000026) tref t
  have N := longitude_shift (-259.183275) 0.0529539222 (-0.0001557) (-0.000000050) tref t
  have Q := longitude_shift 281.220844 0.0000470684 0.0000339 0.000000070 tref t
  have hz : (0.000000000 : ℝ) = 0 := by norm_num
  have h1 : (1.0 : ℝ) = 1 := by norm_num
  have hd : daten = 693595.5 := rfl
  rw [hz, h1, hd]
  generalize (t - 693595.5) / 10000 + 2 * ((tref - 693595.5) / 10000) = y at *
  generalize longitude 270.434164 13.1763965268 (-0.0000850) 0.000000039 = LS at *
  generalize longitude 279.696678 0.9856473354 0.00002267 0 = LH at *
  generalize longitude 334.329556 0.1114040803 (-0.0007739) (-0.00000026) = LP at *
  generalize longitude (-259.183275) 0.0529539222 (-0.0001557) (-0.000000050) = LN at *
  generalize longitude 281.220844 0.0000470684 0.0000339 0.000000070 = LQ at *
  generalize longRate 13.1763965268 (-0.0000850) 0.000000039 tref = RS at *
  generalize longRate 0.9856473354 0.00002267 0 tref = RH at *
  generalize longRate 0.1114040803 (-0.0007739) (-0.00000026) tref = RP at *
  generalize longRate 0.0529539222 (-0.0001557) (-0.000000050) tref = RN at *
  generalize longRate 0.0000470684 0.0000339 0.000000070 tref = RQ at *
  generalize (-0.0000850 : ℝ) = s2 at *
  generalize (0.00002267 : ℝ) = h2 at *
  generalize (-0.0007739 : ℝ) = p2 at *
  generalize (-0.0001557 : ℝ) = n2 at *
  generalize (0.0000339 : ℝ) = q2 at *
  generalize (0.000000039 : ℝ) = s3 at *
  generalize (-0.00000026 : ℝ) = p3 at *
  generalize (-0.000000050 : ℝ) = n3 at *
  generalize (0.000000070 : ℝ) = q3 at *
  linear_combination (d.d1 : ℝ) * (H - S) + d.d2 * S + d.d3 * H + d.d4 * P + d.d5 * N + d.d6 * Q

theorem shift_sum (parts : List (ℕ × Dy)) (a b : ℝ) (g : ℕ → ℝ) (w : ℕ × Dy → ℝ)
    (hw : ∀ q ∈ parts, q.2.toReal = w q)
    (h : ∀ q ∈ parts, g q.1 = a * ((primCoef 1 q.1 : ℝ) / 2 + primCoef 2 q.1 / 3 * b)) :
    (parts.map fun q => w q * g q.1).sum =
      a * ((((parts.map fun q => dyRat q.2 * primCoef 1 q.1).sum : ℚ) : ℝ) / 2 +
        ((parts.map fun q => dyRat q.2 * primCoef 2 q.1).sum : ℚ) / 3 * b) := by
  induction parts with
  | nil => simp
  | cons q l ih =>
    simp only [List.map_cons, List.sum_cons]
    rw [h q (by simp), ih (fun x hx => hw x (by simp [hx])) fun x hx => h x (by simp [hx])]
    push_cast
    rw [dyRat_cast, hw q (by simp)]
    ring

/-- The part of the argument of a primary line that is not linear. -/
def lineShift (tref t : ℝ) (k : ℕ) : ℝ := match kindOf k with
  | some (.primary d s) => equilibrium d s t - equilibrium d s tref - d.dot (ader tref) * (t - tref)
  | _ => 0

theorem lineShift_poly (tref t : ℝ) {k : ℕ} {d : Doodson} {s : Dy} (hk : kindOf k = some (.primary d s)) :
    lineShift tref t k = 240000 * ((t - tref) / 10000) ^ 2 * ((primCoef 1 k : ℝ) / 2 +
        primCoef 2 k / 3 * ((t - daten) / 10000 + 2 * ((tref - daten) / 10000))) := by
  unfold lineShift primCoef
  rw [hk]
  exact equilibrium_shift d s tref t

theorem phaseShift_primary (tref t : ℝ) {k : ℕ} {d : Doodson} {s : Dy} (hk : kindOf k = some (.primary d s)) :
    phaseShift tref t k = lineShift tref t k := by
  unfold phaseShift lineShift greenwich
  rw [linFreqs_primary tref hk, hk]
  dsimp only
  ring

theorem phaseShift_shallow (tref t : ℝ) {k : ℕ} {parts : List (ℕ × Dy)} (hk : kindOf k = some (.shallow parts))
    (h7 : k ≠ M7) : phaseShift tref t k = (parts.map fun q => (q.2.num : ℝ) * lineShift tref t q.1).sum := by
  have hp := fun q (hq : q ∈ parts) => kindOf_parent hk hq
  have hw := fun q (hq : q ∈ parts) => weight_integer hk h7 hq
  unfold phaseShift greenwich
  rw [linFreqs_shallow tref hk, hk]
  dsimp only
  clear hk
  induction parts with
  | nil => simp
  | cons q l ih =>
    simp only [List.map_cons, List.sum_cons]
    rw [← ih (fun x hx => hp x (by simp [hx])) fun x hx => hw x (by simp [hx])]
    obtain ⟨d, s, hd⟩ := hp q (by simp)
    rw [← phaseShift_primary tref t hd, hw q (by simp)]
    unfold phaseShift greenwich
    rw [hd]
    dsimp only
    ring

theorem phaseShift_poly (tref t : ℝ) (k : ℕ) (hk : k < 146) (h7 : k ≠ M7) :
    phaseShift tref t k = 240000 * ((t - tref) / 10000) ^ 2 * ((freqCoef 1 k : ℝ) / 2 +
        freqCoef 2 k / 3 * ((t - daten) / 10000 + 2 * ((tref - daten) / 10000))) := by
  obtain ⟨x, hx⟩ := kindOf_of_lt hk
  cases x with
  | primary d s =>
    rw [phaseShift_primary tref t hx, lineShift_poly tref t hx]
    unfold freqCoef
    rw [hx]
  | shallow parts =>
    rw [phaseShift_shallow tref t hx h7]
    unfold freqCoef
    rw [hx]
    dsimp only
    refine shift_sum parts _ _ (lineShift tref t) (fun q => (q.2.num : ℝ))
      (fun q hq => weight_integer hx h7 hq) fun q hq => ?_
    obtain ⟨d, s, hd⟩ := kindOf_parent hx hq
    exact lineShift_poly tref t hd

theorem curvature_table : ((List.range 146).all fun k =>
    decide (240000 * (|freqCoef 1 k| / 2 + |freqCoef 2 k| * 100) ≤ 6 / 10 ^ 6)) = true := by decide +kernel

theorem phaseShift_bound (tref t : ℝ) (k : ℕ) (hk : k < 146) (h7 : k ≠ M7) (ht : Era t) (hr : Era tref) :
    |phaseShift tref t k| ≤ curvature (t - tref) := by
  have hT := List.all_eq_true.1 curvature_table k (List.mem_range.2 hk)
  simp only [decide_eq_true_eq] at hT
  have hT : (240000 : ℝ) * (|(freqCoef 1 k : ℝ)| / 2 + |(freqCoef 2 k : ℝ)| * 100) ≤ 6 / 10 ^ 6 := by
    have := (Rat.cast_le (K := ℝ)).2 hT
    push_cast at this
    norm_num at this ⊢
    linarith
  rw [phaseShift_poly tref t k hk h7]
  unfold curvature
  generalize (freqCoef 1 k : ℝ) = a at hT ⊢
  generalize (freqCoef 2 k : ℝ) = b at hT ⊢
  unfold Era at ht hr
  have hx : |(t - daten) / 10000 + 2 * ((tref - daten) / 10000)| ≤ 3 * 100 := by
    unfold daten
    rw [abs_le] at ht hr ⊢
    constructor <;> norm_num at ht hr ⊢ <;> linarith
  generalize (t - daten) / 10000 + 2 * ((tref - daten) / 10000) = y at hx
  have h1 : |a / 2 + b / 3 * y| ≤ |a| / 2 + |b| * 100 := by
    refine (abs_add_le _ _).trans ?_
    rw [abs_mul, abs_div, abs_div, abs_two, show |(3 : ℝ)| = 3 by norm_num]
    have := mul_le_mul_of_nonneg_left hx (show 0 ≤ |b| / 3 by positivity)
    linarith
  have h2 : 0 ≤ ((t - tref) / 10000) ^ 2 := sq_nonneg _
  rw [abs_mul, abs_mul, abs_of_nonneg h2, show |(240000 : ℝ)| = 240000 by norm_num]
  have h3 := mul_le_mul_of_nonneg_left (h1.trans (show |a| / 2 + |b| * 100 ≤ 6 / 10 ^ 6 / 240000 by linarith)) h2
  linarith

/-! ## Harmonics -/

theorem textbook_exact (mn : Mode) (tref lat t : ℝ) (k : ℕ) (hk : k < 146) (h7 : k ≠ M7) :
    textbook mn .exact tref lat t k = phasor (phaseShift tref t k) * textbook mn .atReference tref lat t k := by
  have line : ∀ j d s, kindOf j = some (.primary d s) → tidalLine mn .exact tref lat t j =
      phasor (lineShift tref t j) * tidalLine mn .atReference tref lat t j := by
    intro j d s hj
    unfold tidalLine argumentAt lineShift
    rw [hj]
    dsimp only
    rw [mul_left_comm, ← phasor_add, deriv_equilibrium]
    congr 2
    ring
  obtain ⟨x, hx⟩ := kindOf_of_lt hk
  cases x with
  | primary d s =>
    rw [phaseShift_primary tref t hx]
    unfold textbook
    rw [hx]
    exact line _ _ _ hx
  | shallow parts =>
    rw [phaseShift_shallow tref t hx h7]
    unfold textbook
    rw [hx]
    dsimp only
    have hh := fun q (hq : q ∈ parts) => kindOf_parent hx hq
    clear hx
    induction parts with
    | nil => simp [phasor_zero]
    | cons q parts ih =>
      rw [List.map_cons, List.map_cons, List.map_cons, List.prod_cons, List.prod_cons, List.sum_cons, phasor_add,
        ih fun x hx => hh x (by simp [hx])]
      obtain ⟨d, s, hq⟩ := hh q (by simp)
      rw [line _ _ _ hq, powW_mul_phasor]
      ring

theorem norm_phasor_sub_one (x : ℝ) : ‖phasor x - 1‖ ≤ 2 * Real.pi * |x| := by
  have h := Real.norm_exp_I_mul_ofReal_sub_one_le (x := 2 * Real.pi * x)
  rw [Real.norm_eq_abs, abs_mul, abs_of_nonneg (by positivity : (0 : ℝ) ≤ 2 * Real.pi)] at h
  unfold phasor
  rwa [mul_comm]

/-! ## Fits whose harmonics are close -/

theorem residual_unique {E : Env} {t : TimeArg} {u : Series} {v : Option Series} {c : Coef} {x y : ℝ}
    (hx : Residual E t u v c x) (hy : Residual E t u v c y) : x = y := by
  obtain ⟨r, h1, rfl⟩ := hx
  obtain ⟨s, h2, rfl⟩ := hy
  rw [Except.ok.inj (h1.symm.trans h2)]

theorem root_bound {α : Type*} (l : List α) (q : List ℕ) (a : ℕ → ℝ) (h : α → ℕ → ℝ) (K B : ℝ) (hK : 0 ≤ K)
    (ha : ∀ i ∈ q, 0 ≤ a i) (hh : ∀ s i, 0 ≤ h s i) (hB : ∀ s ∈ l, (q.map fun i => h s i * a i).sum ≤ B) :
    Real.sqrt (l.map fun s => (q.map fun i => K * h s i * a i).sum ^ 2).sum ≤ K * Real.sqrt l.length * B := by
  by_cases hl : l = []
  · subst hl
    simp
  obtain ⟨s0, hs0⟩ := List.exists_mem_of_ne_nil l hl
  have h0 : ∀ s, 0 ≤ (q.map fun i => h s i * a i).sum := fun s => List.sum_nonneg fun x hx => by
    obtain ⟨i, hi, rfl⟩ := List.mem_map.1 hx
    exact mul_nonneg (hh s i) (ha i hi)
  have hB0 : 0 ≤ B := (h0 s0).trans (hB s0 hs0)
  have e : (l.map fun s => (q.map fun i => K * h s i * a i).sum ^ 2).sum ≤ l.length * (K * B) ^ 2 := by
    refine (List.sum_le_sum (g := fun _ => (K * B) ^ 2) fun s hs => ?_).trans (by simp)
    have : (q.map fun i => K * h s i * a i).sum = K * (q.map fun i => h s i * a i).sum := by
      rw [← List.sum_map_mul_left]
      simp only [mul_assoc]
    rw [this]
    exact pow_le_pow_left₀ (mul_nonneg hK (h0 s)) (mul_le_mul_of_nonneg_left (hB s hs) hK) 2
  refine (Real.sqrt_le_sqrt e).trans (le_of_eq ?_)
  rw [Real.sqrt_mul (by positivity), Real.sqrt_sq (by positivity)]
  ring

theorem map_sum_sub {α : Type*} (l : List α) (f g : α → ℂ) :
    (l.map f).sum - (l.map g).sum = (l.map fun a => f a - g a).sum := by
  induction l with
  | nil => simp
  | cons a l ih => simp only [List.map_cons, List.sum_cons]; rw [← ih]; ring

theorem norm_list_sum_le {α : Type*} (l : List α) (f : α → ℂ) : ‖(l.map f).sum‖ ≤ (l.map fun a => ‖f a‖).sum := by
  induction l with
  | nil => simp
  | cons a l ih => simp only [List.map_cons, List.sum_cons]; exact (norm_add_le _ _).trans (by linarith)

theorem minkowski {α : Type*} (l : List α) (f g : α → ℂ) (b : α → ℝ) (hb : ∀ a ∈ l, ‖f a - g a‖ ≤ b a) :
    Real.sqrt (l.map fun a => ‖g a‖ ^ 2).sum ≤
      Real.sqrt (l.map fun a => ‖f a‖ ^ 2).sum + Real.sqrt (l.map fun a => b a ^ 2).sum := by
  have key : ∀ (n : ℕ) (x y : Fin n → ℝ), Real.sqrt (∑ i, (x i + y i) ^ 2) ≤
      Real.sqrt (∑ i, x i ^ 2) + Real.sqrt (∑ i, y i ^ 2) := by
    intro n x y
    have h := norm_add_le (WithLp.toLp 2 x : EuclideanSpace ℝ (Fin n)) (WithLp.toLp 2 y)
    rw [EuclideanSpace.norm_eq, EuclideanSpace.norm_eq, EuclideanSpace.norm_eq] at h
    simpa only [Real.norm_eq_abs, sq_abs, PiLp.add_apply] using h
  have conv : ∀ h : α → ℝ, (l.map fun a => h a).sum = ∑ i : Fin l.length, h l[i] := by
    intro h
    rw [← List.sum_ofFn]
    congr 1
    apply List.ext_getElem <;> simp
  rw [conv, conv, conv]
  refine le_trans (Real.sqrt_le_sqrt ?_) (key _ (fun i => ‖f l[i]‖) fun i => b l[i])
  refine Finset.sum_le_sum fun i _ => ?_
  have h1 := hb l[i] (List.getElem_mem _)
  have h2 : ‖g l[i]‖ ≤ ‖f l[i]‖ + b l[i] := by
    have := norm_sub_norm_le (g l[i]) (f l[i])
    rw [norm_sub_rev] at this
    linarith
  exact pow_le_pow_left₀ (norm_nonneg _) h2 2

theorem norm_rotary_ellipse (e : Ell) (h : |e.Lsmin| ≤ e.Lsmaj) : ‖ccw e‖ + ‖cw e‖ = e.Lsmaj := by
  rw [norm_ccw e h, norm_cw e h]
  ring

theorem ellipse_amplitude (c : Coef) (hr : InRanges c.ell) (i : ℕ) (e : Ell) (he : ellipseAt c.ell i = some e) :
    ‖ccw e‖ + ‖cw e‖ = amplitude c i := by
  unfold amplitude
  unfold ellipseAt at he
  unfold InRanges at hr
  cases hc : c.ell with
  | one A g =>
    rw [hc] at he hr
    simp only [Option.bind_eq_some_iff, Option.map_eq_some_iff] at he
    obtain ⟨a, ha, b, hb, rfl⟩ := he
    rw [norm_rotary_ellipse _ (by simpa using hr.1 a (List.mem_of_getElem? ha))]
    simp [ha]
  | two A m th g =>
    rw [hc] at he hr
    simp only [Option.bind_eq_some_iff, Option.map_eq_some_iff] at he
    obtain ⟨a, ha, b, hb, x, hx, y, hy, rfl⟩ := he
    rw [norm_rotary_ellipse _ (hr.1 i a b ha hb)]
    simp [ha]

section
variable {E : Env} {t : TimeArg} {u : Series} {v : Option Series} {lat : Option ℝ} {opts opts' : Dict PyVal} {c c' : Coef}

theorem OtherCorrections.symm (C : OtherCorrections E t u v lat opts opts' c c') (R : Ready E t u v) :
    OtherCorrections E t u v lat opts' opts c' c where
  keys := C.keys'
  keys' := C.keys
  same := fun k h1 h2 => (C.same k h1 h2).symm
  ols := by rw [← C.same _ (by decide) (by decide)]; exact C.ols
  infer := by rw [← C.same _ (by decide) (by decide)]; exact C.infer
  run := C.run'
  run' := C.run
  kept := C.kept'
  kept' := C.kept
  names := (C.shared R).1.nodup_iff.2 C.names

/-- Each of the two runs as a least-squares run; common settings. -/
theorem OtherCorrections.runs (C : OtherCorrections E t u v lat opts opts' c c') (R : Ready E t u v) :
    ∃ tn, OlsRun E lat opts none t u v tn c ∧ OlsRun E lat opts' none t u v tn c' ∧
      c'.opt.notrend = c.opt.notrend := by
  obtain ⟨opt, p, tn0, constit, m, W, rf, full, o, ind, F⟩ := solve_facts R C.run
  obtain ⟨opt', p', tn1, constit', m', W', rf', full', o', ind', F'⟩ := solve_facts R C.run'
  have hq := getOpt_requests _ C.keys _ _ F.hopt
  obtain ⟨-, e2, e3, e4⟩ := getOpt_fields opts opts' C.keys C.keys' _ _ _ F.hopt F'.hopt
  have e2 := e2 (C.same _ (by decide) (by decide))
  have e3 := e3 (C.same _ (by decide) (by decide))
  have e4 := e4 (C.same _ (by decide) (by decide))
  have hi : opt.infer = .none := (Except.ok.inj (hq.infer _ C.infer)).symm
  have r1 : readInfer c.opt.infer = .ok none := by rw [F.copt, hi]; rfl
  have r2 : readInfer c'.opt.infer = .ok none := by rw [F'.copt, e4, hi]; rfl
  have t1 : normalizeTime E.dt64 t.arr c.opt.epoch = .ok tn0 := by rw [F.copt]; exact F.prep.init.time
  have t2 : normalizeTime E.dt64 t.arr c'.opt.epoch = .ok tn0 := by rw [F'.copt, e2]; exact F.prep.init.time
  have hno : ∀ s : InferSpec, (none : Option InferSpec) = some s → s.approximate = false := by rintro s ⟨⟩
  refine ⟨tn0, ⟨R, C.keys, C.ols, C.run, C.kept, r1, hno, t1, C.names⟩,
    ⟨R, C.keys', (C.symm R).ols, C.run', C.kept', r2, hno, t2, (C.symm R).names⟩, ?_⟩
  rw [F.copt, F'.copt, e3]

theorem tiedRotary_none (td : Bool) (P M : String → ℂ) : TiedRotary none td P M :=
  ⟨by rintro s ⟨⟩, by rintro s ⟨⟩⟩

/-- If the harmonics of one analysis are, up to constant factors of modulus one, close to those of the other, then so
are the misfits. -/
theorem OtherCorrections.near (C : OtherCorrections E t u v lat opts opts' c c') (R : Ready E t u v)
    (z : String → ℂ) (tn : List Fl) (htn : normalizeTime E.dt64 t.arr c.opt.epoch = .ok tn)
    (ε : String → ℝ → ℝ) (hz : ∀ n ∈ c.name, ∀ τ, SampleTime tn u.data (v.map Series.data) τ →
      ‖z n * harmonic c' n τ - harmonic c n τ‖ ≤ ε n τ) :
    ∃ x x', Residual E t u v c x ∧ Residual E t u v c' x' ∧ Real.sqrt x' ≤ Real.sqrt x +
      Real.sqrt (((samples tn (sampleValues u.data (v.map Series.data))).map fun s =>
        ((List.range c.name.length).map fun i => ε (c.name.getD i "") s.1 * amplitude c i).sum ^ 2).sum) := by
  obtain ⟨tn0, H, H', hnt⟩ := C.runs R
  obtain rfl : tn0 = tn := Except.ok.inj (H.time.symm.trans htn)
  obtain ⟨hperm, href, -⟩ := C.shared R
  obtain ⟨P, M, mean, slope, -, hs, -, hell, -, hres, -⟩ := H.best
  obtain ⟨P', M', mean', slope', -, -, -, -, -, hres', hbest⟩ := H'.best
  refine ⟨_, _, hres, hres', ?_⟩
  have hb := hbest (fun n => z n * P n) (fun n => conj (z n) * M n) mean slope (tiedRotary_none _ _ _)
    (by rw [hnt]; exact hs)
  refine (Real.sqrt_le_sqrt hb).trans ?_
  unfold away
  refine minkowski _ (fun s : ℝ × ℂ => s.2 - rotaryCurve c P M mean slope s.1)
    (fun s => s.2 - rotaryCurve c' (fun n => z n * P n) (fun n => conj (z n) * M n) mean slope s.1)
    (fun s => ((List.range c.name.length).map fun i => ε (c.name.getD i "") s.1 * amplitude c i).sum) ?_
  intro s hsam
  have hst : SampleTime tn0 u.data (v.map Series.data) s.1 := by
    obtain ⟨i, h1, h2⟩ := (mem_samples _ _ _).1 hsam
    exact ⟨i, s.2, h1, h2⟩
  have hran := (C09_ranges E t u v lat opts C.keys c C.run).1
  unfold rotaryCurve
  rw [(hperm.map _).sum_eq, href]
  have hsplit : ∀ f : String → ℂ, (c.name.map f).sum =
      ((List.range c.name.length).map fun i => f (c.name.getD i "")).sum := by
    intro f
    congr 1
    apply List.ext_getElem
    · simp
    · intro i h1 h2
      rw [List.length_map] at h1
      simp [h1]
  rw [hsplit, hsplit]
  obtain ⟨A, hA⟩ : ∃ A : ℕ → ℂ, A = fun i => harmonic c (c.name.getD i "") s.1 * P (c.name.getD i "") +
      conj (harmonic c (c.name.getD i "") s.1) * M (c.name.getD i "") := ⟨_, rfl⟩
  obtain ⟨B, hB⟩ : ∃ B : ℕ → ℂ, B = fun i => harmonic c' (c.name.getD i "") s.1 * (z (c.name.getD i "") *
      P (c.name.getD i "")) + conj (harmonic c' (c.name.getD i "") s.1) *
      (conj (z (c.name.getD i "")) * M (c.name.getD i "")) := ⟨_, rfl⟩
  have e1 : ∀ a b m : ℂ, s.2 - (a + mean + m) - (s.2 - (b + mean + m)) = b - a := fun a b m => by ring
  rw [e1, ← hA, ← hB, map_sum_sub]
  refine (norm_list_sum_le _ _).trans (List.sum_le_sum fun i hi => ?_)
  have hi := List.mem_range.1 hi
  have hn : c.name[i]? = some (c.name.getD i "") := by simp [hi]
  obtain ⟨e, he, hP, hM⟩ := hell i _ hn
  rw [← ellipse_amplitude c hran i e he, hP, hM, hA, hB]
  dsimp only
  have hd := hz _ (List.mem_of_getElem? hn) s.1 hst
  generalize c.name.getD i "" = n at *
  have e2 : harmonic c' n s.1 * (z n * P n) + conj (harmonic c' n s.1) * (conj (z n) * M n) -
      (harmonic c n s.1 * P n + conj (harmonic c n s.1) * M n) =
      (z n * harmonic c' n s.1 - harmonic c n s.1) * P n + conj (z n * harmonic c' n s.1 - harmonic c n s.1) * M n := by
    rw [map_sub, map_mul]
    ring
  rw [e2]
  refine (norm_add_le _ _).trans ?_
  rw [norm_mul, norm_mul, Complex.norm_conj, ← mul_add]
  exact mul_le_mul_of_nonneg_right hd (by positivity)

theorem run_amplitude_nonneg (R : Ready E t u v) (hnd : opts.keys.Nodup) (h : solve E t u v lat opts = .ok c) (i : ℕ) :
    0 ≤ amplitude c i := by
  obtain ⟨hran, -⟩ := C09_ranges E t u v lat opts hnd c h
  obtain ⟨opt, p, tn, constit, m, W, rf, full, o, ind, F⟩ := solve_facts R h
  have hlen : ∃ n, c.Len n := by
    have := (F.coherent hnd).permute ind F.lt
    rw [← F.solved.result] at this
    exact ⟨_, this.len⟩
  exact amplitude_nonneg c hran hlen i

/-! ## C133 -/

/-- **C133.** For every constituent of a result other than M7 the exact Greenwich argument differs from the linear one -
argument at the reference time plus the reported frequency times the time elapsed - by no more than 6e-6 cycles per
(10000 days)², in the years -800 to 4600. -/
theorem C133_arguments (hnd : opts.keys.Nodup) (h : solve E t u v lat opts = .ok c) (i : ℕ) (n : String) (f : ℝ)
    (hi : c.name[i]? = some n) (hf : c.frq[i]? = some f) (hM : n ≠ "M7") (τ : ℝ) (ht : Era τ) (hr : Era c.reftime) :
    |greenwich τ (constitNames.idxOf n) - (greenwich c.reftime (constitNames.idxOf n) + 24 * (τ - c.reftime) * f)| ≤
      curvature (τ - c.reftime) := by
  obtain ⟨e1, e2, e3⟩ := permute_aligned h
  rw [e1, List.getElem?_map, Option.map_eq_some_iff] at hi
  rw [e2, List.getElem?_map, Option.map_eq_some_iff] at hf
  obtain ⟨k, hk, rfl⟩ := hi
  obtain ⟨k', hk', rfl⟩ := hf
  obtain rfl : k = k' := Option.some.inj (hk.symm.trans hk')
  have hlt := e3 _ (List.mem_of_getElem? hk)
  rw [idxOf_nameAt hlt]
  have h7 : k ≠ M7 := by
    rintro rfl
    exact hM (by decide +kernel)
  have := phaseShift_bound c.reftime τ k hlt h7 ht hr
  unfold phaseShift at this
  rwa [← sub_sub]

/-- **C133**, harmonics: those of `phase='Greenwich'` against those of the linearised phases, of two analyses of a
record that differ in nothing else. Results of `phase='raw'` are meant up to a turn by the argument at the reference
time. -/
theorem C133_harmonics (C : OtherCorrections E t u v lat opts opts' c c') (R : Ready E t u v) (mn : Mode)
    (hn : (requested opts "nodal").bind nodalMode = some mn) (hn' : (requested opts' "nodal").bind nodalMode = some mn)
    (hp : (requested opts "phase").bind phaseMode = some .exact)
    (hp' : (requested opts' "phase").bind phaseMode = some .atReference ∨
      (requested opts' "phase").bind phaseMode = some .off)
    (hlat : c.lat ≠ 0 ∨ mn = .off) (hr : Era c.reftime) :
    ∃ z : String → ℂ, (∀ n, ‖z n‖ = 1) ∧ ((requested opts' "phase").bind phaseMode = some .atReference → ∀ n, z n = 1) ∧
      ∀ n ∈ c.name, n ≠ "M7" → ∀ τ, Era τ → ‖harmonic c' n τ‖ = ‖harmonic c n τ‖ ∧
        ‖z n * harmonic c' n τ - harmonic c n τ‖ ≤ 2 * Real.pi * curvature (τ - c.reftime) * ‖harmonic c n τ‖ := by
  obtain ⟨hperm, href, hcl⟩ := C.shared R
  obtain ⟨e1, _, e3⟩ := permute_aligned C.run
  have key : ∀ n ∈ c.name, n ≠ "M7" → constitNames.idxOf n < 146 ∧ constitNames.idxOf n ≠ M7 ∧
      (∀ τ, harmonic c n τ = textbook mn .exact c.reftime c.lat τ (constitNames.idxOf n)) ∧
      ∀ mp', (requested opts' "phase").bind phaseMode = some mp' → ∀ τ, harmonic c' n τ =
        textbook mn mp' c.reftime c.lat τ (constitNames.idxOf n) := by
    intro n hnc hM
    obtain ⟨i, hi⟩ := List.mem_iff_getElem?.1 hnc
    obtain ⟨j, hj⟩ := List.mem_iff_getElem?.1 (hperm.mem_iff.2 hnc)
    refine ⟨?_, ?_, fun τ => (C20_harmonics E t u v lat opts C.keys c C.run mn _ hn hp hlat i n hi hM τ).1,
      fun mp' hmp τ => ?_⟩
    · rw [e1] at hnc
      obtain ⟨k, hk, rfl⟩ := List.mem_map.1 hnc
      rw [idxOf_nameAt (e3 _ hk)]
      exact e3 _ hk
    · rw [e1] at hnc
      obtain ⟨k, hk, rfl⟩ := List.mem_map.1 hnc
      rw [idxOf_nameAt (e3 _ hk)]
      rintro rfl
      exact hM (by decide +kernel)
    · have := (C20_harmonics E t u v lat opts' C.keys' c' C.run' mn _ hn' hmp (by rw [hcl]; exact hlat) j n hj hM τ).1
      rwa [href, hcl] at this
  have bound : ∀ (k : ℕ) (τ : ℝ), k < 146 → k ≠ M7 → Era τ →
      ‖textbook mn .atReference c.reftime c.lat τ k‖ = ‖textbook mn .exact c.reftime c.lat τ k‖ ∧
      ‖textbook mn .atReference c.reftime c.lat τ k - textbook mn .exact c.reftime c.lat τ k‖ ≤
        2 * Real.pi * curvature (τ - c.reftime) * ‖textbook mn .exact c.reftime c.lat τ k‖ := by
    intro k τ hk h7 hτ
    have h1 := textbook_exact mn c.reftime c.lat τ k hk h7
    have h2 : ‖textbook mn .exact c.reftime c.lat τ k‖ = ‖textbook mn .atReference c.reftime c.lat τ k‖ := by
      rw [h1, norm_mul, norm_phasor, one_mul]
    refine ⟨h2.symm, ?_⟩
    rw [h2, h1, ← one_sub_mul, norm_mul, norm_sub_rev]
    refine mul_le_mul_of_nonneg_right ((norm_phasor_sub_one _).trans ?_) (norm_nonneg _)
    exact mul_le_mul_of_nonneg_left (phaseShift_bound c.reftime τ k hk h7 hτ hr) (by positivity)
  rcases hp' with hp' | hp'
  · refine ⟨fun _ => 1, fun _ => norm_one, fun _ _ => rfl, fun n hnc hM τ hτ => ?_⟩
    obtain ⟨k1, k2, k3, k4⟩ := key n hnc hM
    rw [k3, k4 _ hp', one_mul]
    exact bound _ τ k1 k2 hτ
  · refine ⟨fun n => phasor (greenwich c.reftime (constitNames.idxOf n)), fun _ => norm_phasor _,
      (fun h => by rw [hp'] at h; cases h), fun n hnc hM τ hτ => ?_⟩
    obtain ⟨k1, k2, k3, k4⟩ := key n hnc hM
    rw [k3, k4 _ hp', ← textbook_phase]
    obtain ⟨b1, b2⟩ := bound _ τ k1 k2 hτ
    refine ⟨?_, b2⟩
    rw [← b1, textbook_phase, norm_mul, norm_phasor, one_mul]

/-- **C133**, fits: the misfit (root of the sum of squares) with either option exceeds that with the other by at most
`2π · 6e-6 · (d / 10000)² √N B`, where no sample is further than `d` days from the reference time and `B` bounds the sum
of amplitude times modulus of the harmonic of the other fit, at the samples. -/
theorem C133_fits (C : OtherCorrections E t u v lat opts opts' c c') (R : Ready E t u v) (mn : Mode)
    (hn : (requested opts "nodal").bind nodalMode = some mn) (hn' : (requested opts' "nodal").bind nodalMode = some mn)
    (hp : (requested opts "phase").bind phaseMode = some .exact)
    (hp' : (requested opts' "phase").bind phaseMode = some .atReference ∨
      (requested opts' "phase").bind phaseMode = some .off)
    (hlat : c.lat ≠ 0 ∨ mn = .off) (hr : Era c.reftime) (hM : "M7" ∉ c.name) (tn : List Fl)
    (htn : normalizeTime E.dt64 t.arr c.opt.epoch = .ok tn) (d B B' : ℝ)
    (hs : ∀ τ, SampleTime tn u.data (v.map Series.data) τ → Era τ ∧ |τ - c.reftime| ≤ d ∧
      ((List.range c.name.length).map fun i => ‖harmonic c (c.name.getD i "") τ‖ * amplitude c i).sum ≤ B ∧
      ((List.range c'.name.length).map fun i => ‖harmonic c' (c'.name.getD i "") τ‖ * amplitude c' i).sum ≤ B') :
    ∃ x x', Residual E t u v c x ∧ Residual E t u v c' x' ∧
      Real.sqrt x' ≤ Real.sqrt x + 2 * Real.pi * curvature d *
        Real.sqrt (samples tn (sampleValues u.data (v.map Series.data))).length * B ∧
      Real.sqrt x ≤ Real.sqrt x' + 2 * Real.pi * curvature d *
        Real.sqrt (samples tn (sampleValues u.data (v.map Series.data))).length * B' := by
  obtain ⟨z, hz1, -, hz⟩ := C133_harmonics C R mn hn hn' hp hp' hlat hr
  obtain ⟨hperm, href, hcl⟩ := C.shared R
  have hcv : ∀ τ, |τ - c.reftime| ≤ d → curvature (τ - c.reftime) ≤ curvature d := by
    intro τ hτ
    unfold curvature
    have := pow_le_pow_left₀ (abs_nonneg _) hτ 2
    rw [sq_abs] at this
    rw [div_pow, div_pow]
    linarith
  have hc0 : 0 ≤ curvature d := by unfold curvature; positivity
  have htn' : normalizeTime E.dt64 t.arr c'.opt.epoch = .ok tn := by
    obtain ⟨tn0, H, H', -⟩ := C.runs R
    obtain rfl : tn0 = tn := Except.ok.inj (H.time.symm.trans htn)
    exact H'.time
  obtain ⟨x, x', r1, r2, l1⟩ := C.near R z tn htn (fun n τ => 2 * Real.pi * curvature d * ‖harmonic c n τ‖)
    fun n hnc τ hτ => by
      obtain ⟨h1, h2, -⟩ := hs τ hτ
      refine (hz n hnc (by rintro rfl; exact hM hnc) τ h1).2.trans ?_
      exact mul_le_mul_of_nonneg_right (mul_le_mul_of_nonneg_left (hcv τ h2) (by positivity)) (norm_nonneg _)
  obtain ⟨y', y, r3, r4, l2⟩ := (C.symm R).near R (fun n => conj (z n)) tn htn'
    (fun n τ => 2 * Real.pi * curvature d * ‖harmonic c' n τ‖)
    fun n hnc τ hτ => by
      obtain ⟨h1, h2, -⟩ := hs τ hτ
      have hnc := hperm.mem_iff.1 hnc
      obtain ⟨b1, b2⟩ := hz n hnc (by rintro rfl; exact hM hnc) τ h1
      have e : ‖conj (z n) * harmonic c n τ - harmonic c' n τ‖ = ‖z n * harmonic c' n τ - harmonic c n τ‖ := by
        have h3 : conj (z n) * z n = 1 := by rw [← Complex.normSq_eq_conj_mul_self, Complex.normSq_eq_norm_sq, hz1]; simp
        have h4 : conj (z n) * harmonic c n τ - harmonic c' n τ = -(conj (z n) * (z n * harmonic c' n τ - harmonic c n τ)) := by
          rw [mul_sub, ← mul_assoc, h3]; ring
        rw [h4, norm_neg, norm_mul, Complex.norm_conj, hz1, one_mul]
      rw [e, b1]
      refine b2.trans ?_
      exact mul_le_mul_of_nonneg_right (mul_le_mul_of_nonneg_left (hcv τ h2) (by positivity)) (norm_nonneg _)
  obtain rfl := residual_unique r1 r4
  obtain rfl := residual_unique r2 r3
  have b1 := root_bound (samples tn (sampleValues u.data (v.map Series.data))) (List.range c.name.length) (amplitude c)
    (fun s i => ‖harmonic c (c.name.getD i "") s.1‖) (2 * Real.pi * curvature d) B (by positivity)
    (fun i _ => run_amplitude_nonneg R C.keys C.run i) (fun _ _ => norm_nonneg _) fun s hsam => by
      obtain ⟨i, h1, h2⟩ := (mem_samples _ _ _).1 hsam
      exact (hs s.1 ⟨i, s.2, h1, h2⟩).2.2.1
  have b2 := root_bound (samples tn (sampleValues u.data (v.map Series.data))) (List.range c'.name.length) (amplitude c')
    (fun s i => ‖harmonic c' (c'.name.getD i "") s.1‖) (2 * Real.pi * curvature d) B' (by positivity)
    (fun i _ => run_amplitude_nonneg R C.keys' C.run' i) (fun _ _ => norm_nonneg _) fun s hsam => by
      obtain ⟨i, h1, h2⟩ := (mem_samples _ _ _).1 hsam
      exact (hs s.1 ⟨i, s.2, h1, h2⟩).2.2.2
  exact ⟨x, x', r1, r2, by linarith, by linarith⟩

end

end

end UTide.Props
