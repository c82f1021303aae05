import Verif.Props.OrthoProps
import Verif.Props.InferCiAny
import Verif.Props.PerfectFit

/-!
# Where a harmonic is orthogonal to the rest of the model, the analysis is the classical one: C127
-/

namespace UTide.Props

noncomputable section

open Classical

local notation "conj" => starRingEnd ℂ

/-! ## Specification -/

/-- Over the usable samples the harmonic `n` averages out against everything else in the model: constants, the trend if
one is fitted, the other constituents and its own complex conjugate. `N` is the sum of its squared magnitudes (the
number of samples if there are no nodal corrections). -/
structure AveragesOut (c : Coef) (tn : List Fl) (u : Series) (v : Option Series) (n : String) (N : ℝ) : Prop where
  others : OrthogonalOver c tn u v (c.name.filter (· ≠ n)) n
  own : ((sampleTimes tn u v).map fun τ => harmonic c n τ ^ 2).sum = 0
  size : ((sampleTimes tn u v).map fun τ => ‖harmonic c n τ‖ ^ 2).sum = N
  pos : 0 < N

/-! ## Lemmas -/

theorem list_sum_conj_mul {L : List ℝ} {f g : ℝ → ℂ} (h : Perp L f g) :
    Perp L (fun τ => conj (f τ)) (fun τ => conj (g τ)) := by
  unfold Perp at h ⊢
  have := congrArg conj h
  rw [list_sum_conj, map_zero] at this
  simpa using this

/-- One constituent singled out. -/
theorem rotaryCurve_single (c : Coef) (hd : c.name.Nodup) {n : String} (hn : n ∈ c.name) (P M : String → ℂ)
    (mean slope : ℂ) (τ : ℝ) :
    rotaryCurve c P M mean slope τ =
      rotaryCurve c (fun k => if k = n then 0 else P k) (fun k => if k = n then 0 else M k) mean slope τ +
        (harmonic c n τ * P n + conj (harmonic c n τ) * M n) := by
  unfold rotaryCurve
  have key : ∀ l : List String, l.Nodup → n ∈ l →
      (l.map fun k => harmonic c k τ * P k + conj (harmonic c k τ) * M k).sum =
      (l.map fun k => harmonic c k τ * (if k = n then 0 else P k) + conj (harmonic c k τ) * (if k = n then 0 else M k)).sum +
        (harmonic c n τ * P n + conj (harmonic c n τ) * M n) := by
    intro l
    induction l with
    | nil => intro _ h; simp at h
    | cons a l ih =>
      intro hnd hm
      rw [List.nodup_cons] at hnd
      simp only [List.map_cons, List.sum_cons]
      by_cases ha : a = n
      · subst ha
        have e : (l.map fun k => harmonic c k τ * (if k = a then 0 else P k) + conj (harmonic c k τ) * (if k = a then 0 else M k)) =
            l.map fun k => harmonic c k τ * P k + conj (harmonic c k τ) * M k := by
          refine List.map_congr_left fun k hk => ?_
          have : k ≠ a := fun e => hnd.1 (e ▸ hk)
          simp [this]
        rw [e]
        simp
        ring
      · rw [ih hnd.2 ((List.mem_cons.1 hm).resolve_left (Ne.symm ha))]
        simp only [if_neg ha]
        ring
  rw [key c.name hd hn]
  ring

section
variable {c : Coef} {tn : List Fl} {u : Series} {v : Option Series} {n : String} {N : ℝ}

/-- The harmonic is orthogonal to every curve without it. -/
theorem AveragesOut.perp (A : AveragesOut c tn u v n N) (P M : String → ℂ) (mean slope : ℂ)
    (hs : c.opt.notrend = true → slope = 0) (hP : P n = 0) (hM : M n = 0) :
    Perp (sampleTimes tn u v) (harmonic c n) (rotaryCurve c P M mean slope) := by
  have hm : ∀ k ∈ c.name, k ≠ n → k ∈ c.name.filter (· ≠ n) := fun k h1 h2 => by simp [h1, h2]
  refine perp_rotaryCurve c P M mean slope ?_ ?_ ?_ ?_
  · refine Perp.symm ?_
    unfold Perp
    simpa using A.others.constant
  · intro h
    have h0 : c.opt.notrend = false := Bool.eq_false_iff.2 fun e => h (hs e)
    refine Perp.symm ?_
    unfold Perp
    simpa using A.others.trend h0
  · intro k hk
    by_cases e : k = n
    · exact .inr (e ▸ hP)
    · refine .inl (Perp.symm ?_)
      unfold Perp
      simpa using A.others.same k (hm k hk e)
  · intro k hk
    by_cases e : k = n
    · exact .inr (e ▸ hM)
    · refine .inl (Perp.symm ?_)
      unfold Perp
      simpa using A.others.opposite k (hm k hk e)

theorem AveragesOut.norm (A : AveragesOut c tn u v n N) :
    ((sampleTimes tn u v).map fun τ => conj (harmonic c n τ) * harmonic c n τ).sum = (N : ℂ) := by
  rw [← A.size, ofReal_sum_map]
  congr 1
  refine List.map_congr_left fun τ _ => ?_
  rw [mul_comm, Complex.mul_conj, Complex.normSq_eq_norm_sq]

theorem AveragesOut.square (A : AveragesOut c tn u v n N) :
    ((sampleTimes tn u v).map fun τ => conj (harmonic c n τ) * conj (harmonic c n τ)).sum = 0 := by
  have := congrArg conj A.own
  rw [list_sum_conj, map_zero] at this
  rw [← this]
  congr 1
  refine List.map_congr_left fun τ _ => ?_
  rw [map_pow, pow_two]

/-- Averages of a curve against the harmonic give its two coefficients. -/
theorem AveragesOut.curve (A : AveragesOut c tn u v n N) (hd : c.name.Nodup) (hn : n ∈ c.name) (P M : String → ℂ)
    (mean slope : ℂ) (hs : c.opt.notrend = true → slope = 0) :
    ((sampleTimes tn u v).map fun τ => conj (harmonic c n τ) * rotaryCurve c P M mean slope τ).sum = N * P n ∧
    ((sampleTimes tn u v).map fun τ => harmonic c n τ * rotaryCurve c P M mean slope τ).sum = N * M n := by
  have first : ∀ (P M : String → ℂ) (mean slope : ℂ), (c.opt.notrend = true → slope = 0) →
      ((sampleTimes tn u v).map fun τ => conj (harmonic c n τ) * rotaryCurve c P M mean slope τ).sum = N * P n := by
    intro P M mean slope hs
    have e : (fun τ => conj (harmonic c n τ) * rotaryCurve c P M mean slope τ) = fun τ =>
        conj (harmonic c n τ) * rotaryCurve c (fun k => if k = n then 0 else P k) (fun k => if k = n then 0 else M k) mean slope τ +
        (P n * (conj (harmonic c n τ) * harmonic c n τ) + M n * (conj (harmonic c n τ) * conj (harmonic c n τ))) := by
      funext τ
      rw [rotaryCurve_single c hd hn P M]
      ring
    have h0 := A.perp (fun k => if k = n then 0 else P k) (fun k => if k = n then 0 else M k) mean slope hs (by simp) (by simp)
    unfold Perp at h0
    rw [e, list_sum_add, h0, list_sum_add, list_sum_mul, list_sum_mul, A.norm, A.square]
    ring
  refine ⟨first P M mean slope hs, ?_⟩
  have h := first (fun k => conj (M k)) (fun k => conj (P k)) (conj mean) (conj slope) (fun e => by rw [hs e, map_zero])
  have := congrArg conj h
  rw [list_sum_conj, map_mul, Complex.conj_ofReal, Complex.conj_conj] at this
  rw [← this]
  congr 1
  refine List.map_congr_left fun τ _ => ?_
  rw [← conj_rotaryCurve, map_mul, Complex.conj_conj, Complex.conj_conj]

end

/-- Adding a multiple of `D` to the best curve cannot help, so what is left is orthogonal to `D`. -/
theorem perp_of_best (L : List (ℝ × ℂ)) (K D : ℝ → ℂ) (N : ℝ) (hN : 0 < N) (hD : (L.map fun s => ‖D s.1‖ ^ 2).sum = N)
    (h : ∀ ε : ℂ, (L.map fun s => ‖s.2 - K s.1‖ ^ 2).sum ≤ (L.map fun s => ‖s.2 - (K s.1 + ε * D s.1)‖ ^ 2).sum) :
    (L.map fun s => conj (D s.1) * (s.2 - K s.1)).sum = 0 := by
  have key : ∀ (ε : ℂ) (M : List (ℝ × ℂ)), (M.map fun s => ‖s.2 - (K s.1 + ε * D s.1)‖ ^ 2).sum =
      (M.map fun s => ‖s.2 - K s.1‖ ^ 2).sum - 2 * (conj ε * (M.map fun s => conj (D s.1) * (s.2 - K s.1)).sum).re +
        ‖ε‖ ^ 2 * (M.map fun s => ‖D s.1‖ ^ 2).sum := by
    intro ε M
    induction M with
    | nil => simp
    | cons s M ih =>
      simp only [List.map_cons, List.sum_cons, ih, mul_add, Complex.add_re]
      have e : ‖s.2 - (K s.1 + ε * D s.1)‖ ^ 2 = ‖s.2 - K s.1‖ ^ 2 - 2 * (conj ε * (conj (D s.1) * (s.2 - K s.1))).re +
          ‖ε‖ ^ 2 * ‖D s.1‖ ^ 2 := by
        simp only [← Complex.normSq_eq_norm_sq, Complex.normSq_apply, Complex.mul_re, Complex.mul_im, Complex.conj_re,
          Complex.conj_im, Complex.sub_re, Complex.sub_im, Complex.add_re, Complex.add_im]
        ring
      rw [e]
      ring
  obtain ⟨S, hS⟩ : ∃ S, S = (L.map fun s => conj (D s.1) * (s.2 - K s.1)).sum := ⟨_, rfl⟩
  have h1 := h (S / N)
  rw [key, hD, ← hS] at h1
  have e1 : (conj (S / N) * S).re = ‖S‖ ^ 2 / N := by
    have : conj (S / (N : ℂ)) * S = ((‖S‖ ^ 2 / N : ℝ) : ℂ) := by
      rw [map_div₀, Complex.conj_ofReal, div_mul_eq_mul_div, mul_comm (conj S), Complex.mul_conj, Complex.normSq_eq_norm_sq]
      push_cast
      rfl
    rw [this, Complex.ofReal_re]
  have e2 : ‖S / (N : ℂ)‖ ^ 2 * N = ‖S‖ ^ 2 / N := by
    rw [norm_div, Complex.norm_real, Real.norm_eq_abs, div_pow, sq_abs]
    field_simp
  rw [e1, e2] at h1
  have h2 : ‖S‖ ^ 2 / N ≤ 0 := by linarith
  have h3 : ‖S‖ ^ 2 ≤ 0 := by
    by_contra hc
    have := div_pos (not_le.1 hc) hN
    linarith
  rw [← hS]
  exact norm_eq_zero.1 (pow_eq_zero_iff (two_ne_zero) |>.1 (le_antisymm h3 (sq_nonneg _)))

theorem list_sum_sub {α : Type} (l : List α) (f g : α → ℂ) :
    (l.map fun x => f x - g x).sum = (l.map f).sum - (l.map g).sum := by
  induction l with
  | nil => simp
  | cons a l ih => simp only [List.map_cons, List.sum_cons, ih]; ring

/-! ## C127 -/

/-- **C127.** Ordinary least squares without inference, scalar or vector series: where the harmonic of a constituent
averages out against the rest of the model, the two rotating parts of its ellipse are the classical averages of the
data against the harmonic. -/
theorem C127_average {E : Env} {lat : Option ℝ} {opts : Dict PyVal} {t : TimeArg} {u : Series}
    {v : Option Series} {tn : List Fl} {c : Coef} (H : OlsRun E lat opts none t u v tn c) {i : ℕ} {n : String} {N : ℝ}
    (hi : c.name[i]? = some n) (A : AveragesOut c tn u v n N) :
    ∃ e, ellipseAt c.ell i = some e ∧
      ccw e = (1 / N : ℝ) * ((usable tn u.data (v.map Series.data)).map fun s => conj (harmonic c n s.1) * s.2).sum ∧
      cw e = (1 / N : ℝ) * ((usable tn u.data (v.map Series.data)).map fun s => harmonic c n s.1 * s.2).sum := by
  have hn : n ∈ c.name := List.mem_of_getElem? hi
  have hus : samples tn (sampleValues u.data (v.map Series.data)) = usable tn u.data (v.map Series.data) := by
    obtain ⟨p, constit, m, W, rf, full, o, ind, F, -⟩ := run_facts H.ready H.keys H.ols H.returned none
      H.infer H.exact tn H.time
    exact (usable_samples _ _ _ (F.samples H.ready).1).symm
  obtain ⟨P, M, mean, slope, -, hs, -, hell, -, -, hb⟩ := H.best
  obtain ⟨e, he, hp, hm⟩ := hell i n hi
  obtain ⟨L, hL⟩ : ∃ L, L = usable tn u.data (v.map Series.data) := ⟨_, rfl⟩
  have hLt : sampleTimes tn u v = L.map Prod.fst := by rw [hL]; rfl
  have free : ∀ P M, TiedRotary none v.isSome P M := fun P M => ⟨by simp, by simp⟩
  have hsize : (L.map fun s => ‖harmonic c n s.1‖ ^ 2).sum = N := by
    rw [← A.size, hLt, List.map_map]; rfl
  have hsize' : (L.map fun s => ‖conj (harmonic c n s.1)‖ ^ 2).sum = N := by
    rw [← hsize]; simp only [Complex.norm_conj]
  have hadd : ∀ (ε δ : ℂ) (τ : ℝ), rotaryCurve c (fun k => if k = n then P k + ε else P k) (fun k => if k = n then M k + δ else M k)
      mean slope τ = rotaryCurve c P M mean slope τ + (ε * harmonic c n τ + δ * conj (harmonic c n τ)) := by
    intro ε δ τ
    rw [rotaryCurve_single c H.distinct hn, rotaryCurve_single c H.distinct hn P M]
    have e1 : (fun k => if k = n then (0 : ℂ) else if k = n then P k + ε else P k) = fun k => if k = n then 0 else P k := by
      funext k; split <;> rfl
    have e2 : (fun k => if k = n then (0 : ℂ) else if k = n then M k + δ else M k) = fun k => if k = n then 0 else M k := by
      funext k; split <;> rfl
    rw [e1, e2]
    simp only [if_true]
    ring
  have hb' : ∀ ε δ : ℂ, (L.map fun s => ‖s.2 - rotaryCurve c P M mean slope s.1‖ ^ 2).sum ≤
      (L.map fun s => ‖s.2 - (rotaryCurve c P M mean slope s.1 + (ε * harmonic c n s.1 + δ * conj (harmonic c n s.1)))‖ ^ 2).sum := by
    intro ε δ
    have := hb _ _ mean slope (free (fun k => if k = n then P k + ε else P k) (fun k => if k = n then M k + δ else M k)) hs
    unfold away at this
    rw [hus, ← hL] at this
    simp only [hadd] at this
    exact this
  have o1 := perp_of_best L (rotaryCurve c P M mean slope) (harmonic c n) N A.pos hsize (fun ε => by
    have := hb' ε 0
    simpa using this)
  have o2 := perp_of_best L (rotaryCurve c P M mean slope) (fun τ => conj (harmonic c n τ)) N A.pos hsize' (fun ε => by
    have := hb' 0 ε
    simpa using this)
  obtain ⟨k1, k2⟩ := A.curve H.distinct hn P M mean slope hs
  rw [hLt, List.map_map] at k1 k2
  simp only [Function.comp_def] at k1 k2
  simp only [mul_sub, Complex.conj_conj] at o1 o2
  rw [list_sum_sub, k1, sub_eq_zero] at o1
  rw [list_sum_sub, k2, sub_eq_zero] at o2
  have hN : (N : ℂ) ≠ 0 := by exact_mod_cast A.pos.ne'
  refine ⟨e, he, ?_, ?_⟩
  · rw [← hL, o1, hp]; push_cast; field_simp
  · rw [← hL, o2, hm]; push_cast; field_simp

/-! ## Intervals -/

theorem combine_scaled (k : ℝ) (a y : List ℝ) : combine a (y.map fun x => k * x) = k * combine a y := by
  unfold combine
  induction a generalizing y with
  | nil => simp
  | cons x a ih => cases y with
    | nil => simp
    | cons z y => simp only [List.map_cons, List.zipWith_cons_cons, List.sum_cons, ih]; ring

theorem combine_self (a : List ℝ) : combine a a = sumSq a := by
  unfold combine sumSq
  induction a with
  | nil => simp
  | cons x a ih => simp only [List.zipWith_cons_cons, List.map_cons, List.sum_cons, ih]; ring

theorem sumSq_diff (a b : List ℝ) (h : a.length = b.length) :
    sumSq (List.zipWith (fun x y => x - y) a b) = sumSq a - 2 * combine a b + sumSq b := by
  unfold combine sumSq
  induction a generalizing b with
  | nil => cases b with
    | nil => simp
    | cons _ _ => simp at h
  | cons x a ih => cases b with
    | nil => simp at h
    | cons y b =>
      have := ih b (by simpa using h)
      simp only [List.zipWith_cons_cons, List.map_cons, List.sum_cons, this]; ring

theorem eq_of_sumSq_diff (a b : List ℝ) (h : a.length = b.length)
    (h0 : sumSq (List.zipWith (fun x y => x - y) a b) ≤ 0) : a = b := by
  induction a generalizing b with
  | nil => cases b with
    | nil => rfl
    | cons _ _ => simp at h
  | cons x a ih => cases b with
    | nil => simp at h
    | cons y b =>
      have hn := sumSq_nonneg (List.zipWith (fun x y => x - y) a b)
      have e : sumSq (List.zipWith (fun x y => x - y) (x :: a) (y :: b)) =
          (x - y) ^ 2 + sumSq (List.zipWith (fun x y => x - y) a b) := by
        unfold sumSq; simp
      rw [e] at h0
      have h1 : (x - y) ^ 2 = 0 := le_antisymm (by linarith) (sq_nonneg _)
      have h2 : x = y := by have := pow_eq_zero_iff (two_ne_zero) |>.1 h1; linarith
      rw [h2, ih b (by simpa using h) (by linarith [sq_nonneg (x - y)])]

/-- An unbiased estimator that is a multiple of a curve of the model is the best one. -/
theorem Blue.eq_curve {c : Coef} {τ : List ℝ} {par : CurvePar → ℝ} {a : List ℝ} (B : Blue c τ par a) (k : ℝ) (q : CurvePar)
    (hq : Admissible c q) (a0 : List ℝ) (h0 : a0 = (τ.map (linCurve c q)).map fun x => k * x)
    (hu : ∀ q, Admissible c q → combine a0 (τ.map (linCurve c q)) = par q) : a = a0 := by
  have hl : a0.length = τ.length := by rw [h0]; simp
  have e1 : combine a a0 = k * par q := by rw [h0, combine_scaled, B.unbiased q hq]
  have e2 : sumSq a0 = k * par q := by
    rw [← combine_self]
    nth_rewrite 2 [h0]
    rw [combine_scaled, hu q hq]
  refine eq_of_sumSq_diff a a0 (by rw [B.length, hl]) ?_
  rw [sumSq_diff a a0 (by rw [B.length, hl]), e1, e2]
  have := B.best a0 hl hu
  rw [e2] at this
  linarith

theorem combine_maps (L : List ℝ) (f g : ℝ → ℝ) : combine (L.map f) (L.map g) = (L.map fun τ => f τ * g τ).sum := by
  unfold combine
  induction L with
  | nil => simp
  | cons a L ih => simp only [List.map_cons, List.zipWith_cons_cons, List.sum_cons, ih]

theorem re_list_sum {α : Type} (l : List α) (f : α → ℂ) : (l.map f).sum.re = (l.map fun x => (f x).re).sum := by
  induction l with
  | nil => simp
  | cons a l ih => simp only [List.map_cons, List.sum_cons, Complex.add_re, ih]

theorem im_list_sum {α : Type} (l : List α) (f : α → ℂ) : (l.map f).sum.im = (l.map fun x => (f x).im).sum := by
  induction l with
  | nil => simp
  | cons a l ih => simp only [List.map_cons, List.sum_cons, Complex.add_im, ih]

theorem real_sum_mul {α : Type} (l : List α) (k : ℝ) (f : α → ℝ) : (l.map fun x => k * f x).sum = k * (l.map f).sum := by
  induction l with
  | nil => simp
  | cons a l ih => simp only [List.map_cons, List.sum_cons, ih]; ring

section
variable {c : Coef} {tn : List Fl} {u : Series} {v : Option Series} {n : String} {N : ℝ}

theorem AveragesOut.linear (A : AveragesOut c tn u v n N) (hd : c.name.Nodup) (hn : n ∈ c.name) (q : CurvePar)
    (hq : Admissible c q) :
    combine ((sampleTimes tn u v).map fun τ => 2 / N * (harmonic c n τ).re) ((sampleTimes tn u v).map (linCurve c q)) = q.X n ∧
    combine ((sampleTimes tn u v).map fun τ => 2 / N * (harmonic c n τ).im) ((sampleTimes tn u v).map (linCurve c q)) = q.Y n := by
  obtain ⟨P, hP⟩ : ∃ P : String → ℂ, P = fun k => ⟨q.X k / 2, -q.Y k / 2⟩ := ⟨_, rfl⟩
  have hc : ∀ τ, rotaryCurve c P (fun k => conj (P k)) q.mean q.slope τ = ((linCurve c q τ : ℝ) : ℂ) := by
    intro τ
    rw [rotary_lin c P _ _ _ (fun _ _ => rfl) (by simp) (by simp)]
    congr 2
    obtain ⟨X, Y, m, s⟩ := q
    simp only [CurvePar.mk.injEq, hP, Complex.ofReal_re, and_true]
    constructor <;> funext k <;> ring
  obtain ⟨h1, -⟩ := A.curve hd hn P (fun k => conj (P k)) q.mean q.slope (fun e => by rw [hq e]; simp)
  simp only [hc] at h1
  have hN := A.pos.ne'
  constructor
  · rw [combine_maps]
    have := congrArg Complex.re h1
    rw [re_list_sum] at this
    simp only [Complex.mul_re, Complex.conj_re, Complex.conj_im, Complex.ofReal_re, Complex.ofReal_im, mul_zero, sub_zero,
      zero_mul, hP] at this
    simp only [mul_assoc]
    rw [real_sum_mul, this]
    field_simp
  · rw [combine_maps]
    have := congrArg Complex.im h1
    rw [im_list_sum] at this
    simp only [Complex.mul_im, Complex.conj_re, Complex.conj_im, Complex.ofReal_re, Complex.ofReal_im, mul_zero, zero_add,
      zero_mul, add_zero, hP, neg_mul] at this
    have e : ∀ l : List ℝ, (l.map fun τ => -((harmonic c n τ).im * linCurve c q τ)).sum =
        -(l.map fun τ => (harmonic c n τ).im * linCurve c q τ).sum := by
      intro l
      induction l with
      | nil => simp
      | cons a l ih => simp only [List.map_cons, List.sum_cons, ih]; ring
    rw [e] at this
    simp only [mul_assoc]
    rw [real_sum_mul, neg_eq_iff_eq_neg.1 this]
    field_simp

/-- The best linear unbiased estimators of the two coefficients are the averages, of variance `2 / N`. -/
theorem AveragesOut.blue (A : AveragesOut c tn u v n N) (hd : c.name.Nodup) (hn : n ∈ c.name) {a b : List ℝ}
    (ha : Blue c (sampleTimes tn u v) (fun q => q.X n) a) (hb : Blue c (sampleTimes tn u v) (fun q => q.Y n) b) :
    a = ((sampleTimes tn u v).map fun τ => 2 / N * (harmonic c n τ).re) ∧
    b = ((sampleTimes tn u v).map fun τ => 2 / N * (harmonic c n τ).im) ∧ sumSq a = 2 / N ∧ sumSq b = 2 / N := by
  have single : ∀ x y τ, linCurve c ⟨fun k => if k = n then x else 0, fun k => if k = n then y else 0, 0, 0⟩ τ =
      x * (harmonic c n τ).re + y * (harmonic c n τ).im := by
    intro x y τ
    unfold linCurve
    have key : ∀ l : List String, l.Nodup → n ∈ l → (l.map fun k => (if k = n then x else 0) * (harmonic c k τ).re +
        (if k = n then y else 0) * (harmonic c k τ).im).sum = x * (harmonic c n τ).re + y * (harmonic c n τ).im := by
      intro l
      induction l with
      | nil => intro _ h; simp at h
      | cons k l ih =>
        intro hnd hm
        rw [List.nodup_cons] at hnd
        simp only [List.map_cons, List.sum_cons]
        by_cases e : k = n
        · subst e
          have z : (l.map fun j => (if j = k then x else 0) * (harmonic c j τ).re + (if j = k then y else 0) * (harmonic c j τ).im) =
              l.map fun _ => 0 := by
            refine List.map_congr_left fun j hj => ?_
            have : j ≠ k := fun e => hnd.1 (e ▸ hj)
            simp [this]
          rw [z]
          simp
        · rw [ih hnd.2 ((List.mem_cons.1 hm).resolve_left (Ne.symm e))]
          simp [e]
    rw [key c.name hd hn]
    ring
  have adm : ∀ x y, Admissible c ⟨fun k => if k = n then x else 0, fun k => if k = n then y else 0, 0, 0⟩ := fun _ _ _ => rfl
  have h1 := ha.eq_curve (2 / N) _ (adm 1 0) _ (by
    simp only [List.map_map, Function.comp_def, single]
    simp) (fun q hq => (A.linear hd hn q hq).1)
  have h2 := hb.eq_curve (2 / N) _ (adm 0 1) ((sampleTimes tn u v).map fun τ => 2 / N * (harmonic c n τ).im) (by
    simp only [List.map_map, Function.comp_def, single]
    simp) (fun q hq => (A.linear hd hn q hq).2)
  have k1 := (A.linear hd hn _ (adm 1 0)).1
  have k2 := (A.linear hd hn _ (adm 0 1)).2
  refine ⟨h1, h2, ?_, ?_⟩
  · rw [h1, ← combine_self]
    nth_rewrite 2 [show ((sampleTimes tn u v).map fun τ => 2 / N * (harmonic c n τ).re) =
      ((sampleTimes tn u v).map (linCurve c ⟨fun k => if k = n then 1 else 0, fun k => if k = n then 0 else 0, 0, 0⟩)).map
        fun x => 2 / N * x by
      simp only [List.map_map, Function.comp_def, single]; simp]
    rw [combine_scaled, k1]
    simp
  · rw [h2, ← combine_self]
    nth_rewrite 2 [show ((sampleTimes tn u v).map fun τ => 2 / N * (harmonic c n τ).im) =
      ((sampleTimes tn u v).map (linCurve c ⟨fun k => if k = n then 0 else 0, fun k => if k = n then 1 else 0, 0, 0⟩)).map
        fun x => 2 / N * x by
      simp only [List.map_map, Function.comp_def, single]; simp]
    rw [combine_scaled, k2]
    simp

end

/-- **C127**, intervals of an elevation (linearised, white noise floor): with the usual estimate `s2` of the noise
variance, the amplitude is known to 1.96 times the square root of `2 s2 / N`, the phase to that divided by the
amplitude (in radians), whatever the rest of the model. -/
theorem C127_interval {E : Env} {lat : Option ℝ} {opts : Dict PyVal} {t : TimeArg} {u : Series}
    {tn : List Fl} {c : Coef} (R : Ready E t u none) (hI : InvOk E.num.inv) (H : WhiteRun E t u none lat opts c tn)
    (hd : c.name.Nodup) {i : ℕ} {n : String} {N : ℝ} (hi : c.name[i]? = some n) (A : AveragesOut c tn u none n N) :
    ∃ ci e s2, c.ci = some ci ∧ ellipseAt c.ell i = some e ∧
      NoiseVariance c (sampleTimes tn u none) (sampleU tn u none) s2 ∧
      (e.Lsmaj ≠ 0 → intervalAt ci i = some ⟨.fin (1.96 * Real.sqrt (2 * s2 / N)), .fin 0, .fin 0,
        .fin (1.96 * (180 / Real.pi * (Real.sqrt (2 * s2 / N) / e.Lsmaj)))⟩) := by
  have hn : n ∈ c.name := List.mem_of_getElem? hi
  obtain ⟨ci, q, _, hci, hq, _, h⟩ := white_facts R hI H
  obtain ⟨a, b, su, sv, -, h1, h2, h3, -, h5, -, h7, h8⟩ := h i n hi
  obtain ⟨ea, eb, sa, sb⟩ := A.blue hd hn h1 h2
  obtain ⟨X, hX⟩ : ∃ X, X = combine a (sampleU tn u none) := ⟨_, rfl⟩
  obtain ⟨Y, hY⟩ : ∃ Y, Y = combine b (sampleU tn u none) := ⟨_, rfl⟩
  rw [← hX, ← hY] at h7 h8
  refine ⟨ci, _, su, hci, h7, h3, fun hne => ?_⟩
  have hL : (cs2cep1 X Y).Lsmaj = Real.sqrt (X ^ 2 + Y ^ 2) := by
    show ‖(X : ℂ) - Complex.I * (Y : ℂ)‖ = _
    rw [Complex.norm_def, Complex.normSq_apply]
    congr 1
    simp
    ring
  have hpos : 0 < X ^ 2 + Y ^ 2 := by
    by_contra hc
    apply hne
    show (cs2cep1 X Y).Lsmaj = 0
    rw [hL, Real.sqrt_eq_zero_of_nonpos (not_lt.1 hc)]
  have hs : 0 ≤ su * (2 / N) := mul_nonneg h5 (by have := A.pos; positivity)
  rw [h8]
  simp only [Option.isSome_none, Bool.false_eq_true, if_false]
  rw [sa, sb, linear1_none _ _ _ _ hs hs, hL]
  obtain ⟨u1, u2⟩ := utLinci_scalar X Y (Real.sqrt (su * (2 / N))) (Real.sqrt (su * (2 / N))) hpos.ne'
  rw [u1, u2]
  have e0 : su * (2 / N) = 2 * su / N := by ring
  have e1 : (X ^ 2 * Real.sqrt (su * (2 / N)) ^ 2 + Y ^ 2 * Real.sqrt (su * (2 / N)) ^ 2) / (X ^ 2 + Y ^ 2) = 2 * su / N := by
    rw [Real.sq_sqrt hs, ← add_mul, mul_div_assoc, mul_comm, div_mul_cancel₀ _ hpos.ne', e0]
  have e2 : (Y ^ 2 * Real.sqrt (su * (2 / N)) ^ 2 + X ^ 2 * Real.sqrt (su * (2 / N)) ^ 2) / (X ^ 2 + Y ^ 2) ^ 2 =
      (2 * su / N) / (X ^ 2 + Y ^ 2) := by
    rw [Real.sq_sqrt hs, ← add_mul, e0, add_comm (Y ^ 2)]
    field_simp
  have e3 : Real.sqrt (2 * su / N / (X ^ 2 + Y ^ 2)) = Real.sqrt (2 * su / N) / Real.sqrt (X ^ 2 + Y ^ 2) :=
    Real.sqrt_div (by rw [← e0]; exact hs) _
  rw [e1, e2, e3]
  rfl

end

end UTide.Props
