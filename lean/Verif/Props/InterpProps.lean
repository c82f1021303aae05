import Verif.Props.RobustCi
import Verif.Props.GridProps

/-!
# Gaps in an evenly sampled record: C143

The residual spectrum behind coloured intervals is that of the residual drawn through the gaps by straight lines.
-/

namespace UTide.Props

noncomputable section

open Classical

/-! ## Specification -/

/-- `e'`, at the times `tin`, is the curve through the points `(t, e)` that is straight between neighbouring points and
level before the first and after the last one. -/
structure DrawnThrough (t : List ℝ) (e : List ℂ) (tin : List ℝ) (e' : List ℂ) : Prop where
  length : e'.length = tin.length
  sample : ∀ (i j : ℕ) (x : ℝ) (z : ℂ), tin[i]? = some x → t[j]? = some x → e[j]? = some z → e'[i]? = some z
  gap : ∀ (i j : ℕ) (x a b : ℝ) (za zb : ℂ), tin[i]? = some x → t[j]? = some a → t[j + 1]? = some b → e[j]? = some za →
    e[j + 1]? = some zb → a < x → x < b →
    e'[i]? = some ((((b - x) / (b - a) : ℝ) : ℂ) * za + (((x - a) / (b - a) : ℝ) : ℂ) * zb)
  before : ∀ (i : ℕ) (x a : ℝ) (z : ℂ), tin[i]? = some x → t[0]? = some a → e[0]? = some z → x < a → e'[i]? = some z
  after : ∀ (i : ℕ) (x a : ℝ) (z : ℂ), tin[i]? = some x → t[t.length - 1]? = some a → e[t.length - 1]? = some z →
    a < x → e'[i]? = some z

/-! ## Lemmas -/

/-- First components in increasing order. -/
def IncreasingKeys (l : List (ℝ × ℝ)) : Prop := l.Pairwise fun p q => p.1 < q.1

theorem interp_at (x : ℝ) : ∀ (l : List (ℝ × ℝ)) (j : ℕ) (f : ℝ), IncreasingKeys l → l[j]? = some (x, f) → interp x l = f
  | [], j, f, _, h => by simp at h
  | [(x0, f0)], j, f, _, h => by
    cases j with
    | zero => simp at h; simp [interp, h.2]
    | succ j => simp at h
  | (x0, f0) :: (x1, f1) :: l, j, f, hl, h => by
    have h01 : x0 < x1 := (List.pairwise_cons.1 hl).1 (x1, f1) (by simp)
    cases j with
    | zero =>
      simp at h
      obtain ⟨rfl, rfl⟩ := h
      simp [interp, h01]
    | succ j =>
      have ht := (List.pairwise_cons.1 hl).2
      have hx : x1 ≤ x := by
        have h' : ((x1, f1) :: l)[j]? = some (x, f) := by simpa using h
        cases j with
        | zero => simp at h'; exact h'.1.le
        | succ j =>
          have : (x, f) ∈ l := List.mem_of_getElem? (by simpa using h')
          exact ((List.pairwise_cons.1 ht).1 _ this).le
      rw [interp, if_neg (by linarith), if_neg (by linarith)]
      exact interp_at x _ j f ht (by simpa using h)

theorem interp_gap (x a b fa fb : ℝ) : ∀ (l : List (ℝ × ℝ)) (j : ℕ), IncreasingKeys l → l[j]? = some (a, fa) →
    l[j + 1]? = some (b, fb) → a < x → x < b → interp x l = (b - x) / (b - a) * fa + (x - a) / (b - a) * fb
  | [], j, _, h, _, _, _ => by simp at h
  | [(x0, f0)], j, _, _, h, _, _ => by simp at h
  | (x0, f0) :: (x1, f1) :: l, j, hl, h, h', h1, h2 => by
    have ht := (List.pairwise_cons.1 hl).2
    cases j with
    | zero =>
      simp at h h'
      obtain ⟨rfl, rfl⟩ := h
      obtain ⟨rfl, rfl⟩ := h'
      rw [interp, if_neg (by linarith), if_pos h2]
      have : x1 - x0 ≠ 0 := by linarith
      field_simp
      ring
    | succ j =>
      have hk : ((x1, f1) :: l)[j]? = some (a, fa) := by simpa using h
      have hx : x1 ≤ a := by
        cases j with
        | zero => simp at hk; exact hk.1.le
        | succ j =>
          have : (a, fa) ∈ l := List.mem_of_getElem? (by simpa using hk)
          exact ((List.pairwise_cons.1 ht).1 _ this).le
      have h01 : x0 < x1 := (List.pairwise_cons.1 hl).1 (x1, f1) (by simp)
      rw [interp, if_neg (by linarith), if_neg (by linarith)]
      exact interp_gap x a b fa fb _ j ht hk (by simpa using h') h1 h2

theorem interp_before (x a f : ℝ) (l : List (ℝ × ℝ)) (h : l[0]? = some (a, f)) (hx : x < a) : interp x l = f := by
  match l, h with
  | [(x0, f0)], h => simp at h; simp [interp, h.2]
  | (x0, f0) :: (x1, f1) :: l, h =>
    simp at h
    obtain ⟨rfl, rfl⟩ := h
    rw [interp, if_pos hx]

theorem interp_after (x a f : ℝ) : ∀ (l : List (ℝ × ℝ)), IncreasingKeys l → l[l.length - 1]? = some (a, f) → a < x →
    interp x l = f
  | [], _, h, _ => by simp at h
  | [(x0, f0)], _, h, _ => by simp at h; simp [interp, h.2]
  | (x0, f0) :: (x1, f1) :: l, hl, h, hx => by
    have ht := (List.pairwise_cons.1 hl).2
    have h' : ((x1, f1) :: l)[((x1, f1) :: l).length - 1]? = some (a, f) := by simpa using h
    have hle : x1 ≤ a := by
      rcases List.mem_cons.1 (List.mem_of_getElem? h') with h | h
      · exact (Prod.mk.inj h).1.symm.le
      · exact ((List.pairwise_cons.1 ht).1 _ h).le
    have h01 : x0 < x1 := (List.pairwise_cons.1 hl).1 (x1, f1) (by simp)
    rw [interp, if_neg (by linarith), if_neg (by linarith)]
    exact interp_after x a f _ ht h' hx

theorem increasing_zip : ∀ (t f : List ℝ), t.Pairwise (· < ·) → IncreasingKeys (t.zip f)
  | [], _, _ => by simp [IncreasingKeys]
  | _ :: _, [], _ => by simp [IncreasingKeys]
  | a :: t, b :: f, h => by
    unfold IncreasingKeys
    rw [List.zip_cons_cons, List.pairwise_cons]
    refine ⟨fun p hp => (List.pairwise_cons.1 h).1 _ (List.of_mem_zip hp).1, increasing_zip t f (List.pairwise_cons.1 h).2⟩

theorem zip_get {t f : List ℝ} {j : ℕ} {a b : ℝ} (h : t[j]? = some a) (h' : f[j]? = some b) : (t.zip f)[j]? = some (a, b) := by
  rw [List.getElem?_zip_eq_some]; exact ⟨h, h'⟩

/-- The position of a number among increasing numbers. -/
theorem locate (x : ℝ) : ∀ t : List ℝ, t ≠ [] → (∃ j : ℕ, t[j]? = some x) ∨
    (∃ (j : ℕ) (a b : ℝ), t[j]? = some a ∧ t[j + 1]? = some b ∧ a < x ∧ x < b) ∨
    (∃ a, t[0]? = some a ∧ x < a) ∨ ∃ a, t[t.length - 1]? = some a ∧ a < x
  | [], h => absurd rfl h
  | [a], _ => by
    rcases lt_trichotomy x a with h | h | h
    · exact Or.inr (Or.inr (Or.inl ⟨a, rfl, h⟩))
    · exact Or.inl ⟨0, by rw [h]; rfl⟩
    · exact Or.inr (Or.inr (Or.inr ⟨a, rfl, h⟩))
  | a :: b :: t, _ => by
    rcases lt_trichotomy x a with h | h | h
    · exact Or.inr (Or.inr (Or.inl ⟨a, rfl, h⟩))
    · exact Or.inl ⟨0, by rw [h]; rfl⟩
    · rcases locate x (b :: t) (by simp) with ⟨j, hj⟩ | ⟨j, p, q, h1, h2, h3⟩ | ⟨p, h1, h2⟩ | ⟨p, h1, h2⟩
      · exact Or.inl ⟨j + 1, by simpa using hj⟩
      · exact Or.inr (Or.inl ⟨j + 1, p, q, by simpa using h1, by simpa using h2, h3⟩)
      · simp at h1
        subst h1
        exact Or.inr (Or.inl ⟨0, a, b, rfl, rfl, h, h2⟩)
      · exact Or.inr (Or.inr (Or.inr ⟨p, by simpa using h1, h2⟩))

/-! ## C143 -/

/-- **C143, interpolation**: at increasing times `complex_interp` draws straight lines through the points. -/
theorem C143_interp (tin t : List ℝ) (e e' : List ℂ) (hinc : t.Pairwise (· < ·)) (hlen : e.length = t.length)
    (h : complexInterp tin t e = .ok e') : DrawnThrough t e tin e' := by
  unfold complexInterp at h
  split at h
  · cases h
  have h := Except.ok.inj h
  subst h
  have hr := increasing_zip t (e.map Complex.re) hinc
  have hi := increasing_zip t (e.map Complex.im) hinc
  have pr : ∀ {j : ℕ} {a : ℝ} {z : ℂ}, t[j]? = some a → e[j]? = some z → (t.zip (e.map Complex.re))[j]? = some (a, z.re) :=
    fun h1 h2 => zip_get h1 (by rw [List.getElem?_map, h2]; rfl)
  have pi : ∀ {j : ℕ} {a : ℝ} {z : ℂ}, t[j]? = some a → e[j]? = some z → (t.zip (e.map Complex.im))[j]? = some (a, z.im) :=
    fun h1 h2 => zip_get h1 (by rw [List.getElem?_map, h2]; rfl)
  have hlr : (t.zip (e.map Complex.re)).length - 1 = t.length - 1 := by simp [hlen]
  have hli : (t.zip (e.map Complex.im)).length - 1 = t.length - 1 := by simp [hlen]
  refine ⟨by simp, fun i j x z h1 h2 h3 => ?_, fun i j x a b za zb h1 h2 h3 h4 h5 h6 h7 => ?_, fun i x a z h1 h2 h3 h4 => ?_,
    fun i x a z h1 h2 h3 h4 => ?_⟩
  · rw [List.getElem?_map, h1, Option.map_some, interp_at x _ j _ hr (pr h2 h3), interp_at x _ j _ hi (pi h2 h3)]
  · rw [List.getElem?_map, h1, Option.map_some, interp_gap x a b _ _ _ j hr (pr h2 h4) (pr h3 h5) h6 h7,
      interp_gap x a b _ _ _ j hi (pi h2 h4) (pi h3 h5) h6 h7]
    congr 1
    apply Complex.ext
    · simp only [Complex.add_re, Complex.re_ofReal_mul]
    · simp only [Complex.add_im, Complex.im_ofReal_mul]
  · rw [List.getElem?_map, h1, Option.map_some, interp_before x a _ _ (pr h2 h3) h4, interp_before x a _ _ (pi h2 h3) h4]
  · rw [List.getElem?_map, h1, Option.map_some, interp_after x a _ _ hr (by rw [hlr]; exact pr h2 h3) h4,
      interp_after x a _ _ hi (by rw [hli]; exact pi h2 h3) h4]

/-- **C143, determined**: the drawing is determined by the points. -/
theorem C143_unique (tin t : List ℝ) (e a b : List ℂ) (hne : t ≠ []) (hlen : e.length = t.length)
    (ha : DrawnThrough t e tin a) (hb : DrawnThrough t e tin b) : a = b := by
  have get : ∀ {j : ℕ} {x : ℝ}, t[j]? = some x → ∃ z, e[j]? = some z := fun h =>
    ⟨_, List.getElem?_eq_getElem (by rw [hlen]; exact (List.getElem?_eq_some_iff.1 h).1)⟩
  apply List.ext_getElem?
  intro i
  by_cases hi : i < tin.length
  · have hx := List.getElem?_eq_getElem hi
    generalize tin[i] = x at hx
    rcases locate x t hne with ⟨j, hj⟩ | ⟨j, p, q, h1, h2, h3, h4⟩ | ⟨p, h1, h2⟩ | ⟨p, h1, h2⟩
    · obtain ⟨z, hz⟩ := get hj
      rw [ha.sample i j x z hx hj hz, hb.sample i j x z hx hj hz]
    · obtain ⟨z, hz⟩ := get h1
      obtain ⟨y, hy⟩ := get h2
      rw [ha.gap i j x p q z y hx h1 h2 hz hy h3 h4, hb.gap i j x p q z y hx h1 h2 hz hy h3 h4]
    · obtain ⟨z, hz⟩ := get h1
      rw [ha.before i x p z hx h1 hz h2, hb.before i x p z hx h1 hz h2]
    · obtain ⟨z, hz⟩ := get h1
      rw [ha.after i x p z hx h1 hz h2, hb.after i x p z hx h1 hz h2]
  · rw [List.getElem?_eq_none (by rw [ha.length]; omega), List.getElem?_eq_none (by rw [hb.length]; omega)]

/-- **C143, bounded**: the drawing stays within the largest given value. -/
theorem C143_bounded (tin t : List ℝ) (e e' : List ℂ) (hne : t ≠ []) (hlen : e.length = t.length)
    (h : DrawnThrough t e tin e') (B : ℝ) (hB : ∀ z ∈ e, ‖z‖ ≤ B) : ∀ z ∈ e', ‖z‖ ≤ B := by
  have get : ∀ {j : ℕ} {x : ℝ}, t[j]? = some x → ∃ z, e[j]? = some z ∧ ‖z‖ ≤ B := by
    intro j x h
    have hj : j < e.length := by rw [hlen]; exact (List.getElem?_eq_some_iff.1 h).1
    exact ⟨e[j], List.getElem?_eq_getElem hj, hB _ (List.getElem_mem hj)⟩
  intro y hy
  obtain ⟨i, hi, rfl⟩ := List.mem_iff_getElem.1 hy
  have hi' : i < tin.length := by rw [← h.length]; exact hi
  have hx := List.getElem?_eq_getElem hi'
  generalize tin[i] = x at hx
  have hy := List.getElem?_eq_getElem hi
  rcases locate x t hne with ⟨j, hj⟩ | ⟨j, p, q, h1, h2, h3, h4⟩ | ⟨p, h1, h2⟩ | ⟨p, h1, h2⟩
  · obtain ⟨z, hz, hzB⟩ := get hj
    rw [Option.some.inj (hy.symm.trans (h.sample i j x z hx hj hz))]; exact hzB
  · obtain ⟨z, hz, hzB⟩ := get h1
    obtain ⟨y, hy', hyB⟩ := get h2
    rw [Option.some.inj (hy.symm.trans (h.gap i j x p q z y hx h1 h2 hz hy' h3 h4))]
    have hpq : 0 < q - p := by linarith
    have w1 : 0 ≤ (q - x) / (q - p) := div_nonneg (by linarith) hpq.le
    have w2 : 0 ≤ (x - p) / (q - p) := div_nonneg (by linarith) hpq.le
    have w3 : (q - x) / (q - p) + (x - p) / (q - p) = 1 := by field_simp; ring
    calc _ ≤ ‖(((q - x) / (q - p) : ℝ) : ℂ) * z‖ + ‖(((x - p) / (q - p) : ℝ) : ℂ) * y‖ := norm_add_le _ _
      _ = (q - x) / (q - p) * ‖z‖ + (x - p) / (q - p) * ‖y‖ := by
        rw [norm_mul, norm_mul, Complex.norm_of_nonneg w1, Complex.norm_of_nonneg w2]
      _ ≤ (q - x) / (q - p) * B + (x - p) / (q - p) * B :=
        add_le_add (mul_le_mul_of_nonneg_left hzB w1) (mul_le_mul_of_nonneg_left hyB w2)
      _ = B := by rw [← add_mul, w3, one_mul]
  · obtain ⟨z, hz, hzB⟩ := get h1
    rw [Option.some.inj (hy.symm.trans (h.before i x p z hx h1 hz h2))]; exact hzB
  · obtain ⟨z, hz, hzB⟩ := get h1
    rw [Option.some.inj (hy.symm.trans (h.after i x p z hx h1 hz h2))]; exact hzB

/-- Drawing a curve through points at its own times changes nothing. -/
theorem drawn_self (t : List ℝ) (e : List ℂ) (hinc : t.Pairwise (· < ·)) (hlen : e.length = t.length) :
    DrawnThrough t e t e := by
  by_cases hne : t = []
  · subst hne
    have : e = [] := List.length_eq_zero_iff.1 (by simpa using hlen)
    subst this
    exact ⟨rfl, by simp, by simp, by simp, by simp⟩
  obtain ⟨e', he'⟩ : ∃ e', complexInterp t t e = .ok e' := ⟨_, if_neg hne⟩
  have h := C143_interp t t e e' hinc hlen he'
  have : e' = e := by
    apply List.ext_getElem?
    intro i
    by_cases hi : i < t.length
    · rw [List.getElem?_eq_getElem (by rw [hlen]; exact hi : i < e.length)]
      exact h.sample i i _ _ (List.getElem?_eq_getElem hi) (List.getElem?_eq_getElem hi) (List.getElem?_eq_getElem _)
    · rw [List.getElem?_eq_none (by rw [h.length]; omega), List.getElem?_eq_none (by omega)]
  rwa [this] at h

/-- **C143, noise power**: that of an evenly sampled record with gaps is that of the record without gaps whose residual is
drawn through them. -/
theorem C143_power (N : Num) (ed : Edited) (e : List ℂ) (frq : List ℝ) (w : Power) (hinc : ed.tin.Pairwise (· < ·))
    (hsub : ed.t.Sublist ed.tin) (hlen : e.length = ed.t.length) (hequi : ed.equi = true)
    (h : residualPower N ed e frq = .ok w) :
    ∃ e', DrawnThrough ed.t e ed.tin e' ∧ residualPower N { ed with t := ed.tin } e' frq = .ok w := by
  unfold residualPower at h ⊢
  simp only [hequi, if_true, lt_irrefl, if_false] at h ⊢
  by_cases hl : ed.t.length < ed.tin.length
  · rw [if_pos hl] at h
    cases he : complexInterp ed.tin ed.t e with
    | error x => rw [he] at h; simp [bind, Except.bind] at h
    | ok e' =>
      rw [he] at h
      exact ⟨e', C143_interp _ _ _ _ (hinc.sublist hsub) hlen he, h⟩
  · rw [if_neg hl] at h
    have heq : ed.t = ed.tin := hsub.eq_of_length_le (by omega)
    refine ⟨e, ?_, h⟩
    rw [← heq]
    exact drawn_self _ _ (by rw [heq]; exact hinc) hlen

/-- **C143, solve**: coloured intervals of an evenly sampled scalar record with gaps, any method. -/
theorem C143_solve {E : Env} {t : TimeArg} {u : Series} {lat : Option ℝ} {opts : Dict PyVal} {c : Coef} {tn : List Fl}
    (R : Ready E t u none) (hI : InvOk E.num.inv) (H : IntervalRun E t u none lat opts c tn)
    (hcol : c.opt.white = false) (hev : EvenlySpaced (finiteTimes tn)) (h2 : 2 ≤ (finiteTimes tn).length)
    (hinc : (finiteTimes tn).Pairwise (· < ·)) :
    ∃ ci q ed frq w e', c.ci = some ci ∧ Reported c q ∧ editData tn u.data none = .ok ed ∧ frq.Perm c.frq ∧
      DrawnThrough (sampleTimes tn u none)
        ((weightedResiduals c (sampleTimes tn u none) (sampleU tn u none) c.weights q).map Complex.ofReal) (finiteTimes tn) e' ∧
      residualPower E.num { ed with t := finiteTimes tn } e' frq = .ok w ∧
      ∀ (i : ℕ) (n : String), c.name[i]? = some n → ∃ (a b : List ℝ) (P : Fl) (k : ℕ) (f : ℝ),
        WeightedBlue c (sampleTimes tn u none) c.weights (fun q => q.X n) a ∧
        WeightedBlue c (sampleTimes tn u none) c.weights (fun q => q.Y n) b ∧
        c.frq[i]? = some f ∧ frq[k]? = some f ∧ w.Puu[k]? = some P ∧
        ∀ r : ℝ, P = .fin r → 0 ≤ r →
          weightedMSM c (sampleTimes tn u none) (sampleU tn u none) c.weights q ≠ 0 →
          ![q.X n, q.Y n] ≠ (0 : Fin 2 → ℝ) →
          ∃ vX vY da dg : ℝ, 0 ≤ vX ∧ 0 ≤ vY ∧ vX + vY = r ∧ vX * varSum c.weights b = vY * varSum c.weights a ∧
            Propagated 0 ampOf ![q.X n, q.Y n] ![Real.sqrt vX, Real.sqrt vY] da ∧
            Propagated 360 phaseOf ![q.X n, q.Y n] ![Real.sqrt vX, Real.sqrt vY] dg ∧
            intervalAt ci i = some ⟨.fin (1.96 * da), .fin 0, .fin 0, .fin (1.96 * dg)⟩ := by
  obtain ⟨ci, q, ed, frq, w, hci, hq, hed, hperm, hw, hrow⟩ := C137_coloured R hI H hcol
  obtain ⟨opt, p, tn0, constit, m, W, rf, full, o, ind, F⟩ := solve_facts R H.returned
  have hc := F.copt
  subst hc
  cases Except.ok.inj (F.prep.init.time.symm.trans H.time)
  obtain ⟨hl, hts, hxs⟩ := F.samples R
  obtain ⟨e1, e2, e3, -, e5⟩ := editData_usable tn u.data none hl ed hed
  have hT : sampleTimes tn u none = ed.t := e2.symm
  have hxlen : (sampleU tn u none).length = ed.t.length := by
    rw [← hT]; unfold sampleU sampleTimes; simp
  have hwlen : c.weights.length = ed.t.length := by
    rw [(C82_weights E t u none lat opts R H.keys c H.returned tn F.prep.init.time).1, ← usable_samples _ _ _ hl, e2,
      List.length_map]
    rfl
  have hrl : ((weightedResiduals c (sampleTimes tn u none) (sampleU tn u none) c.weights q).map Complex.ofReal).length =
      ed.t.length := by
    unfold weightedResiduals residuals
    simp [hxlen, hwlen, hT]
  have hsub : ed.t.Sublist ed.tin := by
    rw [e1, ((editData_ok_none tn u.data hl.1 ed).1 hed).2.2.1]
    exact goodSamples_sublist _ _
  have hequi : ed.equi = true := by
    have := C68_even _ h2 hev
    unfold timeStats at e5
    simp only [bind_eq_ok, pure_eq_ok, Except.ok.injEq, Prod.mk.injEq] at e5
    obtain ⟨_, -, _, -, -, -, -, e⟩ := e5
    rw [← e, this]
  obtain ⟨e', he', hp⟩ := C143_power E.num ed _ frq w (by rw [e1]; exact hinc) hsub hrl hequi hw
  rw [e1] at he'
  have e1' : ({ ed with t := ed.tin } : Edited) = { ed with t := finiteTimes tn } := by rw [e1]
  rw [e1'] at hp
  rw [← hT] at he'
  exact ⟨ci, q, ed, frq, w, e', hci, hq, hed, hperm, he', hp, hrow⟩

/-! ## Non-vacuity -/

/-- A gap between the second and the fourth of five times, and one at the end. -/
example : ∃ e', DrawnThrough [0, 1, 3] [2, 4, 8] [0, 1, 2, 3, 4] e' ∧ e'[2]? = some 6 ∧ e'[4]? = some 8 := by
  have h := C143_interp [0, 1, 2, 3, 4] [0, 1, 3] [2, 4, 8] _ (by norm_num) rfl (if_neg (by simp))
  refine ⟨_, h, ?_, h.after 4 4 3 8 rfl rfl rfl (by norm_num)⟩
  rw [h.gap 2 1 2 1 3 4 8 rfl rfl rfl rfl rfl (by norm_num) (by norm_num)]
  congr 1
  push_cast
  norm_num

/-- A run with coloured intervals of an evenly sampled record. -/
example : ∃ u c, IntervalRun idealEnv pentT u none (some 45) (ciOpts "linear" false) c pentTn ∧ c.opt.white = false ∧
    EvenlySpaced (finiteTimes pentTn) ∧ 2 ≤ (finiteTimes pentTn).length ∧ (finiteTimes pentTn).Pairwise (· < ·) := by
  obtain ⟨z, h0, h1, h2, h3, h4, hu, hr, hi⟩ := m2_pent
  obtain ⟨c, -, H, -⟩ := pent_scalar z h0 h1 h2 h3 h4 hu hr hi
  have e : finiteTimes pentTn = [0.25, 0.375, 0.5, 0.625, 0.75] := rfl
  refine ⟨_, c, ⟨H.returned, H.keys, H.infer, H.ci, H.linear, H.kept, H.time⟩, H.coloured, ?_, ?_, ?_⟩
  · rw [e]; exact pent_even
  · rw [e]; simp
  · rw [e]; norm_num

end

end UTide.Props
