import Verif.Model.Confidence
import Verif.Lemmas.Lstsq
import Verif.Lemmas.Selection

/-!
# Confidence intervals of a record in other units
-/

namespace UTide

noncomputable section

open Classical

local notation "conj" => starRingEnd ℂ

/-! ## Extended numbers -/

/-- Multiplication with a positive number. -/
def Fl.sc (k : ℝ) : Fl → Fl
  | .fin x => .fin (k * x)
  | .nan => .nan
  | .pinf => .pinf
  | .ninf => .ninf

namespace Fl

theorem sc_fin (k x : ℝ) : Fl.fin (k * x) = sc k (.fin x) := rfl

theorem sc_one (a : Fl) : sc 1 a = a := by cases a <;> simp [sc]

theorem sc_mul_left (k : ℝ) (hk : 0 < k) (a : Fl) : Fl.fin k * a = sc k a := by
  cases a <;> simp [HMul.hMul, Mul.mul, Fl.mul, sc, scaleInf, hk, hk.ne']

theorem sc_add (k : ℝ) (a b : Fl) : sc k a + sc k b = sc k (a + b) := by
  cases a <;> cases b <;> simp [HAdd.hAdd, Add.add, Fl.add, sc]
  exact (mul_add k _ _).symm

theorem sc_neg (k : ℝ) (a : Fl) : Fl.neg (sc k a) = sc k (Fl.neg a) := by
  cases a <;> simp [Fl.neg, sc]

theorem sc_sub (k : ℝ) (a b : Fl) : sc k a - sc k b = sc k (a - b) := by
  show Fl.add (sc k a) (Fl.neg (sc k b)) = _
  rw [sc_neg]
  exact sc_add k a _

theorem scaleInf_mul (k x : ℝ) (hk : 0 < k) (b : Bool) : scaleInf (k * x) b = scaleInf x b := by
  unfold scaleInf
  simp [hk.ne', mul_pos_iff_of_pos_left hk]

theorem sc_scaleInf (k x : ℝ) (b : Bool) : sc k (scaleInf x b) = scaleInf x b := by
  unfold scaleInf
  split
  · rfl
  · split <;> rfl

theorem sc_mul (k l : ℝ) (hk : 0 < k) (hl : 0 < l) (a b : Fl) : sc k a * sc l b = sc (k * l) (a * b) := by
  show Fl.mul (sc k a) (sc l b) = sc (k * l) (Fl.mul a b)
  cases a <;> cases b <;> simp only [Fl.mul, sc, scaleInf_mul _ _ hk, scaleInf_mul _ _ hl] <;>
    first
    | rfl
    | exact (sc_scaleInf _ _ _).symm
    | (congr 1; ring)

theorem sc_div (k l : ℝ) (hk : 0 < k) (hl : 0 < l) (a b : Fl) : Fl.div (sc k a) (sc l b) = sc (k / l) (Fl.div a b) := by
  cases a with
  | nan => cases b <;> simp [Fl.div, sc]
  | fin x =>
    cases b with
    | fin y =>
      simp only [Fl.div, sc, mul_eq_zero, hl.ne', hk.ne', false_or, mul_pos_iff_of_pos_left hk]
      split
      · split
        · rfl
        · split <;> rfl
      · simp only [sc]
        congr 1
        rw [mul_div_mul_comm]
    | nan => rfl
    | pinf => simp [Fl.div, sc]
    | ninf => simp [Fl.div, sc]
  | pinf =>
    cases b with
    | fin y =>
      simp only [Fl.div, sc, mul_neg_iff_of_pos_left' hl]
      split <;> rfl
    | _ => simp [Fl.div, sc]
  | ninf =>
    cases b with
    | fin y =>
      simp only [Fl.div, sc, mul_neg_iff_of_pos_left' hl]
      split <;> rfl
    | _ => simp [Fl.div, sc]
where mul_neg_iff_of_pos_left' {l y : ℝ} (hl : 0 < l) : (l * y < 0) = (y < 0) := by
        rw [eq_iff_iff]; exact neg_iff hl
      neg_iff {l y : ℝ} (hl : 0 < l) : l * y < 0 ↔ y < 0 := by
        constructor
        · intro h; by_contra h'; exact absurd h (not_lt.2 (mul_nonneg hl.le (not_lt.1 h')))
        · exact mul_neg_of_pos_of_neg hl

theorem sc_div' (k l : ℝ) (hk : 0 < k) (hl : 0 < l) (a b : Fl) : sc k a / sc l b = sc (k / l) (a / b) :=
  sc_div k l hk hl a b

theorem sc_sq (k : ℝ) (hk : 0 < k) (a : Fl) : (sc k a).sq = sc (k ^ 2) a.sq := by
  unfold sq
  rw [sc_mul k k hk hk, pow_two]

theorem sc_sqrt (k : ℝ) (hk : 0 < k) (a : Fl) : (sc (k ^ 2) a).sqrt = sc k a.sqrt := by
  cases a with
  | fin x =>
    have h : (k ^ 2 * x < 0) = (x < 0) := by
      rw [eq_iff_iff]; exact sc_div.neg_iff (by positivity)
    simp only [Fl.sqrt, sc, h]
    split
    · rfl
    · simp only [sc]
      rw [Real.sqrt_mul (by positivity), Real.sqrt_sq hk.le]
  | _ => rfl

theorem sc_sc (k l : ℝ) (a : Fl) : sc k (sc l a) = sc (k * l) a := by
  cases a <;> simp [sc, mul_assoc]

theorem mul_sc (k : ℝ) (hk : 0 < k) (a b : Fl) : a * sc k b = sc k (a * b) := by
  have := sc_mul 1 k one_pos hk a b
  rwa [sc_one, one_mul] at this

end Fl

/-! ## `ut_linci` -/

theorem linSum_scale (a b : ℝ) (ha : 0 < a) (hb : 0 < b) (d1 d2 d3 d4 s1 s2 s3 s4 : Fl) :
    linSum (d1.sc a) (d2.sc a) (d3.sc a) (d4.sc a) (s1.sc b) (s2.sc b) (s3.sc b) (s4.sc b) =
      (linSum d1 d2 d3 d4 s1 s2 s3 s4).sc (a * b) := by
  have ha2 : 0 < a ^ 2 := by positivity
  have hb2 : 0 < b ^ 2 := by positivity
  unfold linSum
  simp only [Fl.sc_sq a ha, Fl.sc_sq b hb, Fl.sc_mul _ _ ha2 hb2, Fl.sc_add]
  rw [← mul_pow, Fl.sc_sqrt _ (mul_pos ha hb)]

theorem addJ_scale (k : ℝ) (hk : 0 < k) (a b : Fl) : addJ (a.sc k) (b.sc k) = ((addJ a b).1.sc k, (addJ a b).2.sc k) := by
  unfold addJ
  rw [Fl.mul_sc k hk, Fl.sc_add]

/-- Standard deviations times `k`. -/
def Linci.sc (k : ℝ) (l : Linci) : Linci := ⟨l.sMaj.sc k, l.sMin.sc k, l.sG, l.sTheta⟩

theorem utLinci_scale (k : ℝ) (hk : 0 < k) (Xu Yu Xv Yv : ℝ) (s1 s2 s3 s4 : Fl) :
    utLinci (k * Xu) (k * Yu) (k * Xv) (k * Yv) (s1.sc k) (s2.sc k) (s3.sc k) (s4.sc k) =
      (utLinci Xu Yu Xv Yv s1 s2 s3 s4).sc k := by
  have hr : ∀ a b : ℝ, 0.5 * Real.sqrt ((k * a) ^ 2 + (k * b) ^ 2) = k * (0.5 * Real.sqrt (a ^ 2 + b ^ 2)) := by
    intro a b
    rw [show (k * a) ^ 2 + (k * b) ^ 2 = k ^ 2 * (a ^ 2 + b ^ 2) by ring, Real.sqrt_mul (by positivity), Real.sqrt_sq hk.le]
    ring
  have hq : ∀ a b : ℝ, Fl.fin (k * a) / Fl.fin (k * b) = Fl.fin a / Fl.fin b := by
    intro a b
    rw [Fl.sc_fin, Fl.sc_fin, Fl.sc_div' k k hk hk, div_self hk.ne', Fl.sc_one]
  have hd : ∀ a b : ℝ, Fl.fin (k ^ 3 * a) / Fl.fin (k ^ 4 * b) = Fl.sc k⁻¹ (Fl.fin a / Fl.fin b) := by
    intro a b
    rw [Fl.sc_fin, Fl.sc_fin, Fl.sc_div' _ _ (by positivity) (by positivity)]
    congr 1
    field_simp
  have h1 : ∀ d1 d2 d3 d4 : Fl, linSum d1 d2 d3 d4 (s1.sc k) (s2.sc k) (s3.sc k) (s4.sc k) =
      (linSum d1 d2 d3 d4 s1 s2 s3 s4).sc k := by
    intro d1 d2 d3 d4
    have := linSum_scale 1 k one_pos hk d1 d2 d3 d4 s1 s2 s3 s4
    simpa only [Fl.sc_one, one_mul] using this
  have h2 : ∀ d1 d2 d3 d4 : Fl, linSum (d1.sc k⁻¹) (d2.sc k⁻¹) (d3.sc k⁻¹) (d4.sc k⁻¹) (s1.sc k) (s2.sc k) (s3.sc k)
      (s4.sc k) = linSum d1 d2 d3 d4 s1 s2 s3 s4 := by
    intro d1 d2 d3 d4
    rw [linSum_scale _ _ (by positivity) hk, inv_mul_cancel₀ hk.ne', Fl.sc_one]
  have e1 : k * Xu + k * Yv = k * (Xu + Yv) := by ring
  have e2 : k * Xv - k * Yu = k * (Xv - Yu) := by ring
  have e3 : k * Xu - k * Yv = k * (Xu - Yv) := by ring
  have e4 : k * Xv + k * Yu = k * (Xv + Yu) := by ring
  have e5 : k * Yu - k * Xv = k * (Yu - Xv) := by ring
  have e6 : k * Yu + k * Xv = k * (Yu + Xv) := by ring
  have e7 : 2 * (k * Xu * (k * Yu) + k * Xv * (k * Yv)) = k ^ 2 * (2 * (Xu * Yu + Xv * Yv)) := by ring
  have e8 : (k * Xu) ^ 2 - (k * Yu) ^ 2 + (k * Xv) ^ 2 - (k * Yv) ^ 2 = k ^ 2 * (Xu ^ 2 - Yu ^ 2 + Xv ^ 2 - Yv ^ 2) := by ring
  have e9 : 2 * (k * Xu * (k * Xv) + k * Yu * (k * Yv)) = k ^ 2 * (2 * (Xu * Xv + Yu * Yv)) := by ring
  have e10 : (k * Xu) ^ 2 + (k * Yu) ^ 2 - ((k * Xv) ^ 2 + (k * Yv) ^ 2) =
    k ^ 2 * (Xu ^ 2 + Yu ^ 2 - (Xv ^ 2 + Yv ^ 2)) := by ring
  have e11 : ∀ a b : ℝ, (k ^ 2 * a) ^ 2 + (k ^ 2 * b) ^ 2 = k ^ 4 * (a ^ 2 + b ^ 2) := by intro a b; ring
  have e12 : ∀ a b c d : ℝ, k ^ 2 * a * (k * b) - k ^ 2 * c * (k * d) = k ^ 3 * (a * b - c * d) := by intros; ring
  have e13 : ∀ a b c d : ℝ, k ^ 2 * a * (k * b) + k ^ 2 * c * (k * d) = k ^ 3 * (a * b + c * d) := by intros; ring
  unfold utLinci
  simp only [e1, e2, e3, e4, e5, e6, e7, e8, e9, e10, e11, e12, e13, hr, hq, hd, h2, mul_eq_zero, hk.ne', false_or]
  simp only [h1]
  by_cases hx : Xv = 0
  · simp only [hx, if_true, Linci.sc]
    rw [show (Fl.fin 0).sc k = Fl.fin 0 by simp [Fl.sc]]
  · simp only [hx, if_false, Linci.sc, addJ_scale k hk]

theorem utLinci2_scale (k : ℝ) (hk : 0 < k) (Xu Yu Xv Yv : ℝ) (s1 s2 s3 s4 : Fl) :
    utLinci2 (k * Xu) (k * Yu) (k * Xv) (k * Yv) (s1.sc k) (s2.sc k) (s3.sc k) (s4.sc k) =
      (utLinci2 Xu Yu Xv Yv s1 s2 s3 s4).sc k := by
  unfold utLinci2
  simp only [addJ_scale k hk]
  exact utLinci_scale k hk _ _ _ _ _ _ _ _

/-- An interval times `k`. -/
def Ci1.sc (k : ℝ) (c : Ci1) : Ci1 := ⟨c.maj.sc k, c.min.sc k, c.theta, c.g⟩
def Vars.sc (k : ℝ) (c : Vars) : Vars := ⟨c.xu.sc (k ^ 2), c.yu.sc (k ^ 2), c.xv.sc (k ^ 2), c.yv.sc (k ^ 2)⟩

theorem rescale_scale (k : ℝ) (hk : 0 < k) (P : Fl) (v d : ℝ) :
    rescale (P.sc (k ^ 2)) (k ^ 2 * v) (k ^ 2 * d) = (rescale P v d).sc (k ^ 2) := by
  have h2 : 0 < k ^ 2 := by positivity
  unfold rescale
  rw [Fl.sc_fin, Fl.sc_fin, Fl.sc_mul _ _ h2 h2, Fl.sc_div _ _ (by positivity) h2, mul_div_cancel_right₀ _ h2.ne']

theorem zero_sc (k : ℝ) : Fl.fin 0 = (Fl.fin 0).sc k := by simp [Fl.sc]

theorem linear1_scale (k : ℝ) (hk : 0 < k) (P : Option Fl) (Xu Yu vx vy : ℝ) :
    linear1 (P.map (Fl.sc (k ^ 2))) (k * Xu) (k * Yu) (k ^ 2 * vx) (k ^ 2 * vy) =
      ((linear1 P Xu Yu vx vy).1.sc k, (linear1 P Xu Yu vx vy).2.sc k) := by
  have key : ∀ a b : Fl, utLinci (k * Xu) (k * Yu) 0 0 (a.sc (k ^ 2)).sqrt (b.sc (k ^ 2)).sqrt (.fin 0) (.fin 0) =
      (utLinci Xu Yu 0 0 a.sqrt b.sqrt (.fin 0) (.fin 0)).sc k := by
    intro a b
    rw [Fl.sc_sqrt k hk, Fl.sc_sqrt k hk]
    have := utLinci_scale k hk Xu Yu 0 0 a.sqrt b.sqrt (.fin 0) (.fin 0)
    rwa [mul_zero, ← zero_sc] at this
  cases P with
  | none =>
    simp only [linear1, Option.map_none, Fl.sc_fin, key, Linci.sc, Ci1.sc, Vars.sc, Fl.mul_sc k hk, ← zero_sc]
  | some P =>
    simp only [linear1, Option.map_some, ← mul_add, rescale_scale k hk, key, Linci.sc, Ci1.sc, Vars.sc,
      Fl.mul_sc k hk, ← zero_sc]

theorem linear2_scale (k : ℝ) (hk : 0 < k) (P : Option Fl) (Xu Yu Xv Yv vxu vyu vxv vyv : ℝ) :
    linear2 (P.map (Fl.sc (k ^ 2))) (k * Xu) (k * Yu) (k * Xv) (k * Yv) (k ^ 2 * vxu) (k ^ 2 * vyu) (k ^ 2 * vxv)
      (k ^ 2 * vyv) = ((linear2 P Xu Yu Xv Yv vxu vyu vxv vyv).1.sc k, (linear2 P Xu Yu Xv Yv vxu vyu vxv vyv).2.sc k) := by
  cases P with
  | none =>
    simp only [linear2, Option.map_none, Fl.sc_fin, Fl.sc_sqrt k hk, utLinci2_scale k hk, Linci.sc, Ci1.sc, Vars.sc,
      Fl.mul_sc k hk]
  | some P =>
    simp only [linear2, Option.map_some, ← mul_add, rescale_scale k hk, Fl.sc_fin, Fl.sc_sqrt k hk, utLinci2_scale k hk,
      Linci.sc, Ci1.sc, Vars.sc, Fl.mul_sc k hk]

theorem inferOne_scale (td : Bool) (k : ℝ) (hk : 0 < k) (v : Vars) (Xu Yu Xv Yv : ℝ) (q : InfCon) :
    inferOne td (v.sc k) (k * Xu) (k * Yu) (k * Xv) (k * Yv) q = (inferOne td v Xu Yu Xv Yv q).sc k := by
  have h2 : 0 < k ^ 2 := by positivity
  have key : ∀ a b : Fl, utLinci (k * Xu) (k * Yu) 0 0 (a.sc k) (b.sc k) (.fin 0) (.fin 0) =
      (utLinci Xu Yu 0 0 a b (.fin 0) (.fin 0)).sc k := by
    intro a b
    have := utLinci_scale k hk Xu Yu 0 0 a b (.fin 0) (.fin 0)
    rwa [mul_zero, ← zero_sc] at this
  cases td with
  | true =>
    simp only [inferOne, Vars.sc, if_true, Fl.mul_sc _ h2, Fl.sc_add, Fl.sc_sqrt k hk, utLinci2_scale k hk, Linci.sc,
      Ci1.sc, Fl.mul_sc k hk]
  | false =>
    simp only [inferOne, Vars.sc, Bool.false_eq_true, if_false, Fl.mul_sc _ h2, Fl.sc_add, Fl.sc_sqrt k hk, key, Linci.sc,
      Ci1.sc, Fl.mul_sc k hk, ← zero_sc]

end

end UTide
