import Verif.Props.CrossProps
import Verif.Lemmas.Lomb
import Verif.Lemmas.Ideal

/-!
# C96-C98: the Lomb-Scargle spectra
-/

namespace UTide

namespace Props

noncomputable section

open Classical
open Complex (I)

local notation "conj" => starRingEnd ℂ

/-! ## C97: the origin of time -/

/-- The transform at the sample times. -/
def timeSum (t x : List ℝ) (w : ℝ) : ℂ :=
  (List.zipWith (fun y z : ℝ => (z : ℂ) * Complex.exp (((w * y : ℝ) : ℂ) * I)) t x).sum

theorem zip_mk (t x : List ℝ) (f g : ℝ → ℝ → ℝ) :
    (List.zipWith (fun y z => (⟨f y z, g y z⟩ : ℂ)) t x).sum = ⟨(List.zipWith f t x).sum, (List.zipWith g t x).sum⟩ := by
  induction t generalizing x with
  | nil => rfl
  | cons a t ih =>
    cases x with
    | nil => rfl
    | cons b x =>
      simp only [List.zipWith_cons_cons, List.sum_cons, ih]
      rfl

theorem zip_mul_right (t x : List ℝ) (f : ℝ → ℝ → ℂ) (c : ℂ) :
    (List.zipWith (fun y z => f y z * c) t x).sum = (List.zipWith f t x).sum * c := by
  induction t generalizing x with
  | nil => simp
  | cons a t ih =>
    cases x with
    | nil => simp
    | cons b x =>
      simp only [List.zipWith_cons_cons, List.sum_cons, ih]
      ring

theorem ls_timeSum (t x : List ℝ) (w : ℝ) :
    (⟨lsXC t x w, lsXS t x w⟩ : ℂ) = timeSum t x w * Complex.exp (-((lsTau t w : ℝ) : ℂ) * I) := by
  unfold lsXC lsXS timeSum
  rw [← zip_mk, ← zip_mul_right]
  congr 2
  funext y z
  rw [mul_assoc, ← Complex.exp_add, show ((w * y : ℝ) : ℂ) * I + -((lsTau t w : ℝ) : ℂ) * I =
    ((w * y - lsTau t w : ℝ) : ℂ) * I by push_cast; ring, exp_ofReal_I]
  apply Complex.ext <;> simp

theorem timeSum_shift (t x : List ℝ) (w s : ℝ) :
    timeSum (t.map (· + s)) x w = timeSum t x w * Complex.exp (((w * s : ℝ) : ℂ) * I) := by
  unfold timeSum
  rw [List.zipWith_map_left, ← zip_mul_right]
  congr 2
  funext y z
  rw [mul_assoc, ← Complex.exp_add]
  congr 2
  push_cast; ring

theorem exp_pi_int (n : ℤ) : ∃ σ : ℝ, σ ^ 2 = 1 ∧ Complex.exp (-((n * Real.pi : ℝ) : ℂ) * I) = (σ : ℂ) := by
  have e : Complex.exp (-((n * Real.pi : ℝ) : ℂ) * I) = Complex.exp (((((-n : ℤ) : ℝ) * Real.pi : ℝ) : ℂ) * I) := by
    congr 1; push_cast; ring
  refine ⟨Real.cos (((-n : ℤ) : ℝ) * Real.pi), ?_, ?_⟩
  · have h := Real.sin_sq_add_cos_sq (((-n : ℤ) : ℝ) * Real.pi)
    rw [Real.sin_int_mul_pi] at h
    linarith
  · rw [e, exp_ofReal_I, Real.sin_int_mul_pi]
    rfl

/-- A common sign, or a common rotation when the two sums of squares agree. -/
theorem ls_shift_cases (t : List ℝ) (w s : ℝ) :
    (∃ σ : ℝ, σ ^ 2 = 1 ∧ ∀ x, lsXC (t.map (· + s)) x w = σ * lsXC t x w ∧ lsXS (t.map (· + s)) x w = σ * lsXS t x w) ∨
    (lsCC t w = lsSS t w ∧ ∃ r : ℂ, ‖r‖ = 1 ∧ ∀ x, (⟨lsXC (t.map (· + s)) x w, lsXS (t.map (· + s)) x w⟩ : ℂ) =
      ⟨lsXC t x w, lsXS t x w⟩ * r) := by
  by_cases h : phaseSum t w = 0
  · right
    refine ⟨by rw [lsCC_eq, lsSS_eq, h]; simp, Complex.exp (((w * s + lsTau t w - lsTau (t.map (· + s)) w : ℝ) : ℂ) * I),
      Complex.norm_exp_ofReal_mul_I _, fun x => ?_⟩
    rw [ls_timeSum, ls_timeSum, timeSum_shift, mul_assoc, mul_assoc, ← Complex.exp_add, ← Complex.exp_add]
    congr 2
    push_cast; ring
  · left
    obtain ⟨n, hn⟩ := lsTau_shift t w s h
    obtain ⟨σ, h1, h2⟩ := exp_pi_int n
    refine ⟨σ, h1, fun x => ?_⟩
    have e : (⟨lsXC (t.map (· + s)) x w, lsXS (t.map (· + s)) x w⟩ : ℂ) = (σ : ℂ) * ⟨lsXC t x w, lsXS t x w⟩ := by
      rw [ls_timeSum, ls_timeSum, timeSum_shift, hn, ← h2, mul_comm (Complex.exp _) (timeSum t x w * _), mul_assoc,
        mul_assoc, ← Complex.exp_add, ← Complex.exp_add]
      congr 2
      push_cast; ring
    constructor
    · have := congrArg Complex.re e
      simpa using this
    · have := congrArg Complex.im e
      simpa using this

/-- The product of two amplitudes. -/
theorem lsAmp_shift (t x y : List ℝ) (w s : ℝ) :
    lsAmp (t.map (· + s)) x w * conj (lsAmp (t.map (· + s)) y w) = lsAmp t x w * conj (lsAmp t y w) := by
  rcases ls_shift_cases t w s with ⟨σ, h1, h2⟩ | ⟨h0, r, h1, h2⟩
  · have e : ∀ x, lsAmp (t.map (· + s)) x w = (σ : ℂ) * lsAmp t x w := by
      intro x
      unfold lsAmp
      rw [lsCC_shift, lsSS_shift, (h2 x).1, (h2 x).2]
      apply Complex.ext <;> simp <;> ring
    rw [e, e, map_mul, Complex.conj_ofReal]
    have : (σ : ℂ) ^ 2 = 1 := by exact_mod_cast h1
    linear_combination (lsAmp t x w * conj (lsAmp t y w)) * this
  · have e0 : ∀ t x, lsCC t w = lsSS t w →
        lsAmp t x w = ((1 / Real.sqrt (lsCC t w) : ℝ) : ℂ) * ⟨lsXC t x w, lsXS t x w⟩ := by
      intro t x h
      unfold lsAmp
      rw [← h]
      apply Complex.ext <;> simp
    rw [e0 _ x (by rw [lsCC_shift, lsSS_shift, h0]), e0 _ y (by rw [lsCC_shift, lsSS_shift, h0]), e0 t x h0, e0 t y h0,
      h2 x, h2 y, lsCC_shift]
    have hr : r * conj r = 1 := by rw [Complex.mul_conj, Complex.normSq_eq_norm_sq, h1]; norm_num
    simp only [map_mul, Complex.conj_ofReal]
    linear_combination (((1 / Real.sqrt (lsCC t w) : ℝ) : ℂ) * ⟨lsXC t x w, lsXS t x w⟩ *
      (((1 / Real.sqrt (lsCC t w) : ℝ) : ℂ) * conj ⟨lsXC t y w, lsXS t y w⟩)) * hr

theorem lsCross_shift (t : List ℝ) (x : List ℂ) (w s : ℝ) : lsCross (t.map (· + s)) x w = lsCross t x w := by
  rw [lsCross_eq, lsCross_eq, lsAmp_shift]

theorem lomb_shift (ls : List ℝ → List ℝ → ℝ → ℝ) (h : LombOk ls) (t x : List ℝ) (w s : ℝ) (hc : lsCC t w ≠ 0)
    (hs : lsSS t w ≠ 0) (hl : t.length = x.length) : ls (t.map (· + s)) x w = ls t x w := by
  rw [h t x w hc hs hl, h (t.map (· + s)) x w (by rwa [lsCC_shift]) (by rwa [lsSS_shift]) (by simpa using hl),
    ← lsAmp_sq, ← lsAmp_sq]
  congr 1
  have := lsAmp_shift t x x w s
  rw [Complex.mul_conj', Complex.mul_conj'] at this
  exact_mod_cast this

theorem interp_shift (x s : ℝ) (l : List (ℝ × ℝ)) : interp (x + s) (l.map fun p => (p.1 + s, p.2)) = interp x l := by
  induction l with
  | nil => rfl
  | cons p l ih =>
    obtain ⟨x0, f0⟩ := p
    cases l with
    | nil => rfl
    | cons q l =>
      obtain ⟨x1, f1⟩ := q
      simp only [List.map_cons, interp] at ih ⊢
      simp only [add_lt_add_iff_right, ih]
      rw [show x1 + s - (x0 + s) = x1 - x0 by ring, show x + s - (x0 + s) = x - x0 by ring]

theorem foldl_min_shift (t : List ℝ) (a s : ℝ) : (t.map (· + s)).foldl min (a + s) = t.foldl min a + s := by
  induction t generalizing a with
  | nil => rfl
  | cons b t ih =>
    simp only [List.map_cons, List.foldl_cons]
    rw [min_add_add_right, ih]

theorem foldl_max_shift (t : List ℝ) (a s : ℝ) : (t.map (· + s)).foldl max (a + s) = t.foldl max a + s := by
  induction t generalizing a with
  | nil => rfl
  | cons b t ih =>
    simp only [List.map_cons, List.foldl_cons]
    rw [max_add_add_right, ih]

theorem linspace_shift (a b s : ℝ) (n : ℕ) : linspace (a + s) (b + s) n = (linspace a b n).map (· + s) := by
  unfold linspace
  rw [List.map_map]
  refine List.map_congr_left fun k _ => ?_
  simp only [Function.comp]
  rw [show b + s - (a + s) = b - a by ring]
  ring

theorem lombWindow_shift (t window : List ℝ) (s : ℝ) : lombWindow (t.map (· + s)) window = lombWindow t window := by
  cases t with
  | nil => rfl
  | cons a t =>
    unfold lombWindow
    dsimp only
    rw [List.map_map, List.length_map]
    refine List.map_congr_left fun x _ => ?_
    simp only [Function.comp, List.headD_cons]
    rw [show (List.map (· + s) (a :: t)).headD 0 = a + s from rfl, foldl_min_shift, foldl_max_shift, linspace_shift,
      List.zip_map_left]
    exact interp_shift x s _

theorem span_shift (t : List ℝ) (s : ℝ) :
    (t.map (· + s)).getLastD 0 - (t.map (· + s)).headD 0 = t.getLastD 0 - t.headD 0 := by
  cases t with
  | nil => rfl
  | cons a t =>
    have h1 : ∀ l : List ℝ, l ≠ [] → ((l.map (· + s)).getLastD 0) = l.getLastD 0 + s := by
      intro l hl
      rw [List.getLastD_eq_getLast?, List.getLastD_eq_getLast?, List.getLast?_map, List.getLast?_eq_getLast_of_ne_nil hl]
      rfl
    rw [h1 _ (by simp)]
    rw [List.map_cons, List.headD_cons, List.headD_cons]
    ring

theorem psdLomb_shift (N : Num) (hN : LombOk N.lombscargle) (t : List ℝ) (x : List ℂ) (window freq : List ℝ) (s : ℝ)
    (hl : t.length = x.length) : psdLomb N (t.map (· + s)) x window freq = psdLomb N t x window freq := by
  unfold psdLomb
  simp only [lombWindow_shift, span_shift, lsCC_shift, lsSS_shift, lsCross_shift]
  split
  · rfl
  · rename_i h
    have hw : (lombWindow t window).length = t.length := by simp [lombWindow]
    have hlen : t.length = (List.zipWith (fun z (w : ℝ) => z * (w : ℂ)) (x.map fun z => z - cmean x)
        (lombWindow t window)).length := by simp [hw, hl]
    have hf : ∀ f ∈ freq.map (fun f => f * 2 * Real.pi), lsCC t f ≠ 0 ∧ lsSS t f ≠ 0 := by
      intro f hf
      rw [Bool.not_eq_true, List.any_eq_false] at h
      have := h f hf
      simp only [decide_eq_true_eq, not_or] at this
      exact this
    congr 2
    · refine List.map_congr_left fun f hfm => ?_
      rw [lomb_shift _ hN t _ f s (hf f hfm).1 (hf f hfm).2 (by simpa using hlen)]
    · refine List.map_congr_left fun f hfm => ?_
      rw [lomb_shift _ hN t _ f s (hf f hfm).1 (hf f hfm).2 (by simpa using hlen)]

theorem lombFreqs_shift (t : List ℝ) (s : ℝ) : lombFreqs (t.map (· + s)) = lombFreqs t := by
  unfold lombFreqs fourierFreqs
  simp only [span_shift, List.length_map]

theorem bandSpectra_shift (N : Num) (hN : LombOk N.lombscargle) (t : List ℝ) (e : List ℂ) (equi : Bool) (s : ℝ)
    (hl : t.length = e.length) : bandSpectra N (t.map (· + s)) e equi = bandSpectra N t e equi := by
  unfold bandSpectra
  cases equi
  · have ht : (t.map (· + s)).map (fun x => x * 24) = (t.map fun x => x * 24).map (· + s * 24) := by
      rw [List.map_map, List.map_map]
      refine List.map_congr_left fun x _ => ?_
      simp only [Function.comp]
      ring
    simp only [Bool.false_eq_true, if_false]
    rw [ht]
    have h1 : ((t.map fun x => x * 24).map (· + s * 24) = []) = ((t.map fun x => x * 24) = []) := by simp
    have h2 : (((t.map fun x => x * 24).map (· + s * 24)).getLastD 0 = ((t.map fun x => x * 24).map (· + s * 24)).headD 0) =
        ((t.map fun x => x * 24).getLastD 0 = (t.map fun x => x * 24).headD 0) := by
      refine propext ?_
      rw [← sub_eq_zero, span_shift, sub_eq_zero]
    simp only [h1, h2]
    rw [lombFreqs_shift, psdLomb_shift N hN _ _ _ _ _ (by simpa using hl)]
  · simp only [if_true]
    rcases t with _ | ⟨a, _ | ⟨b, t⟩⟩
    · rfl
    · rfl
    · simp only [List.map_cons]
      rw [show b + s - (a + s) = b - a by ring]

/-- **C97.** The band-averaged spectral densities do not depend on the origin of the times: counting the days from
any other instant gives the same densities (and the same failures), evenly sampled or not. -/
theorem C97_origin (N : Num) (hN : LombOk N.lombscargle) (t : List ℝ) (e : List ℂ) (cfrq : List ℝ) (equi : Bool) (s : ℝ)
    (hl : t.length = e.length) : bandPsd N (t.map (· + s)) e cfrq equi = bandPsd N t e cfrq equi := by
  unfold bandPsd
  have h : (if e.length % 2 = 1 then (t.map (· + s)).dropLast else t.map (· + s)) =
      (if e.length % 2 = 1 then t.dropLast else t).map (· + s) := by
    split
    · exact List.map_dropLast.symm
    · rfl
  rw [h, bandSpectra_shift N hN _ _ _ _ (by unfold evenPart; split <;> simp [hl])]

/-! ## C98: the best-fitting sinusoid -/

/-- Specification: what a sinusoid of angular frequency `w` leaves of a series. -/
def sinusoidMisfit (t x : List ℝ) (w a b : ℝ) : ℝ :=
  (List.zipWith (fun y z => (z - (a * Real.cos (w * y) + b * Real.sin (w * y))) ^ 2) t x).sum

theorem misfit_expand (C S : ℝ → ℝ) (a b : ℝ) : ∀ t x : List ℝ, t.length = x.length →
    (List.zipWith (fun y z => (z - (a * C y + b * S y)) ^ 2) t x).sum =
      energy x - 2 * a * (List.zipWith (fun y z => z * C y) t x).sum - 2 * b * (List.zipWith (fun y z => z * S y) t x).sum
        + a ^ 2 * (t.map fun y => C y ^ 2).sum + b ^ 2 * (t.map fun y => S y ^ 2).sum
        + 2 * a * b * (t.map fun y => C y * S y).sum
  | [], [], _ => by simp [energy]
  | y :: t, z :: x, h => by
    have ih := misfit_expand C S a b t x (by simpa using h)
    unfold energy at ih ⊢
    simp only [List.zipWith_cons_cons, List.map_cons, List.sum_cons, ih]
    ring
  | [], _ :: _, h => by simp at h
  | _ :: _, [], h => by simp at h

theorem misfit_tau (t x : List ℝ) (w a b : ℝ) (h : t.length = x.length) :
    sinusoidMisfit t x w (a * Real.cos (lsTau t w) - b * Real.sin (lsTau t w))
      (a * Real.sin (lsTau t w) + b * Real.cos (lsTau t w)) =
    energy x - 2 * a * lsXC t x w - 2 * b * lsXS t x w + a ^ 2 * lsCC t w + b ^ 2 * lsSS t w := by
  have e := misfit_expand (fun y => Real.cos (w * y - lsTau t w)) (fun y => Real.sin (w * y - lsTau t w)) a b t x h
  rw [lsCS_eq, mul_zero, add_zero] at e
  unfold lsXC lsXS lsCC lsSS
  rw [← e]
  unfold sinusoidMisfit
  congr 2
  funext y z
  rw [Real.cos_sub, Real.sin_sub]
  ring

/-- What is left by the best sinusoid. -/
theorem ls_best (t x : List ℝ) (w : ℝ) (h : t.length = x.length) (hc : lsCC t w ≠ 0) (hs : lsSS t w ≠ 0) :
    (∃ a b, sinusoidMisfit t x w a b = energy x - (lsXC t x w ^ 2 / lsCC t w + lsXS t x w ^ 2 / lsSS t w)) ∧
    ∀ a b, energy x - (lsXC t x w ^ 2 / lsCC t w + lsXS t x w ^ 2 / lsSS t w) ≤ sinusoidMisfit t x w a b := by
  have hc' : 0 < lsCC t w := lt_of_le_of_ne (lsCC_nonneg t w) (Ne.symm hc)
  have hs' : 0 < lsSS t w := lt_of_le_of_ne (lsSS_nonneg t w) (Ne.symm hs)
  constructor
  · refine ⟨_, _, (misfit_tau t x w (lsXC t x w / lsCC t w) (lsXS t x w / lsSS t w) h).trans ?_⟩
    field_simp
    ring
  · intro a b
    have hcs := Real.sin_sq_add_cos_sq (lsTau t w)
    set c := Real.cos (lsTau t w) with hcd
    set d := Real.sin (lsTau t w) with hdd
    have e := misfit_tau t x w (a * c + b * d) (b * c - a * d) h
    rw [← hcd, ← hdd, show (a * c + b * d) * c - (b * c - a * d) * d = a by linear_combination a * hcs,
      show (a * c + b * d) * d + (b * c - a * d) * c = b by linear_combination b * hcs] at e
    rw [e]
    generalize a * c + b * d = p
    generalize b * c - a * d = q
    have h1 : lsXC t x w ^ 2 / lsCC t w - 2 * p * lsXC t x w + p ^ 2 * lsCC t w =
        (lsXC t x w - p * lsCC t w) ^ 2 / lsCC t w := by field_simp; ring
    have h2 : lsXS t x w ^ 2 / lsSS t w - 2 * q * lsXS t x w + q ^ 2 * lsSS t w =
        (lsXS t x w - q * lsSS t w) ^ 2 / lsSS t w := by field_simp; ring
    have h3 : 0 ≤ (lsXC t x w - p * lsCC t w) ^ 2 / lsCC t w := by positivity
    have h4 : 0 ≤ (lsXS t x w - q * lsSS t w) ^ 2 / lsSS t w := by positivity
    linarith

/-- Specification: a taper given on an even grid over the record, read off linearly at the sample times. -/
def TaperOn (t window w : List ℝ) : Prop :=
  w.length = t.length ∧ ∀ lo ∈ t, ∀ hi ∈ t, lo < hi → (∀ y ∈ t, lo ≤ y ∧ y ≤ hi) →
    ∀ j < t.length, ∀ (k : ℕ) (θ : ℝ), k + 1 < t.length → 0 ≤ θ → θ ≤ 1 →
      t.getD j 0 = lo + (k + θ) * ((hi - lo) / (t.length - 1)) →
      w.getD j 0 = (1 - θ) * window.getD k 0 + θ * window.getD (k + 1) 0

theorem interp_first (x f : ℝ) (l : List (ℝ × ℝ)) (h : ∀ p ∈ l, x < p.1) : interp x ((x, f) :: l) = f := by
  cases l with
  | nil => rfl
  | cons p l =>
    have := h p (by simp)
    simp [interp, this]

theorem grid_cons (a d : ℝ) (n : ℕ) :
    ((List.range (n + 1)).map fun j : ℕ => a + j * d) = a :: (List.range n).map fun j : ℕ => (a + d) + j * d := by
  rw [List.range_succ_eq_map, List.map_cons, List.map_map]
  congr 1
  · simp
  · refine List.map_congr_left fun j _ => ?_
    simp only [Function.comp, Nat.cast_succ]
    ring

/-- Reading a function off an even grid. -/
theorem interp_grid (d : ℝ) (hd : 0 < d) (θ : ℝ) (h0 : 0 ≤ θ) (h1 : θ ≤ 1) : ∀ (win : List ℝ) (a : ℝ) (k : ℕ),
    k + 1 < win.length → interp (a + (k + θ) * d) (((List.range win.length).map fun j : ℕ => a + j * d).zip win) =
      (1 - θ) * win.getD k 0 + θ * win.getD (k + 1) 0
  | [], _, _, h => by simp at h
  | [_], _, _, h => by simp at h
  | f0 :: f1 :: l, a, 0, _ => by
    simp only [List.length_cons, grid_cons, List.zip_cons_cons, interp, List.getD_cons_zero, List.getD_cons_succ,
      Nat.cast_zero, zero_add]
    rcases h0.eq_or_lt with rfl | h0'
    · simp [hd]
    · have hp : 0 < θ * d := by positivity
      rw [if_neg (by linarith)]
      rcases h1.eq_or_lt with rfl | h1'
      · rw [one_mul, if_neg (by linarith), interp_first]
        · ring
        · intro p hp
          obtain ⟨j, -, hj⟩ := List.mem_map.1 (List.of_mem_zip hp).1
          have : (0 : ℝ) ≤ j * d := by positivity
          linarith
      · rw [if_pos (by nlinarith), show a + d - a = d by ring, show a + θ * d - a = θ * d by ring]
        field_simp
        ring
  | f0 :: f1 :: l, a, k + 1, h => by
    have ih := interp_grid d hd θ h0 h1 (f1 :: l) (a + d) k (by simpa using h)
    have hk : (0 : ℝ) ≤ k := Nat.cast_nonneg k
    have hp : 0 ≤ ((k : ℝ) + θ) * d := by positivity
    simp only [List.length_cons, grid_cons, List.zip_cons_cons, interp, List.getD_cons_succ] at ih ⊢
    rw [show a + (((k + 1 : ℕ) : ℝ) + θ) * d = a + d + (k + θ) * d by push_cast; ring, if_neg (by linarith),
      if_neg (by linarith), ih]

theorem foldl_min_mem (l : List ℝ) (a : ℝ) : l.foldl min a ∈ a :: l ∧ ∀ y ∈ a :: l, l.foldl min a ≤ y := by
  induction l generalizing a with
  | nil => simp
  | cons b l ih =>
    obtain ⟨h1, h2⟩ := ih (min a b)
    simp only [List.foldl_cons]
    refine ⟨?_, ?_⟩
    · rcases List.mem_cons.1 h1 with h | h
      · rw [h]
        rcases min_choice a b with e | e <;> rw [e] <;> simp
      · exact List.mem_cons_of_mem _ (List.mem_cons_of_mem _ h)
    · intro y hy
      rcases List.mem_cons.1 hy with rfl | hy
      · exact (h2 _ List.mem_cons_self).trans (min_le_left _ _)
      rcases List.mem_cons.1 hy with rfl | hy
      · exact (h2 _ List.mem_cons_self).trans (min_le_right _ _)
      · exact h2 y (List.mem_cons_of_mem _ hy)

theorem foldl_max_mem (l : List ℝ) (a : ℝ) : l.foldl max a ∈ a :: l ∧ ∀ y ∈ a :: l, y ≤ l.foldl max a := by
  induction l generalizing a with
  | nil => simp
  | cons b l ih =>
    obtain ⟨h1, h2⟩ := ih (max a b)
    simp only [List.foldl_cons]
    refine ⟨?_, ?_⟩
    · rcases List.mem_cons.1 h1 with h | h
      · rw [h]
        rcases max_choice a b with e | e <;> rw [e] <;> simp
      · exact List.mem_cons_of_mem _ (List.mem_cons_of_mem _ h)
    · intro y hy
      rcases List.mem_cons.1 hy with rfl | hy
      · exact (le_max_left _ _).trans (h2 _ List.mem_cons_self)
      rcases List.mem_cons.1 hy with rfl | hy
      · exact (le_max_right _ _).trans (h2 _ List.mem_cons_self)
      · exact h2 y (List.mem_cons_of_mem _ hy)

theorem lombWindow_taper (t window : List ℝ) (hw : window.length = t.length) : TaperOn t window (lombWindow t window) := by
  refine ⟨by simp [lombWindow], fun lo hlo hi hhi hlt hb j hj k θ hk h0 h1 e => ?_⟩
  have hmn : t.foldl min (t.headD 0) = lo := by
    cases t with
    | nil => simp at hlo
    | cons a l =>
      obtain ⟨m1, m2⟩ := foldl_min_mem (a :: l) a
      have m1' : List.foldl min a (a :: l) ∈ a :: l := by
        rcases List.mem_cons.1 m1 with h | h
        · rw [h]; simp
        · exact h
      exact le_antisymm (m2 lo (List.mem_cons_of_mem _ hlo)) (hb _ m1').1
  have hmx : t.foldl max (t.headD 0) = hi := by
    cases t with
    | nil => simp at hlo
    | cons a l =>
      obtain ⟨m1, m2⟩ := foldl_max_mem (a :: l) a
      have m1' : List.foldl max a (a :: l) ∈ a :: l := by
        rcases List.mem_cons.1 m1 with h | h
        · rw [h]; simp
        · exact h
      exact le_antisymm (hb _ m1').2 (m2 hi (List.mem_cons_of_mem _ hhi))
  have hn : (0 : ℝ) < t.length - 1 := by
    have : (2 : ℝ) ≤ t.length := by exact_mod_cast (show 2 ≤ t.length by omega)
    linarith
  unfold lombWindow
  dsimp only
  rw [hmn, hmx, List.getD_eq_getElem _ _ (by simpa using hj), List.getElem_map]
  rw [List.getD_eq_getElem _ _ hj] at e
  rw [e]
  have := interp_grid ((hi - lo) / (t.length - 1)) (div_pos (by linarith) hn) θ h0 h1 window lo k (by omega)
  unfold linspace
  rw [← hw] at this ⊢
  exact this

/-- Specification: the sum of squares explained by the best sinusoid of angular frequency `w` is `v`. -/
def Explains (t x : List ℝ) (w v : ℝ) : Prop :=
  (∃ a b, sinusoidMisfit t x w a b = energy x - v) ∧ ∀ a b, energy x - v ≤ sinusoidMisfit t x w a b

theorem xdm_re (x : List ℂ) (w : List ℝ) :
    (List.zipWith (fun z (w : ℝ) => z * (w : ℂ)) (x.map fun z => z - cmean x) w).map Complex.re =
      tapered (x.map Complex.re) w := by
  rw [← detrended_re]
  unfold detrended
  rw [List.zipWith_map_left]

theorem xdm_im (x : List ℂ) (w : List ℝ) :
    (List.zipWith (fun z (w : ℝ) => z * (w : ℂ)) (x.map fun z => z - cmean x) w).map Complex.im =
      tapered (x.map Complex.im) w := by
  rw [← detrended_im]
  unfold detrended
  rw [List.zipWith_map_left]

/-- **C98.** On any sample times the two auto-spectra of `_psd_lomb` measure the power explained by the
best-fitting sinusoid. At the `k`-th frequency (cycles per unit time), with `w` the taper
(given on an even grid, read off linearly at the sample times), `W` the sum of its squares, `n` the number of samples
and `dt` the mean step, the density times `W / (n dt)` is the part of the sum of squares of
the tapered series that the best sinusoid of that frequency removes. -/
theorem C98_best_sinusoid (N : Num) (hN : LombOk N.lombscargle) (t : List ℝ) (x : List ℂ) (window freq : List ℝ)
    (s : Spectra) (hl : t.length = x.length) (hwin : window.length = t.length)
    (h : psdLomb N t x window freq = .ok s) :
    s.Pxx.length = freq.length ∧ s.Pyy.length = freq.length ∧ ∃ w, TaperOn t window w ∧
    ∀ k < freq.length, ∃ p q : ℝ,
      Explains t (tapered (x.map Complex.re) w) (2 * Real.pi * freq.getD k 0) p ∧
      Explains t (tapered (x.map Complex.im) w) (2 * Real.pi * freq.getD k 0) q ∧
      s.Pxx.getD k 0 = ((x.length * ((t.getLastD 0 - t.headD 0) / (x.length - 1)) / energy w * p : ℝ) : ℂ) ∧
      s.Pyy.getD k 0 = ((x.length * ((t.getLastD 0 - t.headD 0) / (x.length - 1)) / energy w * q : ℝ) : ℂ) := by
  unfold psdLomb at h
  dsimp only at h
  split at h
  · cases h
  rename_i hf
  simp only [Except.ok.injEq] at h
  subst h
  have hw : (lombWindow t window).length = t.length := by simp [lombWindow]
  refine ⟨by simp, by simp, lombWindow t window, lombWindow_taper t window hwin, fun k hk => ?_⟩
  have e : ∀ g : ℝ → ℂ, ((freq.map fun f => f * 2 * Real.pi).map g).getD k 0 = g (2 * Real.pi * freq.getD k 0) := by
    intro g
    rw [List.getD_eq_getElem _ _ (by simpa using hk), List.getD_eq_getElem _ _ hk]
    simp only [List.getElem_map]
    congr 1
    ring
  have hne : lsCC t (2 * Real.pi * freq.getD k 0) ≠ 0 ∧ lsSS t (2 * Real.pi * freq.getD k 0) ≠ 0 := by
    rw [Bool.not_eq_true, List.any_eq_false] at hf
    have := hf (2 * Real.pi * freq.getD k 0) (List.mem_map.2 ⟨freq.getD k 0, by
      rw [List.getD_eq_getElem _ _ hk]; exact List.getElem_mem hk, by ring⟩)
    simp only [decide_eq_true_eq, not_or] at this
    exact this
  have hlr : t.length = (tapered (x.map Complex.re) (lombWindow t window)).length := by
    rw [tapered_length _ _ (by simp [hw, hl])]; simpa using hl
  have hli : t.length = (tapered (x.map Complex.im) (lombWindow t window)).length := by
    rw [tapered_length _ _ (by simp [hw, hl])]; simpa using hl
  refine ⟨_, _, ls_best t _ _ hlr hne.1 hne.2, ls_best t _ _ hli hne.1 hne.2, ?_, ?_⟩
  · dsimp only
    rw [e, xdm_re, hN _ _ _ hne.1 hne.2 hlr]
    unfold windowPower energy
    push_cast
    ring
  · dsimp only
    rw [e, xdm_im, hN _ _ _ hne.1 hne.2 hli]
    unfold windowPower energy
    push_cast
    ring

/-! ## C96: evenly spaced records -/

/-- Specification: `n` evenly spaced times. -/
def evenTimes (t0 d : ℝ) (n : ℕ) : List ℝ := (List.range n).map fun j : ℕ => t0 + j * d

theorem evenTimes_length (t0 d : ℝ) (n : ℕ) : (evenTimes t0 d n).length = n := by simp [evenTimes]

theorem evenTimes_get (t0 d : ℝ) (n j : ℕ) (h : j < n) : (evenTimes t0 d n).getD j 0 = t0 + j * d :=
  getD_range_map n _ 0 j h

theorem evenTimes_head (t0 d : ℝ) (n : ℕ) (h : 0 < n) : (evenTimes t0 d n).headD 0 = t0 := by
  obtain ⟨n, rfl⟩ := Nat.exists_eq_succ_of_ne_zero h.ne'
  unfold evenTimes
  rw [List.range_succ_eq_map]
  simp

theorem evenTimes_last (t0 d : ℝ) (n : ℕ) (h : 0 < n) : (evenTimes t0 d n).getLastD 0 = t0 + (n - 1) * d := by
  obtain ⟨n, rfl⟩ := Nat.exists_eq_succ_of_ne_zero h.ne'
  unfold evenTimes
  rw [Nat.succ_eq_add_one, List.range_succ, List.map_append]
  simp

theorem evenTimes_step (t0 d : ℝ) (n : ℕ) (h : 2 ≤ n) :
    ((evenTimes t0 d n).getLastD 0 - (evenTimes t0 d n).headD 0) / (n - 1) = d := by
  rw [evenTimes_head _ _ _ (by omega), evenTimes_last _ _ _ (by omega)]
  have : (n : ℝ) - 1 ≠ 0 := by
    have : (2 : ℝ) ≤ n := by exact_mod_cast h
    linarith
  field_simp
  ring

theorem lombWindow_even (t0 d : ℝ) (n : ℕ) (hn : 2 ≤ n) (hd : 0 < d) (window : List ℝ) (hw : window.length = n) :
    lombWindow (evenTimes t0 d n) window = window := by
  obtain ⟨h1, h2⟩ := lombWindow_taper (evenTimes t0 d n) window (by rw [hw, evenTimes_length])
  rw [evenTimes_length] at h1 h2
  have hn' : (2 : ℝ) ≤ n := by exact_mod_cast hn
  have mem : ∀ j < n, t0 + j * d ∈ evenTimes t0 d n := fun j hj => List.mem_map.2 ⟨j, List.mem_range.2 hj, rfl⟩
  have hlo : t0 ∈ evenTimes t0 d n := by simpa using mem 0 (by omega)
  have hhi : t0 + (n - 1) * d ∈ evenTimes t0 d n := by
    have := mem (n - 1) (by omega)
    rwa [Nat.cast_sub (by omega), Nat.cast_one] at this
  have key := h2 t0 hlo (t0 + (n - 1) * d) hhi (by nlinarith) (by
    intro y hy
    obtain ⟨j, hj, rfl⟩ := List.mem_map.1 hy
    have hj' : (j : ℝ) + 1 ≤ n := by exact_mod_cast List.mem_range.1 hj
    have : (0 : ℝ) ≤ j := Nat.cast_nonneg j
    constructor <;> nlinarith)
  have hstep : (t0 + (n - 1) * d - t0) / ((n : ℝ) - 1) = d := by
    have : (n : ℝ) - 1 ≠ 0 := by linarith
    field_simp
    ring
  rw [hstep] at key
  have hget : ∀ j < n, (lombWindow (evenTimes t0 d n) window).getD j 0 = window.getD j 0 := by
    intro j hj
    rcases Nat.lt_or_ge (j + 1) n with h | h
    · have := key j hj j 0 h le_rfl zero_le_one (by rw [evenTimes_get _ _ _ _ hj]; ring)
      rw [this]; ring
    · obtain ⟨i, rfl⟩ := Nat.exists_eq_add_of_le' (show 1 ≤ j by omega)
      have := key (i + 1) hj i 1 (by omega) zero_le_one le_rfl (by
        rw [evenTimes_get _ _ _ _ hj]; push_cast; ring)
      rw [this]; ring
  apply List.ext_getElem (by omega)
  intro j a b
  have := hget j (by omega)
  rwa [List.getD_eq_getElem _ _ a, List.getD_eq_getElem _ _ b] at this

/-- The `k`-th Fourier frequency of `n` samples `d` apart, in radians per unit time. -/
theorem phase_even (t0 d : ℝ) (n k j : ℕ) (hn : n ≠ 0) (hd : d ≠ 0) :
    Complex.exp (((2 * Real.pi * (k / (n * d)) * (t0 + j * d) : ℝ) : ℂ) * I) =
      Complex.exp (((2 * Real.pi * (k / (n * d)) * t0 : ℝ) : ℂ) * I) * (unitRoot n ^ k) ^ j := by
  unfold unitRoot
  rw [← pow_mul, ← Complex.exp_nat_mul, ← Complex.exp_add]
  congr 1
  have h1 : (n : ℂ) ≠ 0 := by exact_mod_cast hn
  have h2 : (d : ℂ) ≠ 0 := by exact_mod_cast hd
  push_cast
  field_simp

theorem phaseSum_even (t0 d : ℝ) (m k : ℕ) (hk : 1 ≤ k) (hkm : k < m) (hd : d ≠ 0) :
    phaseSum (evenTimes t0 d (2 * m)) (2 * Real.pi * (k / ((2 * m : ℕ) * d))) = 0 := by
  unfold phaseSum evenTimes
  rw [List.map_map]
  have e : ∀ j : ℕ, ((fun x : ℝ => Complex.exp (((2 * (2 * Real.pi * (k / ((2 * m : ℕ) * d))) * x : ℝ) : ℂ) * I)) ∘
      fun j : ℕ => t0 + j * d) j =
      Complex.exp (((2 * Real.pi * ((2 * k : ℕ) / ((2 * m : ℕ) * d)) * t0 : ℝ) : ℂ) * I) *
        (unitRoot (2 * m) ^ (2 * k)) ^ j := by
    intro j
    rw [← phase_even t0 d (2 * m) (2 * k) j (by omega) hd]
    simp only [Function.comp]
    congr 1
    push_cast
    ring
  rw [List.map_congr_left fun j _ => e j, List.sum_map_mul_left]
  have hz := unitRoot_prim (2 * m) (by omega)
  have hne : unitRoot (2 * m) ^ (2 * k) ≠ 1 := hz.pow_ne_one_of_pos_of_lt (by omega) (by omega)
  have hg := geom_sum_mul (unitRoot (2 * m) ^ (2 * k)) (2 * m)
  have hpw : (unitRoot (2 * m) ^ (2 * k)) ^ (2 * m) = 1 := by
    rw [← pow_mul, mul_comm (2 * k) (2 * m), pow_mul (unitRoot (2 * m)) (2 * m) (2 * k), hz.pow_eq_one, one_pow]
  rw [hpw, sub_self, mul_eq_zero] at hg
  rcases hg with hg | hg
  · rw [Finset.sum_range, ← List.sum_ofFn, List.ofFn_eq_map] at hg
    rw [← List.map_coe_finRange_eq_range, List.map_map]
    rw [show ((fun i : ℕ => (unitRoot (2 * m) ^ (2 * k)) ^ i) ∘ Fin.val) = fun i : Fin (2 * m) =>
      (unitRoot (2 * m) ^ (2 * k)) ^ (i : ℕ) from rfl, hg, mul_zero]
  · exact absurd (sub_eq_zero.1 hg) hne

theorem timeSum_even (t0 d : ℝ) (x : List ℝ) (k : ℕ) (hx : x.length ≠ 0) (hd : d ≠ 0) :
    timeSum (evenTimes t0 d x.length) x (2 * Real.pi * (k / (x.length * d))) =
      Complex.exp (((2 * Real.pi * (k / (x.length * d)) * t0 : ℝ) : ℂ) * I) * conj (dft x k) := by
  unfold timeSum dft
  have e : List.zipWith (fun y z : ℝ => (z : ℂ) * Complex.exp (((2 * Real.pi * (k / (x.length * d)) * y : ℝ) : ℂ) * I))
      (evenTimes t0 d x.length) x = x.zipIdx.map fun p => Complex.exp (((2 * Real.pi * (k / (x.length * d)) * t0 : ℝ) : ℂ) * I) *
        conj ((p.1 : ℂ) * Complex.exp (-2 * Real.pi * I * p.2 * k / x.length)) := by
    apply List.ext_getElem
    · simp [evenTimes]
    · intro j h1 h2
      simp only [List.getElem_zipWith, List.getElem_map, List.getElem_zipIdx, evenTimes, List.getElem_range, Nat.zero_add]
      rw [phase_even t0 d x.length k j hx hd, map_mul, Complex.conj_ofReal, ← Complex.exp_conj]
      unfold unitRoot
      rw [← pow_mul, ← Complex.exp_nat_mul]
      rw [show conj (-2 * (Real.pi : ℂ) * I * (j : ℂ) * (k : ℂ) / (x.length : ℂ)) =
        ((k * j : ℕ) : ℂ) * (2 * Real.pi * I / x.length) by
          simp only [map_div₀, map_mul, map_neg, Complex.conj_I, Complex.conj_ofReal, map_natCast, map_ofNat]
          push_cast; ring]
      ring
  rw [e, List.sum_map_mul_left]
  congr 1
  have := map_list_sum (starRingEnd ℂ) (x.zipIdx.map fun p => (p.1 : ℂ) * Complex.exp (-2 * Real.pi * I * p.2 * k / x.length))
  rw [List.map_map] at this
  exact this.symm

/-- The amplitudes at a Fourier frequency. -/
theorem ls_even (t0 d : ℝ) (m k : ℕ) (hk : 1 ≤ k) (hkm : k < m) (hd : d ≠ 0) :
    lsCC (evenTimes t0 d (2 * m)) (2 * Real.pi * (k / ((2 * m : ℕ) * d))) = m ∧
    lsSS (evenTimes t0 d (2 * m)) (2 * Real.pi * (k / ((2 * m : ℕ) * d))) = m ∧
    ∃ r : ℂ, ‖r‖ = 1 ∧ ∀ x : List ℝ, x.length = 2 * m →
      lsAmp (evenTimes t0 d (2 * m)) x (2 * Real.pi * (k / ((2 * m : ℕ) * d))) =
        ((1 / Real.sqrt m : ℝ) : ℂ) * (r * conj (dft x k)) := by
  have hp := phaseSum_even t0 d m k hk hkm hd
  have hc : lsCC (evenTimes t0 d (2 * m)) (2 * Real.pi * (k / ((2 * m : ℕ) * d))) = m := by
    rw [lsCC_eq, hp, evenTimes_length]; push_cast; simp
  have hs : lsSS (evenTimes t0 d (2 * m)) (2 * Real.pi * (k / ((2 * m : ℕ) * d))) = m := by
    rw [lsSS_eq, hp, evenTimes_length]; push_cast; simp
  have ht : lsTau (evenTimes t0 d (2 * m)) (2 * Real.pi * (k / ((2 * m : ℕ) * d))) = 0 := by
    rw [lsTau_eq, hp, Complex.arg_zero, mul_zero]
  refine ⟨hc, hs, Complex.exp (((2 * Real.pi * (k / ((2 * m : ℕ) * d)) * t0 : ℝ) : ℂ) * I),
    Complex.norm_exp_ofReal_mul_I _, fun x hx => ?_⟩
  have e := ls_timeSum (evenTimes t0 d (2 * m)) x (2 * Real.pi * (k / ((2 * m : ℕ) * d)))
  rw [ht, Complex.ofReal_zero, neg_zero, zero_mul, Complex.exp_zero, mul_one] at e
  have e2 := timeSum_even t0 d x k (by omega) hd
  rw [hx] at e2
  rw [← e2, ← e]
  unfold lsAmp
  rw [hc, hs]
  apply Complex.ext
  · rw [Complex.re_ofReal_mul]
  · rw [Complex.im_ofReal_mul]

/-- **C96.** On evenly spaced records the two spectral estimators agree: at every Fourier frequency between 0 and
the Nyquist frequency the Lomb-Scargle densities and cross-spectrum of `_psd_lomb` are those of `_psd`, whatever the
window and the time of the first sample. -/
theorem C96_agree (N : Num) (hN : LombOk N.lombscargle) (t0 d : ℝ) (hd : 0 < d) (m : ℕ) (x : List ℂ)
    (hx : x.length = 2 * m) (window freq : List ℝ) (hw : window.length = 2 * m) (hm : 1 ≤ m)
    (hf : ∀ f ∈ freq, ∃ k : ℕ, 1 ≤ k ∧ k < m ∧ f = k / (x.length * d)) :
    ∃ s, psdLomb N (evenTimes t0 d x.length) x window freq = .ok s ∧ s.Pxx.length = freq.length ∧
      s.Pyy.length = freq.length ∧ s.Pxy.length = freq.length ∧
      ∀ i < freq.length, ∀ k : ℕ, 1 ≤ k → k < m → freq.getD i 0 = k / (x.length * d) →
        s.Pxx.getD i 0 = (psd false (x.map fun z => (z.re : ℂ)) window (1 / d)).getD k 0 ∧
        s.Pyy.getD i 0 = (psd false (x.map fun z => (z.im : ℂ)) window (1 / d)).getD k 0 ∧
        s.Pxy.getD i 0 = (psd true x window (1 / d)).getD k 0 := by
  have hxr : (x.length : ℝ) = ((2 * m : ℕ) : ℝ) := by rw [hx]
  have hwin : lombWindow (evenTimes t0 d x.length) window = window :=
    lombWindow_even t0 d _ (by omega) hd window (by omega)
  have key := fun k h1 h2 => ls_even t0 d m k h1 h2 hd.ne'
  have hm0 : (m : ℝ) ≠ 0 := by exact_mod_cast (show m ≠ 0 by omega)
  have hstep := evenTimes_step t0 d x.length (by omega)
  have hok : (freq.map fun f => f * 2 * Real.pi).any (fun f => decide (lsCC (evenTimes t0 d x.length) f = 0 ∨
      lsSS (evenTimes t0 d x.length) f = 0)) = false := by
    rw [List.any_eq_false]
    intro g hg
    obtain ⟨f, hfm, rfl⟩ := List.mem_map.1 hg
    obtain ⟨k, h1, h2, rfl⟩ := hf f hfm
    obtain ⟨c, s, -⟩ := key k h1 h2
    rw [hx, show (k : ℝ) / ((2 * m : ℕ) * d) * 2 * Real.pi = 2 * Real.pi * (k / ((2 * m : ℕ) * d)) by ring, c, s]
    simp [hm0]
  unfold psdLomb
  simp only [hok, hwin, hstep, Bool.false_eq_true, if_false]
  refine ⟨_, rfl, by simp, by simp, by simp, fun i hi k h1 h2 e => ?_⟩
  obtain ⟨c, s, r, hr, hamp⟩ := key k h1 h2
  have eg : ∀ g : ℝ → ℂ, ((freq.map fun f => f * 2 * Real.pi).map g).getD i 0 =
      g (2 * Real.pi * (k / ((2 * m : ℕ) * d))) := by
    intro g
    rw [List.getD_eq_getElem _ _ (by simpa using hi)]
    rw [List.getD_eq_getElem _ _ hi, hx] at e
    simp only [List.getElem_map]
    rw [e]
    congr 1
    ring
  have hlr : (tapered (x.map Complex.re) window).length = 2 * m := by
    rw [tapered_length _ _ (by simp [hw, hx])]; simpa using hx
  have hli : (tapered (x.map Complex.im) window).length = 2 * m := by
    rw [tapered_length _ _ (by simp [hw, hx])]; simpa using hx
  have hside : sided m k = 2 := by unfold sided; rw [if_pos ⟨h1, h2⟩]
  have hsq : (((1 / Real.sqrt m : ℝ) : ℂ)) * ((1 / Real.sqrt m : ℝ) : ℂ) = ((1 / m : ℝ) : ℂ) := by
    rw [← Complex.ofReal_mul, ← sq, div_pow, one_pow, Real.sq_sqrt (Nat.cast_nonneg m)]
  have auto : ∀ y : List ℝ, y.length = 2 * m →
      N.lombscargle (evenTimes t0 d x.length) y (2 * Real.pi * (k / ((2 * m : ℕ) * d))) = 0.5 * (‖dft y k‖ ^ 2 / m) := by
    intro y hy
    rw [hx, hN _ _ _ (by rw [c]; exact hm0) (by rw [s]; exact hm0) (by rw [evenTimes_length, hy]), ← lsAmp_sq,
      hamp y hy, norm_mul, norm_mul, hr, Complex.norm_conj, Complex.norm_real, one_mul, mul_pow, Real.norm_eq_abs, sq_abs,
      div_pow, one_pow, Real.sq_sqrt (Nat.cast_nonneg m)]
    ring
  have er : (x.map fun z => (z.re : ℂ)).map Complex.re = x.map Complex.re := by rw [List.map_map]; rfl
  have ei : (x.map fun z => (z.im : ℂ)).map Complex.re = x.map Complex.im := by rw [List.map_map]; rfl
  have hmC : (m : ℂ) ≠ 0 := by exact_mod_cast hm0
  have hdC : (d : ℂ) ≠ 0 := by exact_mod_cast hd.ne'
  refine ⟨?_, ?_, ?_⟩
  · rw [psd_auto _ window _ m (by simpa using hx) (by simp [hw, hx]), getD_range_map _ _ _ _ (by omega), er]
    dsimp only
    rw [eg, xdm_re, auto _ hlr, hside, hxr]
    unfold windowPower energy
    push_cast
    field_simp
    ring
  · rw [psd_auto _ window _ m (by simpa using hx) (by simp [hw, hx]), getD_range_map _ _ _ _ (by omega), ei]
    dsimp only
    rw [eg, xdm_im, auto _ hli, hside, hxr]
    unfold windowPower energy
    push_cast
    field_simp
    ring
  · rw [psd_cross _ window _ m hx (by simp [hw, hx]), getD_range_map _ _ _ _ (by omega)]
    dsimp only
    rw [eg, lsCross_eq, xdm_re, xdm_im, hside, hxr, hx, hamp _ hlr, hamp _ hli]
    unfold windowPower energy
    have hrr : r * conj r = 1 := by rw [Complex.mul_conj, Complex.normSq_eq_norm_sq, hr]; norm_num
    simp only [map_mul, Complex.conj_ofReal, Complex.conj_conj]
    generalize dft (tapered (x.map Complex.re) window) k = X
    generalize dft (tapered (x.map Complex.im) window) k = Y
    rw [show (0.5 : ℂ) * (((1 / Real.sqrt m : ℝ) : ℂ) * (r * conj X) * (((1 / Real.sqrt m : ℝ) : ℂ) * (conj r * Y))) =
      0.5 * ((((1 / Real.sqrt m : ℝ) : ℂ) * ((1 / Real.sqrt m : ℝ) : ℂ)) * (r * conj r) * (conj X * Y)) by ring, hsq, hrr]
    push_cast
    field_simp
    ring

theorem evenTimes_hours (t0 d : ℝ) (n : ℕ) : (evenTimes t0 d n).map (fun x => x * 24) = evenTimes (24 * t0) (24 * d) n := by
  unfold evenTimes
  rw [List.map_map]
  refine List.map_congr_left fun j _ => ?_
  simp only [Function.comp]
  ring

theorem fourier_even (t0 d : ℝ) (m : ℕ) (hm : 1 ≤ m) :
    fourierFreqs (evenTimes t0 d (2 * m)) = (List.range (m - 1)).map fun k : ℕ => ((k : ℝ) + 1) / ((2 * m : ℕ) * d) := by
  have hs := evenTimes_step t0 d (2 * m) (by omega)
  unfold fourierFreqs
  rw [evenTimes_length]
  dsimp only
  rw [hs, show 2 * m / 2 - 1 = m - 1 by omega]

/-- Records short enough for every band to be sampled at all its Fourier frequencies. -/
theorem slice_few (t0 d : ℝ) (m : ℕ) (hm : 1 ≤ m) (hd : 0 < d) (hT : (2 * m : ℕ) * d ≤ 2490) (b : ℚ × ℚ) (hb : b ∈ freqBands) :
    (bandSlice (fourierFreqs (evenTimes t0 d (2 * m))) b).2 - (bandSlice (fourierFreqs (evenTimes t0 d (2 * m))) b).1 ≤ 500 := by
  have hm' : (0 : ℝ) < ((2 * m : ℕ) : ℝ) := by exact_mod_cast (show 0 < 2 * m by omega)
  have hTp : 0 < ((2 * m : ℕ) : ℝ) * d := by positivity
  have hsort := fourier_sorted (evenTimes t0 d (2 * m)) (by
    rw [evenTimes_head _ _ _ (by omega), evenTimes_last _ _ _ (by omega)]
    have : (2 : ℝ) ≤ ((2 * m : ℕ) : ℝ) := by exact_mod_cast (show 2 ≤ 2 * m by omega)
    nlinarith)
  have hsort' := hsort.imp le_of_lt
  have hget : ∀ i (h : i < (fourierFreqs (evenTimes t0 d (2 * m))).length),
      (fourierFreqs (evenTimes t0 d (2 * m)))[i] = ((i : ℝ) + 1) / ((2 * m : ℕ) * d) := by
    intro i h
    simp only [fourier_even t0 d m hm, List.getElem_map, List.getElem_range]
  have hwidth : (b.2 : ℝ) - b.1 ≤ 1 / 5 := by
    have : b.2 - b.1 ≤ 1 / 5 := by
      revert b
      decide +kernel
    have h := (Rat.cast_le (K := ℝ)).2 this
    push_cast at h
    exact h
  unfold bandSlice
  dsimp only
  generalize fourierFreqs (evenTimes t0 d (2 * m)) = F at *
  by_contra hc
  have hle := searchsorted_le F b.2
  have h1 : searchsorted F b.1 + 500 ≤ searchsorted F b.2 := by omega
  have hi1 : searchsorted F b.2 - 1 < F.length := by omega
  have a1 := (lt_searchsorted F hsort' b.2 _ hi1).1 (by omega)
  have hi0 : searchsorted F b.1 < F.length := by omega
  have a0 := (searchsorted_le_iff F hsort' b.1 _ hi0).1 le_rfl
  rw [hget] at a1 a0
  rw [div_lt_iff₀ hTp] at a1
  rw [le_div_iff₀ hTp] at a0
  have hcast : ((searchsorted F b.2 - 1 : ℕ) : ℝ) + 1 = searchsorted F b.2 := by
    rw [Nat.cast_sub (by omega)]; push_cast; ring
  rw [hcast] at a1
  have h1' : (searchsorted F b.1 : ℝ) + 500 ≤ searchsorted F b.2 := by exact_mod_cast h1
  nlinarith

/-- **C96, in `band_psd`.** For an evenly spaced record of an even number of samples lasting at most 2490 hours,
analysing the residual as irregularly sampled gives, at each of its frequencies, the spectra that the evenly sampled
analysis gives at the same frequency. -/
theorem C96_band_psd (N : Num) (hN : LombOk N.lombscargle) (t0 d : ℝ) (hd : 0 < d) (m : ℕ) (hm : 1 ≤ m) (e : List ℂ)
    (he : e.length = 2 * m) (hT : e.length * (24 * d) ≤ 2490) :
    ∃ s f s' f', bandSpectra N (evenTimes t0 d e.length) e true = .ok (s, f) ∧
      bandSpectra N (evenTimes t0 d e.length) e false = .ok (s', f') ∧
      (∀ x ∈ f, ∀ b ∈ freqBands, (b.1 : ℝ) ≤ x → x < b.2 → 0 < x → x < 1 / (48 * d) → x ∈ f') ∧
      s'.Pxx.length = f'.length ∧ s'.Pyy.length = f'.length ∧ s'.Pxy.length = f'.length ∧
      ∀ i < f'.length, ∃ k < f.length, f'.getD i 0 = f.getD k 0 ∧ s'.Pxx.getD i 0 = s.Pxx.getD k 0 ∧
        s'.Pyy.getD i 0 = s.Pyy.getD k 0 ∧ s'.Pxy.getD i 0 = s.Pxy.getD k 0 := by
  have hd24 : 0 < 24 * d := by linarith
  have hT' : ((2 * m : ℕ) : ℝ) * (24 * d) ≤ 2490 := by rw [← he]; exact hT
  have hn2 : e.length / 2 = m := by omega
  have hpos : (0 : ℝ) < e.length := by exact_mod_cast (show 0 < e.length by omega)
  -- the evenly sampled branch
  have h1 : bandSpectra N (evenTimes t0 d e.length) e true = .ok
      ({ Pxx := psd false (e.map fun z => (z.re : ℂ)) (hann e.length) (1 / (24 * d)),
         Pyy := psd false (e.map fun z => (z.im : ℂ)) (hann e.length) (1 / (24 * d)),
         Pxy := psd true e (hann e.length) (1 / (24 * d)) },
       (List.range (m + 1)).map fun k : ℕ => (k : ℝ) / (e.length * (24 * d))) := by
    obtain ⟨n, hn⟩ : ∃ n, e.length = n + 2 := ⟨e.length - 2, by omega⟩
    have ht : evenTimes t0 d e.length = t0 :: (t0 + d) :: (List.range n).map fun j : ℕ => t0 + d + d + j * d := by
      unfold evenTimes
      rw [hn, grid_cons, grid_cons]
    rw [ht]
    unfold bandSpectra
    simp only [if_true, hn2]
    rw [show t0 + d - t0 = d by ring, if_neg hd24.ne']
  -- the Lomb-Scargle branch
  have hfreq : ∀ x ∈ lombFreqs (evenTimes (24 * t0) (24 * d) e.length),
      ∃ k : ℕ, 1 ≤ k ∧ k < m ∧ x = k / (e.length * (24 * d)) := by
    intro x hx
    obtain ⟨b, hb, hx⟩ := List.mem_flatMap.1 hx
    unfold lombBand at hx
    rw [he] at hx
    dsimp only at hx
    rw [if_neg (by have := slice_few (24 * t0) (24 * d) m hm hd24 hT' b hb; omega)] at hx
    have hx := List.mem_of_mem_take (List.mem_of_mem_drop hx)
    rw [fourier_even _ _ _ hm] at hx
    obtain ⟨k, hk, rfl⟩ := List.mem_map.1 hx
    have := List.mem_range.1 hk
    refine ⟨k + 1, by omega, by omega, ?_⟩
    rw [he]; push_cast; ring
  obtain ⟨s', hs', l1, l2, l3, hval⟩ := C96_agree N hN (24 * t0) (24 * d) hd24 m e he (hann e.length)
    (lombFreqs (evenTimes (24 * t0) (24 * d) e.length)) (by simp [hann, he]) hm hfreq
  have h2 : bandSpectra N (evenTimes t0 d e.length) e false =
      .ok (s', lombFreqs (evenTimes (24 * t0) (24 * d) e.length)) := by
    unfold bandSpectra
    simp only [Bool.false_eq_true, if_false, evenTimes_hours]
    have hne : evenTimes (24 * t0) (24 * d) e.length ≠ [] := by
      intro h
      have := congrArg List.length h
      rw [evenTimes_length] at this
      simp at this
      simp [this] at he
      omega
    have hspan : (evenTimes (24 * t0) (24 * d) e.length).getLastD 0 ≠ (evenTimes (24 * t0) (24 * d) e.length).headD 0 := by
      rw [evenTimes_head _ _ _ (by omega), evenTimes_last _ _ _ (by omega)]
      have : (2 : ℝ) ≤ e.length := by exact_mod_cast (show 2 ≤ e.length by omega)
      nlinarith
    rw [if_neg hne, if_neg hspan, hs']
    rfl
  refine ⟨_, _, s', _, h1, h2, ?_, l1, l2, l3, ?_⟩
  · intro x hx b hb hb1 hb2 hx0 hxn
    obtain ⟨k, hk, rfl⟩ := List.mem_map.1 hx
    have hk1 : 1 ≤ k := by
      rcases Nat.eq_zero_or_pos k with rfl | h
      · simp at hx0
      · exact h
    have hkm : k < m := by
      rw [div_lt_div_iff₀ (by positivity) (by positivity)] at hxn
      have e1 : (e.length : ℝ) = 2 * m := by rw [he]; push_cast; ring
      rw [e1] at hxn
      have : (k : ℝ) < m := by nlinarith
      exact_mod_cast this
    refine List.mem_flatMap.2 ⟨b, hb, ?_⟩
    unfold lombBand
    rw [he]
    dsimp only
    rw [if_neg (by have := slice_few (24 * t0) (24 * d) m hm hd24 hT' b hb; omega)]
    have hsort := (fourier_sorted (evenTimes (24 * t0) (24 * d) (2 * m)) (by
      rw [evenTimes_head _ _ _ (by omega), evenTimes_last _ _ _ (by omega)]
      have : (2 : ℝ) ≤ ((2 * m : ℕ) : ℝ) := by exact_mod_cast (show 2 ≤ 2 * m by omega)
      nlinarith)).imp le_of_lt
    have hi : k - 1 < (fourierFreqs (evenTimes (24 * t0) (24 * d) (2 * m))).length := by
      rw [fourier_even _ _ _ hm]; simp; omega
    have hg : (fourierFreqs (evenTimes (24 * t0) (24 * d) (2 * m)))[k - 1] = k / ((2 * m : ℕ) * (24 * d)) := by
      simp only [fourier_even _ _ _ hm, List.getElem_map, List.getElem_range]
      rw [Nat.cast_sub hk1]; push_cast; ring
    rw [he] at hb1 hb2
    rw [slice_mem]
    refine ⟨k - 1, hi, ⟨?_, ?_⟩, hg⟩
    · unfold bandSlice
      rw [searchsorted_le_iff _ hsort _ _ hi, hg]
      exact hb1
    · have := (lt_searchsorted _ hsort (b.2 : ℝ) _ hi).2 (by rw [hg]; exact hb2)
      unfold bandSlice
      dsimp only
      omega
  · intro i hi
    obtain ⟨k, k1, k2, ek⟩ := hfreq ((lombFreqs (evenTimes (24 * t0) (24 * d) e.length)).getD i 0) (by
      rw [List.getD_eq_getElem _ 0 hi]
      exact List.getElem_mem hi)
    refine ⟨k, by simp; omega, ?_, hval i hi k k1 k2 ek⟩
    rw [ek, getD_range_map _ _ _ _ (by omega)]

/-! ## Examples -/

/-- Four hourly samples: both analyses have the frequency 1/4 cycle per hour. -/
theorem four_hours : ∃ s f s' f', bandSpectra idealNum (evenTimes 5 (1 / 24) 4) [1, I, -1, 2] true = .ok (s, f) ∧
    bandSpectra idealNum (evenTimes 5 (1 / 24) 4) [1, I, -1, 2] false = .ok (s', f') ∧ (1 / 4 : ℝ) ∈ f' ∧
    ∃ i < f'.length, ∃ k < f.length, f'.getD i 0 = 1 / 4 ∧ f.getD k 0 = 1 / 4 ∧ s'.Pxx.getD i 0 = s.Pxx.getD k 0 := by
  obtain ⟨s, f, s', f', h1, h2, h3, -, -, -, h4⟩ := C96_band_psd idealNum idealNum_ok.lomb 5 (1 / 24) (by norm_num) 2
    (by norm_num) [1, I, -1, 2] rfl (by norm_num)
  have hf : (1 / 4 : ℝ) ∈ f := by
    unfold bandSpectra at h1
    simp only [if_true, evenTimes, List.length_cons, List.length_nil, List.range_succ_eq_map, List.range_zero, List.map_cons] at h1
    norm_num at h1
    rw [← h1.2]
    norm_num
  have hmem := h3 (1 / 4) hf (23320 / 100000, 25100 / 100000) (by decide +kernel) (by norm_num) (by norm_num)
    (by norm_num) (by norm_num)
  refine ⟨s, f, s', f', h1, h2, hmem, ?_⟩
  obtain ⟨i, hi, e⟩ := List.mem_iff_getElem.1 hmem
  obtain ⟨k, hk, e1, e2, -⟩ := h4 i hi
  have ei : f'.getD i 0 = 1 / 4 := by rw [List.getD_eq_getElem _ _ hi, e]
  exact ⟨i, hi, k, hk, ei, e1 ▸ ei, e2⟩

example : ∃ s f s' f', bandSpectra idealNum (evenTimes 5 (1 / 24) 4) [1, I, -1, 2] true = .ok (s, f) ∧
    bandSpectra idealNum (evenTimes 5 (1 / 24) 4) [1, I, -1, 2] false = .ok (s', f') ∧ (1 / 4 : ℝ) ∈ f' := by
  obtain ⟨s, f, s', f', h1, h2, h3, -⟩ := four_hours
  exact ⟨s, f, s', f', h1, h2, h3⟩

/-- Counting the days from another instant. -/
example : ∃ P, bandPsd idealNum (evenTimes 5 (1 / 24) 4) [1, I, -1, 2] [1 / 12] false = .ok P ∧
    bandPsd idealNum ((evenTimes 5 (1 / 24) 4).map (· + 100)) [1, I, -1, 2] [1 / 12] false = .ok P := by
  obtain ⟨s, f, s', f', h1, h2, h3, -⟩ := four_hours
  have hne : f' ≠ [] := List.ne_nil_of_mem h3
  have h : ∃ P, bandPsd idealNum (evenTimes 5 (1 / 24) 4) [1, I, -1, 2] [1 / 12] false = .ok P := by
    unfold bandPsd
    simp only [List.length_cons, List.length_nil, evenPart, Nat.reduceAdd, Nat.reduceMod]
    simp only [zero_ne_one, if_false, h2]
    have hfb : ∀ P, ∃ Q, fbndavg P f' [1 / 12] = .ok Q := fun P => ⟨_, by unfold fbndavg; rw [if_neg hne]⟩
    obtain ⟨q1, e1⟩ := hfb s'.Pxx
    obtain ⟨q2, e2⟩ := hfb s'.Pyy
    obtain ⟨q3, e3⟩ := hfb s'.Pxy
    simp only [bind, Except.bind, e1, e2, e3]
    exact ⟨_, rfl⟩
  obtain ⟨P, hP⟩ := h
  exact ⟨P, hP, by rw [C97_origin idealNum idealNum_ok.lomb _ _ _ _ _ rfl]; exact hP⟩

/-- Three irregular samples. -/
theorem three_phase : phaseSum [0, 1, 3] (1 / 4 * 2 * Real.pi) = -1 := by
  unfold phaseSum
  simp only [List.map_cons, List.map_nil, List.sum_cons, List.sum_nil, exp_ofReal_I]
  rw [show 2 * (1 / 4 * 2 * Real.pi) * 0 = (0 : ℝ) by ring, show 2 * (1 / 4 * 2 * Real.pi) * 1 = Real.pi by ring,
    show 2 * (1 / 4 * 2 * Real.pi) * 3 = Real.pi + 2 * Real.pi by ring, Real.cos_add_two_pi, Real.sin_add_two_pi]
  apply Complex.ext <;> simp

example : ∃ s, psdLomb idealNum [0, 1, 3] [1, I, 3] [1, 2, 1] [1 / 4] = .ok s := by
  have hc : lsCC [0, 1, 3] (1 / 4 * 2 * Real.pi) = 2 := by rw [lsCC_eq, three_phase]; norm_num
  have hs : lsSS [0, 1, 3] (1 / 4 * 2 * Real.pi) = 1 := by rw [lsSS_eq, three_phase]; norm_num
  unfold psdLomb
  simp only [List.map_cons, List.map_nil, List.any_cons, List.any_nil, hc, hs]
  norm_num

end

end Props

end UTide
