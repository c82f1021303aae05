import Verif.Lemmas.Dft
import Verif.Props.GridProps
import Mathlib.Algebra.Order.BigOperators.Ring.Finset

/-!
# C60, C61: spectra
-/

namespace UTide

namespace Props

noncomputable section

open Classical
open Complex (I)

local notation "conj" => starRingEnd ℂ

/-- Specification: the mean of a series. -/
def meanOf (x : List ℝ) : ℝ := x.sum / x.length

/-- Specification: the series without its mean, tapered. -/
def tapered (x w : List ℝ) : List ℝ := List.zipWith (fun a b => (a - meanOf x) * b) x w

/-- Specification: sum of squares. -/
def energy (x : List ℝ) : ℝ := (x.map fun a => a ^ 2).sum

theorem cmean_re (e : List ℂ) : (cmean e).re = meanOf (e.map Complex.re) := by
  unfold cmean meanOf
  rw [show ((e.length : ℂ)) = ((e.length : ℝ) : ℂ) by simp, Complex.div_ofReal_re, List.length_map]
  congr 1
  exact map_list_sum Complex.reAddGroupHom e

theorem cmean_im (e : List ℂ) : (cmean e).im = meanOf (e.map Complex.im) := by
  unfold cmean meanOf
  rw [show ((e.length : ℂ)) = ((e.length : ℝ) : ℂ) by simp, Complex.div_ofReal_im, List.length_map]
  congr 1
  exact map_list_sum Complex.imAddGroupHom e

theorem detrended_re (e : List ℂ) (w : List ℝ) :
    (detrended e w).map Complex.re = tapered (e.map Complex.re) w := by
  unfold detrended tapered
  rw [List.map_zipWith, List.zipWith_map_left]
  congr 1
  funext a b
  simp [cmean_re]

theorem detrended_im (e : List ℂ) (w : List ℝ) :
    (detrended e w).map Complex.im = tapered (e.map Complex.im) w := by
  unfold detrended tapered
  rw [List.map_zipWith, List.zipWith_map_left]
  congr 1
  funext a b
  simp [cmean_im]

/-- Weight of a one-sided frequency. -/
def sided (m k : ℕ) : ℝ := if 1 ≤ k ∧ k < m then 2 else 1

theorem sided_pos (m k : ℕ) : 0 < sided m k := by unfold sided; split <;> norm_num

theorem doubleInner_range (m : ℕ) (g : ℕ → ℂ) :
    doubleInner ((List.range (m + 1)).map g) = (List.range (m + 1)).map fun k => (sided m k : ℂ) * g k := by
  unfold doubleInner sided
  apply List.ext_getElem
  · simp
  · intro k h1 h2
    have hk : k < m + 1 := by simpa using h2
    simp only [List.getElem_map, List.getElem_zipIdx, List.getElem_range, List.length_map, List.length_range,
      Nat.zero_add]
    by_cases h : 1 ≤ k ∧ k < m
    · rw [if_pos ⟨h.1, by omega⟩, if_pos h]; norm_num
    · rw [if_neg (fun hc => h ⟨hc.1, by omega⟩), if_neg h]; norm_num

theorem tapered_length (x w : List ℝ) (h : w.length = x.length) : (tapered x w).length = x.length := by
  unfold tapered; simp [h]

/-- `_psd` of a real series, value by value. -/
theorem psd_auto (e : List ℂ) (w : List ℝ) (fs : ℝ) (m : ℕ) (he : e.length = 2 * m) (hw : w.length = e.length) :
    psd false e w fs = (List.range (m + 1)).map fun k =>
      (((1 / fs) * (1 / energy w) * (sided m k * ‖dft (tapered (e.map Complex.re) w) k‖ ^ 2) : ℝ) : ℂ) := by
  have hl : (tapered (e.map Complex.re) w).length / 2 + 1 = m + 1 := by
    rw [tapered_length _ _ (by simpa using hw), List.length_map, he]; omega
  unfold psd
  simp only [Bool.false_eq_true, if_false, detrended_re, rfft, hl, List.map_map]
  rw [doubleInner_range, List.map_map]
  refine List.map_congr_left fun k _ => ?_
  simp only [Function.comp]
  unfold windowPower energy
  push_cast
  ring

/-- `_psd` of a complex series, value by value. -/
theorem psd_cross (e : List ℂ) (w : List ℝ) (fs : ℝ) (m : ℕ) (he : e.length = 2 * m) (hw : w.length = e.length) :
    psd true e w fs = (List.range (m + 1)).map fun k =>
      (((1 / fs) * (1 / energy w) : ℝ) : ℂ) * ((sided m k : ℂ) *
        (conj (dft (tapered (e.map Complex.re) w) k) * dft (tapered (e.map Complex.im) w) k)) := by
  have hl : (tapered (e.map Complex.re) w).length / 2 + 1 = m + 1 := by
    rw [tapered_length _ _ (by simpa using hw), List.length_map, he]; omega
  have hl' : (tapered (e.map Complex.im) w).length / 2 + 1 = m + 1 := by
    rw [tapered_length _ _ (by simpa using hw), List.length_map, he]; omega
  unfold psd
  simp only [if_true, detrended_re, detrended_im, rfft, hl, hl', List.zipWith_map, List.zipWith_self]
  rw [doubleInner_range, List.map_map]
  refine List.map_congr_left fun k _ => ?_
  simp only [Function.comp]
  unfold windowPower energy
  push_cast
  ring

theorem map_re_sum (l : List ℕ) (g : ℕ → ℝ) : (((l.map fun k => ((g k : ℝ) : ℂ)).sum).re) = (l.map g).sum := by
  have h1 := map_list_sum Complex.reAddGroupHom (l.map fun k => ((g k : ℝ) : ℂ))
  rw [List.map_map] at h1
  exact h1

/-- **C60, Parseval.** For a real series of even length, every window with a non-zero weight and every sampling
frequency `fs`, the one-sided spectral density consists of non-negative real values (for `fs > 0`) and its sum
times the frequency step `fs / n` is the window-weighted variance. -/
theorem C60_parseval (x w : List ℝ) (fs : ℝ) (m : ℕ) (hm : 1 ≤ m) (hx : x.length = 2 * m) (hw : w.length = x.length)
    (hfs : 0 < fs) (hw0 : ∃ a ∈ w, a ≠ 0) :
    (psd false (x.map fun a : ℝ => (a : ℂ)) w fs).length = m + 1 ∧
    (∀ v ∈ psd false (x.map fun a : ℝ => (a : ℂ)) w fs, v.im = 0 ∧ 0 ≤ v.re) ∧
    ((psd false (x.map fun a : ℝ => (a : ℂ)) w fs).sum).re * (fs / x.length) = energy (tapered x w) / energy w := by
  have e : (x.map fun a : ℝ => (a : ℂ)).map Complex.re = x := by simp [List.map_map, Function.comp_def]
  have hE : 0 < energy w := by
    unfold energy
    obtain ⟨a, ha, ha0⟩ := hw0
    have h1 : a ^ 2 ≤ (w.map fun a => a ^ 2).sum :=
      List.single_le_sum (by intro y hy; obtain ⟨b, -, rfl⟩ := List.mem_map.1 hy; positivity) _
        (List.mem_map.2 ⟨a, ha, rfl⟩)
    have : 0 < a ^ 2 := by positivity
    linarith
  rw [psd_auto _ w fs m (by simpa using hx) (by simpa using hw), e]
  refine ⟨by simp, ?_, ?_⟩
  · intro v hv
    obtain ⟨k, -, rfl⟩ := List.mem_map.1 hv
    refine ⟨Complex.ofReal_im _, ?_⟩
    rw [Complex.ofReal_re]
    have := sided_pos m k
    positivity
  · rw [map_re_sum]
    rw [show ((List.range (m + 1)).map fun k => (1 / fs) * (1 / energy w) * (sided m k * ‖dft (tapered x w) k‖ ^ 2)).sum
      = ∑ k ∈ Finset.range (m + 1), (1 / fs) * (1 / energy w) * (sided m k * ‖dft (tapered x w) k‖ ^ 2) from by
        rw [Finset.sum_range, ← List.sum_ofFn, List.ofFn_eq_map, ← List.map_coe_finRange_eq_range, List.map_map]; rfl]
    rw [← Finset.mul_sum]
    have hp := dft_onesided (tapered x w) m (by rw [tapered_length _ _ hw, hx]) (by omega)
    have hp' : ∑ k ∈ Finset.range (m + 1), sided m k * ‖dft (tapered x w) k‖ ^ 2 =
        (x.length : ℝ) * energy (tapered x w) := by
      rw [← tapered_length x w hw]
      exact hp
    rw [hp']
    have hn : (x.length : ℝ) ≠ 0 := by rw [hx]; positivity
    field_simp

/-- Specification: the periodic Hann taper. -/
def hannTaper (n : ℕ) : List ℝ := (List.range n).map fun k : ℕ => Real.sin (Real.pi * k / n) ^ 2

theorem hann_eq (n : ℕ) : hann n = hannTaper n := by
  unfold hann hannTaper
  refine List.map_congr_left fun k _ => ?_
  rw [Real.sin_sq_eq_half_sub]
  rw [show 2 * (Real.pi * (k : ℝ) / n) = 2 * Real.pi * k / n by ring]
  ring

theorem hannTaper_pos (n : ℕ) (hn : 2 ≤ n) : ∃ a ∈ hannTaper n, a ≠ 0 := by
  refine ⟨_, List.mem_map.2 ⟨1, List.mem_range.2 (by omega), rfl⟩, ?_⟩
  have hn' : (2 : ℝ) ≤ n := by exact_mod_cast hn
  have : 0 < Real.sin (Real.pi * ((1 : ℕ) : ℝ) / n) := by
    apply Real.sin_pos_of_pos_of_lt_pi
    · have := Real.pi_pos; positivity
    · rw [div_lt_iff₀ (by linarith)]
      have := Real.pi_pos
      push_cast
      nlinarith
  positivity

/-- **C60, in `band_psd`.** On an evenly sampled axis (two or more, an even number of samples, positive step) the
auto-spectra of `u` and `v` before band averaging are real and non-negative, there are `n/2 + 1` frequencies from 0
in steps of `1 / (n dt)`, `dt` in hours, and the sum of the densities times the frequency step is the variance of
the series tapered with a Hann window. -/
theorem C60_band_psd (N : Num) (t : List ℝ) (e : List ℂ) (s : Spectra) (f : List ℝ) (m : ℕ) (hm : 1 ≤ m)
    (he : e.length = 2 * m) (hdt : t.getD 0 0 < t.getD 1 0) (h : bandSpectra N t e true = .ok (s, f)) :
    f.length = m + 1 ∧ (∀ k, k ≤ m → f.getD k 0 = k / (e.length * (24 * (t.getD 1 0 - t.getD 0 0)))) ∧
    s.Pxx.length = m + 1 ∧ s.Pyy.length = m + 1 ∧
    (∀ z ∈ s.Pxx ++ s.Pyy, z.im = 0 ∧ 0 ≤ z.re) ∧
    s.Pxx.sum.re * (f.getD 1 0 - f.getD 0 0) =
      energy (tapered (e.map Complex.re) (hannTaper e.length)) / energy (hannTaper e.length) ∧
    s.Pyy.sum.re * (f.getD 1 0 - f.getD 0 0) =
      energy (tapered (e.map Complex.im) (hannTaper e.length)) / energy (hannTaper e.length) := by
  unfold bandSpectra at h
  simp only [if_true] at h
  rcases t with _ | ⟨t0, _ | ⟨t1, l⟩⟩
  · cases h
  · cases h
  simp only [List.getD_cons_zero, List.getD_cons_succ] at hdt ⊢
  have hpos : 0 < 24 * (t1 - t0) := by linarith
  simp only [if_neg hpos.ne', Except.ok.injEq, Prod.mk.injEq] at h
  obtain ⟨rfl, rfl⟩ := h
  have hn2 : e.length / 2 = m := by omega
  have hf : ∀ k, k ≤ m → ((List.range (e.length / 2 + 1)).map fun k : ℕ => (k : ℝ) /
      (e.length * (24 * (t1 - t0)))).getD k 0 = k / (e.length * (24 * (t1 - t0))) := by
    intro k hk
    rw [List.getD_eq_getElem _ _ (by simp [hn2]; omega)]
    simp
  have hstep : ((List.range (e.length / 2 + 1)).map fun k : ℕ => (k : ℝ) / (e.length * (24 * (t1 - t0)))).getD 1 0 -
      ((List.range (e.length / 2 + 1)).map fun k : ℕ => (k : ℝ) / (e.length * (24 * (t1 - t0)))).getD 0 0 =
      1 / (24 * (t1 - t0)) / e.length := by
    rw [hf 1 hm, hf 0 (by omega)]
    push_cast
    rw [zero_div, sub_zero, div_div, mul_comm]
  have hlen : (hann e.length).length = e.length := by simp [hann]
  obtain ⟨a1, a2, a3⟩ := C60_parseval (e.map Complex.re) (hann e.length) (1 / (24 * (t1 - t0))) m hm (by simpa using he)
    (by simpa using hlen) (by positivity) (by rw [hann_eq]; exact hannTaper_pos _ (by omega))
  obtain ⟨b1, b2, b3⟩ := C60_parseval (e.map Complex.im) (hann e.length) (1 / (24 * (t1 - t0))) m hm (by simpa using he)
    (by simpa using hlen) (by positivity) (by rw [hann_eq]; exact hannTaper_pos _ (by omega))
  rw [List.map_map] at a1 a2 a3 b1 b2 b3
  rw [List.length_map, hann_eq] at a3 b3
  rw [hann_eq] at a1 a2 b1 b2
  refine ⟨by simp [hn2], hf, ?_, ?_, ?_, ?_, ?_⟩
  · rw [hann_eq]; exact a1
  · rw [hann_eq]; exact b1
  · intro z hz
    rw [hann_eq] at hz
    rcases List.mem_append.1 hz with hz | hz
    · exact a2 z hz
    · exact b2 z hz
  · rw [hstep, hann_eq]; exact a3
  · rw [hstep, hann_eq]; exact b3

/-- Non-vacuity: four hourly samples. -/
example (N : Num) : ∃ s f, bandSpectra N [0, 1 / 24, 2 / 24, 3 / 24] [1, 2 + I, -I, 0] true = .ok (s, f) := by
  have hd : ¬ ((24 : ℝ) * (1 / 24 - 0) = 0) := by norm_num
  unfold bandSpectra
  simp only [if_true, if_neg hd]
  exact ⟨_, _, rfl⟩

end

end Props

end UTide
