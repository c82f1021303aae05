import Verif.Model.LombCall
import Verif.Model.Contracts
import Verif.Lemmas.SpecScale
import Verif.Props.CrossProps

/-!
# C151: only the shape of the data window matters
-/

namespace UTide

namespace Props

noncomputable section

open Classical

theorem windowPower_scale (k : ℝ) (w : List ℝ) : windowPower (w.map (k * ·)) = k ^ 2 * windowPower w := by
  unfold windowPower
  rw [List.map_map, ← sum_mul_left_real, List.map_map]
  congr 1
  refine List.map_congr_left fun x _ => ?_
  simp only [Function.comp]; ring

theorem detrended_window (k : ℝ) (e : List ℂ) (w : List ℝ) :
    detrended e (w.map (k * ·)) = detrended (vscale k e) w := by
  rw [detrended_vscale]
  unfold detrended vscale
  rw [List.zipWith_map_right, List.map_zipWith]
  congr 1
  funext a b
  push_cast; ring

theorem vscale_inv (k : ℝ) (hk : k ≠ 0) (l : List ℂ) :
    vscale ((1 / k ^ 2 : ℝ) : ℂ) (vscale ((k ^ 2 : ℝ) : ℂ) l) = l := by
  unfold vscale
  rw [List.map_map]
  conv_rhs => rw [← List.map_id l]
  refine List.map_congr_left fun z _ => ?_
  simp only [Function.comp, id]
  rw [← mul_assoc, ← Complex.ofReal_mul, one_div_mul_cancel (pow_ne_zero 2 hk)]
  simp

/-- **C151, even sampling.** A window multiplied by a number other than zero gives the same spectrum. -/
theorem C151_even (cplx : Bool) (e : List ℂ) (window : List ℝ) (fs k : ℝ) (hk : k ≠ 0) :
    psd cplx e (window.map (k * ·)) fs = psd cplx e window fs := by
  have h := psd_vscale cplx k e window fs
  have h2 : psd cplx e (window.map (k * ·)) fs = vscale ((1 / k ^ 2 : ℝ) : ℂ) (psd cplx (vscale k e) window fs) := by
    unfold psd
    rw [detrended_window, windowPower_scale]
    dsimp only
    unfold vscale
    rw [List.map_map]
    refine List.map_congr_left fun z _ => ?_
    simp only [Function.comp]
    have : (1 / fs * (1 / (k ^ 2 * windowPower window)) : ℝ) = (1 / k ^ 2) * (1 / fs * (1 / windowPower window)) := by
      by_cases hw : windowPower window = 0
      · simp [hw]
      · by_cases hf : fs = 0
        · simp [hf]
        · field_simp
    rw [this]
    push_cast; ring
  rw [h2, h, vscale_inv k hk]

theorem interp_scale (k x : ℝ) (l : List (ℝ × ℝ)) :
    interp x (l.map fun p => (p.1, k * p.2)) = k * interp x l := by
  induction l with
  | nil => simp [interp]
  | cons a l ih =>
    cases l with
    | nil => simp [interp]
    | cons b l =>
      obtain ⟨x0, f0⟩ := a
      obtain ⟨x1, f1⟩ := b
      simp only [List.map_cons, interp] at ih ⊢
      split
      · rfl
      · split
        · ring
        · exact ih

theorem lombWindow_scale (k : ℝ) (t window : List ℝ) :
    lombWindow t (window.map (k * ·)) = (lombWindow t window).map (k * ·) := by
  unfold lombWindow
  dsimp only
  rw [List.map_map]
  refine List.map_congr_left fun x _ => ?_
  simp only [Function.comp]
  rw [← interp_scale, List.zip_map_right]
  rfl

theorem psdLomb_window {N : Num} (k : ℝ) (hk : k ≠ 0) (t : List ℝ) (x : List ℂ)
    (window freq : List ℝ) :
    psdLomb N t x (window.map (k * ·)) freq =
      (psdLomb N t (vscale k x) window freq).map (Spectra.sc ((1 / k ^ 2 : ℝ) : ℂ)) := by
  have hx : ∀ w : List ℝ, List.zipWith (fun z (w : ℝ) => z * (w : ℂ)) (x.map fun z => z - cmean x) (w.map (k * ·)) =
      List.zipWith (fun z (w : ℝ) => z * (w : ℂ)) ((vscale k x).map fun z => z - cmean (vscale k x)) w := by
    intro w
    rw [cmean_vscale]
    unfold vscale
    rw [List.map_map, List.zipWith_map_left, List.zipWith_map_left, List.zipWith_map_right]
    congr 1
    funext a b
    simp only [Function.comp]
    push_cast; ring
  have hn : ∀ a b c d : ℝ, 2 * a * b / (k ^ 2 * c) = (1 / k ^ 2) * (2 * a * b / c) := by
    intro a b c d
    by_cases hc : c = 0
    · simp [hc]
    · field_simp
  unfold psdLomb
  simp only [lombWindow_scale, hx, windowPower_scale, vscale_length]
  split
  · rfl
  · simp only [Except.map, Spectra.sc, Except.ok.injEq, Spectra.mk.injEq]
    refine ⟨?_, ?_, ?_⟩
    all_goals
      conv_rhs => rw [vscale, List.map_map]
      refine List.map_congr_left fun f hf => ?_
      simp only [Function.comp]
      rw [hn _ _ _ 0]
      push_cast; ring

/-- **C151, uneven sampling.** The same for the Lomb-Scargle spectra, for any frequencies and oversampling. -/
theorem C151_uneven {N : Num} (hN : LombOk N.lombscargle) (t : List ℝ) (x : List ℂ) (window : List ℝ)
    (freq : Option (List ℝ)) (ofac : ℕ) (k : ℝ) (hk : k ≠ 0) (hl : t.length = x.length) :
    psdLombCall N t x (some (window.map (k * ·))) freq ofac = psdLombCall N t x (some window) freq ofac := by
  unfold psdLombCall
  dsimp only
  rw [psdLomb_window k hk, psdLomb_vscale hN k t x window _ hl]
  cases psdLomb N t x window (psdLombF t freq ofac) with
  | error e => rfl
  | ok s =>
    simp only [Except.map, Spectra.sc, vscale_inv k hk]

theorem interp_const (c x : ℝ) (l : List (ℝ × ℝ)) (hne : l ≠ []) (h : ∀ p ∈ l, p.2 = c) : interp x l = c := by
  induction l with
  | nil => exact absurd rfl hne
  | cons a l ih =>
    cases l with
    | nil => obtain ⟨x0, f0⟩ := a; simpa [interp] using h
    | cons b l =>
      obtain ⟨x0, f0⟩ := a
      obtain ⟨x1, f1⟩ := b
      have h0 : f0 = c := h (x0, f0) (by simp)
      have h1 : f1 = c := h (x1, f1) (by simp)
      have hi := ih (by simp) fun p hp => h p (List.mem_cons_of_mem _ hp)
      simp only [interp]
      split
      · exact h0
      · split
        · rw [h0, h1]; ring
        · exact hi

theorem lombWindow_const (c : ℝ) (t : List ℝ) : lombWindow t (List.replicate t.length c) = t.map fun _ => c := by
  unfold lombWindow
  dsimp only
  refine List.map_congr_left fun x hx => interp_const c x _ ?_ ?_
  · intro h
    have := congrArg List.length h
    simp [linspace] at this
    exact absurd this (List.ne_nil_of_mem hx)
  · intro p hp
    have := (List.of_mem_zip hp).2
    exact (List.mem_replicate.1 this).2

/-- **C151, no window.** Leaving out the window is the same as a window of ones, hence as any constant window. -/
theorem C151_none {N : Num} (hN : LombOk N.lombscargle) (t : List ℝ) (x : List ℂ) (freq : Option (List ℝ)) (ofac : ℕ)
    (k : ℝ) (hk : k ≠ 0) (hl : t.length = x.length) :
    psdLombCall N t x none freq ofac = psdLombCall N t x (some (List.replicate t.length k)) freq ofac := by
  have hr : List.replicate t.length k = (List.replicate t.length (1 : ℝ)).map (k * ·) := by simp
  rw [hr, C151_uneven hN t x _ freq ofac k hk hl]
  have hz : List.zipWith (fun z (w : ℝ) => z * (w : ℂ)) (x.map fun z => z - cmean x) (t.map fun _ => (1 : ℝ)) =
      x.map fun z => z - cmean x := by
    apply List.ext_getElem
    · simp [hl]
    · intro i h1 h2
      simp
  unfold psdLombCall psdLomb
  dsimp only
  simp only [lombWindow_const, hz]
  split <;> rfl

/-- **C151, frequencies.** Leaving out the frequencies is the same as giving those of the (over)sampled grid; given
frequencies are used and returned as they are, whatever the oversampling factor. -/
theorem C151_frequencies (N : Num) (t : List ℝ) (x : List ℂ) (window : Option (List ℝ)) (F : List ℝ) (ofac ofac' : ℕ) :
    psdLombCall N t x window none ofac = psdLombCall N t x window (some (psdLombF t none ofac)) ofac' ∧
      (∀ r, psdLombCall N t x window (some F) ofac = .ok r → r.1 = F) := by
  refine ⟨rfl, ?_⟩
  intro r hr
  unfold psdLombCall at hr
  cases window with
  | some W =>
    dsimp only [psdLombF, Option.getD_some] at hr
    cases hp : psdLomb N t x W F with
    | error e => rw [hp] at hr; simp [Except.map] at hr
    | ok s =>
      rw [hp] at hr
      rw [← Except.ok.inj hr]
  | none =>
    dsimp only [psdLombF, Option.getD_some] at hr
    split at hr
    · exact absurd hr (by simp)
    · rw [← Except.ok.inj hr]

/-- Non-vacuity: four samples at irregular times, three cycles in sixteen hours: both calls return. -/
example (N : Num) : ∃ r, psdLombCall N [0, 1, 2, 4] [1, -1, 2, 0] none (some [3 / 16]) 1 = .ok r := by
  obtain ⟨h1, h2⟩ := irregular_sums (3 / 16 * 2 * Real.pi) rfl
  unfold psdLombCall psdLombF
  simp [h1, h2]

end

end Props

end UTide
