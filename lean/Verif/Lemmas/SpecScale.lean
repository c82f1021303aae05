import Verif.Lemmas.CiScale

/-!
# Spectra of a record in other units
-/

namespace UTide

noncomputable section

open Classical

local notation "conj" => starRingEnd ℂ

theorem vscale_re (k : ℝ) (x : List ℂ) : (vscale k x).map Complex.re = (x.map Complex.re).map (k * ·) := by
  unfold vscale
  rw [List.map_map, List.map_map]
  exact List.map_congr_left fun z _ => by simp

theorem vscale_im (k : ℝ) (x : List ℂ) : (vscale k x).map Complex.im = (x.map Complex.im).map (k * ·) := by
  unfold vscale
  rw [List.map_map, List.map_map]
  exact List.map_congr_left fun z _ => by simp

theorem vscale_reC (k : ℝ) (x : List ℂ) :
    ((vscale k x).map fun z => (z.re : ℂ)) = vscale k (x.map fun z => (z.re : ℂ)) := by
  unfold vscale
  rw [List.map_map, List.map_map]
  exact List.map_congr_left fun z _ => by simp

theorem vscale_imC (k : ℝ) (x : List ℂ) :
    ((vscale k x).map fun z => (z.im : ℂ)) = vscale k (x.map fun z => (z.im : ℂ)) := by
  unfold vscale
  rw [List.map_map, List.map_map]
  exact List.map_congr_left fun z _ => by simp

theorem vscale_sum (k : ℂ) (x : List ℂ) : (vscale k x).sum = k * x.sum := by
  unfold vscale
  rw [List.sum_map_mul_left, List.map_id']

theorem cmean_vscale (k : ℂ) (x : List ℂ) : cmean (vscale k x) = k * cmean x := by
  unfold cmean
  rw [vscale_sum, vscale_length, mul_div_assoc]

theorem detrended_vscale (k : ℂ) (x : List ℂ) (w : List ℝ) : detrended (vscale k x) w = vscale k (detrended x w) := by
  unfold detrended
  rw [cmean_vscale]
  unfold vscale
  rw [List.zipWith_map_left, List.map_zipWith]
  congr 1
  funext a b
  ring

theorem dft_scale (k : ℝ) (x : List ℝ) (j : ℕ) : dft (x.map (k * ·)) j = k * dft x j := by
  unfold dft
  rw [List.zipIdx_map, List.map_map, ← List.sum_map_mul_left]
  congr 1
  refine List.map_congr_left fun p _ => ?_
  simp only [Function.comp, Prod.map, List.length_map, id]
  push_cast
  ring

theorem rfft_scale (k : ℝ) (x : List ℝ) : rfft (x.map (k * ·)) = vscale k (rfft x) := by
  unfold rfft vscale
  rw [List.map_map, List.length_map]
  exact List.map_congr_left fun j _ => dft_scale k x j

theorem doubleInner_vscale (k : ℂ) (x : List ℂ) : doubleInner (vscale k x) = vscale k (doubleInner x) := by
  unfold doubleInner vscale
  rw [List.zipIdx_map, List.map_map, List.map_map]
  refine List.map_congr_left fun p _ => ?_
  simp only [Function.comp, Prod.map, List.length_map, id]
  split
  · ring
  · rfl

theorem psd_vscale (c : Bool) (k : ℝ) (e : List ℂ) (w : List ℝ) (fs : ℝ) :
    psd c (vscale k e) w fs = vscale ((k ^ 2 : ℝ) : ℂ) (psd c e w fs) := by
  have hout : ∀ cs : List ℂ, ((doubleInner (vscale ((k ^ 2 : ℝ) : ℂ) cs)).map fun z =>
      z * (((1 / fs) * (1 / windowPower w) : ℝ) : ℂ)) = vscale ((k ^ 2 : ℝ) : ℂ) ((doubleInner cs).map fun z =>
        z * (((1 / fs) * (1 / windowPower w) : ℝ) : ℂ)) := by
    intro cs
    rw [doubleInner_vscale]
    unfold vscale
    rw [List.map_map, List.map_map]
    exact List.map_congr_left fun z _ => by simp only [Function.comp]; ring
  unfold psd
  simp only [detrended_vscale, vscale_re, vscale_im, rfft_scale]
  rw [← hout]
  congr 2
  cases c with
  | true =>
    simp only [if_true]
    unfold vscale
    rw [List.zipWith_map, List.map_zipWith]
    congr 1
    funext a b
    rw [map_mul, Complex.conj_ofReal]
    push_cast; ring
  | false =>
    simp only [Bool.false_eq_true, if_false]
    unfold vscale
    rw [List.map_map, List.map_map]
    refine List.map_congr_left fun z _ => ?_
    simp only [Function.comp]
    rw [norm_mul, mul_pow, Complex.norm_real, Real.norm_eq_abs, sq_abs]
    push_cast; ring

theorem sum_mul_left_real (k : ℝ) (l : List ℝ) : (l.map (k * ·)).sum = k * l.sum := by
  rw [List.sum_map_mul_left, List.map_id']

theorem lsXC_scale (k : ℝ) (t x : List ℝ) (w : ℝ) : lsXC t (x.map (k * ·)) w = k * lsXC t x w := by
  unfold lsXC
  rw [List.zipWith_map_right, ← sum_mul_left_real, List.map_zipWith]
  congr 2
  funext a b
  ring

theorem lsXS_scale (k : ℝ) (t x : List ℝ) (w : ℝ) : lsXS t (x.map (k * ·)) w = k * lsXS t x w := by
  unfold lsXS
  rw [List.zipWith_map_right, ← sum_mul_left_real, List.map_zipWith]
  congr 2
  funext a b
  ring

theorem lsCross_vscale (k : ℝ) (t : List ℝ) (x : List ℂ) (w : ℝ) :
    lsCross t (vscale k x) w = ((k ^ 2 : ℝ) : ℂ) * lsCross t x w := by
  unfold lsCross
  simp only [vscale_re, vscale_im, lsXC_scale, lsXS_scale]
  have h1 : ∀ a b c d : ℝ, (⟨a * (k * b), c * (k * d)⟩ : ℂ) = k * ⟨a * b, c * d⟩ := by
    intro a b c d
    apply Complex.ext <;> simp <;> ring
  rw [h1, h1]
  push_cast
  ring

theorem lombscargle_scale {N : Num} (hN : LombOk N.lombscargle) (k : ℝ) (t x : List ℝ) (w : ℝ) (h1 : lsCC t w ≠ 0)
    (h2 : lsSS t w ≠ 0) (hl : t.length = x.length) :
    N.lombscargle t (x.map (k * ·)) w = k ^ 2 * N.lombscargle t x w := by
  rw [hN t _ w h1 h2 (by simpa using hl), hN t x w h1 h2 hl, lsXC_scale, lsXS_scale]
  ring

/-- Spectra times a number. -/
def Spectra.sc (c : ℂ) (s : Spectra) : Spectra := ⟨vscale c s.Pxx, vscale c s.Pyy, vscale c s.Pxy⟩

theorem psdLomb_vscale {N : Num} (hN : LombOk N.lombscargle) (k : ℝ) (t : List ℝ) (x : List ℂ) (window freq : List ℝ)
    (hl : t.length = x.length) :
    psdLomb N t (vscale k x) window freq = (psdLomb N t x window freq).map (Spectra.sc ((k ^ 2 : ℝ) : ℂ)) := by
  have hx : ∀ w : List ℝ, List.zipWith (fun z (w : ℝ) => z * (w : ℂ)) ((vscale k x).map fun z => z - cmean (vscale k x)) w =
      vscale k (List.zipWith (fun z (w : ℝ) => z * (w : ℂ)) (x.map fun z => z - cmean x) w) := by
    intro w
    rw [cmean_vscale]
    unfold vscale
    rw [List.map_map, List.zipWith_map_left, List.zipWith_map_left, List.map_zipWith]
    congr 1
    funext a b
    simp only [Function.comp]
    ring
  unfold psdLomb
  simp only [hx, vscale_re, vscale_im, vscale_length]
  split
  · rfl
  · next hg =>
    have hg' : ∀ f ∈ freq.map fun f => f * 2 * Real.pi, lsCC t f ≠ 0 ∧ lsSS t f ≠ 0 := by
      intro f hf
      simp only [List.any_eq_true, decide_eq_true_eq, not_exists, not_and, not_or] at hg
      exact hg f hf
    simp only [Except.map, Spectra.sc, Except.ok.injEq, Spectra.mk.injEq]
    have hlen : ∀ g : ℂ → ℝ, t.length = ((List.zipWith (fun z (w : ℝ) => z * (w : ℂ)) (x.map fun z => z - cmean x)
        (lombWindow t window)).map g).length := by
      intro g
      simp [lombWindow, hl]
    refine ⟨?_, ?_, ?_⟩
    all_goals
      conv_rhs => rw [vscale, List.map_map]
      refine List.map_congr_left fun f hf => ?_
      simp only [Function.comp]
    · rw [lombscargle_scale hN k t _ f (hg' f hf).1 (hg' f hf).2 (hlen _)]
      push_cast; ring
    · rw [lombscargle_scale hN k t _ f (hg' f hf).1 (hg' f hf).2 (hlen _)]
      push_cast; ring
    · rw [lsCross_vscale]
      push_cast; ring

theorem bandSpectra_vscale {N : Num} (hN : LombOk N.lombscargle) (k : ℝ) (t : List ℝ) (e : List ℂ) (equi : Bool)
    (hl : equi = false → t.length = e.length) :
    bandSpectra N t (vscale k e) equi =
      (bandSpectra N t e equi).map fun s => (s.1.sc ((k ^ 2 : ℝ) : ℂ), s.2) := by
  cases equi with
  | true =>
    unfold bandSpectra
    simp only [if_true, vscale_length]
    split
    · split
      · rfl
      · simp only [Except.map, vscale_reC, vscale_imC, psd_vscale, Spectra.sc]
    · rfl
  | false =>
    unfold bandSpectra
    simp only [Bool.false_eq_true, if_false, vscale_length]
    split
    · rfl
    · split
      · rfl
      · rw [psdLomb_vscale hN k _ _ _ _ (by simpa using hl rfl)]
        cases psdLomb N (t.map fun x => x * 24) e (hann e.length) (lombFreqs (t.map fun x => x * 24)) <;> rfl

theorem bandValues_vscale (c : ℂ) (P : List ℂ) (freq : List ℝ) (masked : List ℕ) (b : ℚ × ℚ) :
    bandValues (vscale c P) freq masked b = vscale c (bandValues P freq masked b) := by
  unfold bandValues vscale
  simp only [List.zipIdx_map, ← List.map_take, ← List.map_drop, List.filter_map, List.map_map]
  rfl

theorem bandMean_vscale (c : ℂ) (l : List ℂ) : bandMean (vscale c l) = (bandMean l).map (c * ·) := by
  unfold bandMean
  by_cases h : l = []
  · subst h; simp [vscale]
  · rw [if_neg h, if_neg (by simpa [vscale] using h), vscale_sum, vscale_length, mul_div_assoc]
    rfl

theorem fbndavg_vscale (c : ℂ) (P : List ℂ) (freq cfreq : List ℝ) :
    fbndavg (vscale c P) freq cfreq = (fbndavg P freq cfreq).map (List.map (Option.map (c * ·))) := by
  unfold fbndavg
  split
  · rfl
  · simp only [Except.map, List.map_map, bandValues_vscale, bandMean_vscale]
    rfl

/-- Band values times a number. -/
def BandPsd.sc (k : ℝ) (b : BandPsd) : BandPsd :=
  ⟨b.Puu.map (Option.map (((k ^ 2 : ℝ) : ℂ) * ·)), b.Pvv.map (Option.map (((k ^ 2 : ℝ) : ℂ) * ·)),
    b.Puv.map (Option.map (((k ^ 2 : ℝ) : ℂ) * ·))⟩

theorem evenPart_vscale (c : ℂ) (e : List ℂ) : evenPart (vscale c e) = vscale c (evenPart e) := by
  unfold evenPart
  rw [vscale_length]
  split
  · unfold vscale; rw [List.map_dropLast]
  · rfl

theorem bandPsd_vscale {N : Num} (hN : LombOk N.lombscargle) (k : ℝ) (t : List ℝ) (e : List ℂ) (cfrq : List ℝ)
    (equi : Bool) (hl : equi = false → t.length = e.length) :
    bandPsd N t (vscale k e) cfrq equi = (bandPsd N t e cfrq equi).map (BandPsd.sc k) := by
  unfold bandPsd
  rw [evenPart_vscale, vscale_length, bandSpectra_vscale hN k _ _ _ (by
    intro h
    have := hl h
    unfold evenPart
    split <;> simp [this])]
  generalize bandSpectra N (if e.length % 2 = 1 then t.dropLast else t) (evenPart e) equi = r
  cases r with
  | error _ => rfl
  | ok s =>
    obtain ⟨s, f⟩ := s
    simp only [Except.map, ok_bind, Spectra.sc, fbndavg_vscale]
    cases fbndavg s.Pxx f cfrq with
    | error _ => rfl
    | ok a =>
      cases fbndavg s.Pyy f cfrq with
      | error _ => rfl
      | ok b =>
        cases fbndavg s.Pxy f cfrq with
        | error _ => rfl
        | ok d =>
          show Except.ok _ = Except.ok _
          congr 1
          simp only [BandPsd.sc, BandPsd.mk.injEq, true_and, List.map_map]
          refine List.map_congr_left fun z _ => ?_
          cases z with
          | none => rfl
          | some z =>
            simp only [Function.comp, Option.map_some, Option.some.injEq]
            rw [Complex.re_ofReal_mul]
            push_cast; ring

theorem scalePower_scale (k : ℝ) (hk : 0 < k) (df : Fl) (z : Option ℂ) :
    scalePower df (z.map (((k ^ 2 : ℝ) : ℂ) * ·)) = (scalePower df z).sc (k ^ 2) := by
  have h2 : 0 < k ^ 2 := by positivity
  cases z with
  | none => rfl
  | some z =>
    simp only [scalePower, Option.map_some]
    rw [Complex.re_ofReal_mul, Fl.sc_fin]
    have := Fl.sc_mul (k ^ 2) 1 h2 one_pos (Fl.fin z.re) df
    rwa [Fl.sc_one, mul_one] at this

theorem powerAt_scale (k : ℝ) (hk : 0 < k) (P : List (Option ℂ)) (df : Fl) (f : ℝ) :
    powerAt (P.map (Option.map (((k ^ 2 : ℝ) : ℂ) * ·))) df f = (powerAt P df f).sc (k ^ 2) := by
  unfold powerAt
  generalize freqBands = bands
  have : ∀ acc : Fl, ((bands.zip (P.map (Option.map (((k ^ 2 : ℝ) : ℂ) * ·)))).foldl
      (fun acc b => if (b.1.1 : ℝ) ≤ f ∧ f ≤ (b.1.2 : ℝ) then scalePower df b.2 else acc) (acc.sc (k ^ 2))) =
      ((bands.zip P).foldl
      (fun acc b => if (b.1.1 : ℝ) ≤ f ∧ f ≤ (b.1.2 : ℝ) then scalePower df b.2 else acc) acc).sc (k ^ 2) := by
    induction bands generalizing P with
    | nil => intro acc; rfl
    | cons b bands ih =>
      intro acc
      cases P with
      | nil => rfl
      | cons z P =>
        simp only [List.map_cons, List.zip_cons_cons, List.foldl_cons]
        rw [← ih]
        congr 1
        split
        · exact scalePower_scale k hk df z
        · rfl
  have h0 := this (Fl.fin 0)
  rwa [← zero_sc] at h0

theorem interp_scale (k x : ℝ) (l : List (ℝ × ℝ)) :
    interp x (l.map fun p => (p.1, k * p.2)) = k * interp x l := by
  induction l with
  | nil => simp [interp]
  | cons p l ih =>
    obtain ⟨x0, f0⟩ := p
    cases l with
    | nil => rfl
    | cons q l =>
      obtain ⟨x1, f1⟩ := q
      simp only [List.map_cons, interp]
      split
      · rfl
      · split
        · ring
        · exact ih

theorem zip_map_scale (k : ℝ) (t y : List ℝ) : t.zip (y.map (k * ·)) = (t.zip y).map fun p => (p.1, k * p.2) := by
  rw [List.zip_map_right]
  rfl

theorem complexInterp_vscale (k : ℝ) (tin t : List ℝ) (e : List ℂ) :
    complexInterp tin t (vscale k e) = (complexInterp tin t e).map (vscale k) := by
  unfold complexInterp
  split
  · rfl
  · simp only [Except.map, vscale_re, vscale_im, zip_map_scale, interp_scale]
    congr 1
    unfold vscale
    rw [List.map_map]
    refine List.map_congr_left fun x _ => ?_
    apply Complex.ext <;> simp

/-- Powers times `k²`. -/
def Power.sc (k : ℝ) (p : Power) : Power := ⟨p.Puu.map (Fl.sc (k ^ 2)), p.Pvv.map (Fl.sc (k ^ 2)), p.Puv.map (Fl.sc (k ^ 2))⟩

theorem residualPower_vscale {N : Num} (hN : LombOk N.lombscargle) (k : ℝ) (hk : 0 < k) (ed ed' : Edited) (e : List ℂ)
    (frq : List ℝ) (h1 : ed'.t = ed.t) (h2 : ed'.tin = ed.tin) (h3 : ed'.equi = ed.equi) (h4 : ed'.elor = ed.elor)
    (hl : ed.t.length = e.length) :
    residualPower N ed' (vscale k e) frq = (residualPower N ed e frq).map (Power.sc k) := by
  unfold residualPower
  rw [h1, h2, h3, h4]
  have hb : (if ed.equi then do
        let e' ← (if ed.t.length < ed.tin.length then complexInterp ed.tin ed.t (vscale k e) else .ok (vscale k e))
        bandPsd N ed.tin e' frq true
      else bandPsd N ed.t (vscale k e) frq false) =
      (if ed.equi then do
        let e' ← (if ed.t.length < ed.tin.length then complexInterp ed.tin ed.t e else .ok e)
        bandPsd N ed.tin e' frq true
      else bandPsd N ed.t e frq false).map (BandPsd.sc k) := by
    cases ed.equi with
    | true =>
      simp only [if_true]
      split
      · rw [complexInterp_vscale]
        cases complexInterp ed.tin ed.t e with
        | error _ => rfl
        | ok e' => exact bandPsd_vscale hN k _ _ _ _ (by simp)
      · exact bandPsd_vscale hN k _ _ _ _ (by simp)
    | false => exact bandPsd_vscale hN k _ _ _ _ fun _ => hl
  rw [hb]
  generalize (if ed.equi then do
        let e' ← (if ed.t.length < ed.tin.length then complexInterp ed.tin ed.t e else .ok e)
        bandPsd N ed.tin e' frq true
      else bandPsd N ed.t e frq false) = r
  cases r with
  | error _ => rfl
  | ok b =>
    show Except.ok _ = Except.ok _
    congr 1
    simp only [BandPsd.sc, Power.sc, List.map_map, Power.mk.injEq]
    exact ⟨List.map_congr_left fun f _ => powerAt_scale k hk _ _ f, List.map_congr_left fun f _ => powerAt_scale k hk _ _ f,
      List.map_congr_left fun f _ => powerAt_scale k hk _ _ f⟩

/-! ## `_confidence` -/

/-- The arguments of `_confidence` for a record in other units. -/
def ConfIn.sc (k : ℝ) (ed' : Edited) (i : ConfIn) : ConfIn :=
  { i with ed := ed', e := vscale k i.e, xraw := vscale k i.xraw, xmod := vscale k i.xmod,
           Xu := i.Xu.map (k * ·), Yu := i.Yu.map (k * ·), Xv := i.Xv.map (k * ·), Yv := i.Yv.map (k * ·) }

/-- Intervals times `k`. -/
def CiArr.sc (k : ℝ) : CiArr → CiArr
  | .one A g => .one (A.map (Fl.sc k)) g
  | .two a b c d => .two (a.map (Fl.sc k)) (b.map (Fl.sc k)) c d

theorem wdot_scale (a b : ℂ) (x y : List ℂ) (W : List ℝ) : wdot (vscale a x) W (vscale b y) = a * b * wdot x W y := by
  unfold wdot dot vscale
  rw [List.zipWith_map_left, List.zipWith_map_right]
  rw [show (fun x y => a * x * y) = fun (x y : ℂ) => a * (x * y) from by funext x y; ring]
  have : List.zipWith (fun (w : ℝ) (z : ℂ) => (w : ℂ) * (b * z)) W y =
      (List.zipWith (fun (w : ℝ) (z : ℂ) => (w : ℂ) * z) W y).map (b * ·) := by
    rw [List.map_zipWith]
    congr 1
    funext w z
    ring
  rw [this, List.zipWith_map_right]
  have h2 : ∀ l m : List ℂ, List.zipWith (fun x y => a * (x * (b * y))) l m = (List.zipWith (· * ·) l m).map (a * b * ·) := by
    intro l m
    rw [List.map_zipWith]
    congr 1
    funext x y
    ring
  rw [h2, List.sum_map_mul_left, List.map_id']

theorem vscale_conj (k : ℝ) (x : List ℂ) : (vscale k x).map conj = vscale k (x.map conj) := by
  unfold vscale
  rw [List.map_map, List.map_map]
  exact List.map_congr_left fun z _ => by simp

theorem msmNum_scale (k : ℝ) (ed' : Edited) (i : ConfIn) : msmNum (i.sc k ed') = k ^ 2 * msmNum i := by
  unfold msmNum ConfIn.sc
  simp only [vscale_conj, wdot_scale]
  rw [← mul_sub, ← Complex.ofReal_mul, Complex.re_ofReal_mul, pow_two]

theorem pseudoNum_scale (k : ℝ) (ed' : Edited) (i : ConfIn) : pseudoNum (i.sc k ed') = ((k ^ 2 : ℝ) : ℂ) * pseudoNum i := by
  unfold pseudoNum ConfIn.sc
  simp only [wdot_scale]
  push_cast
  ring

theorem covariances_scale (N : Num) (k : ℝ) (ed' : Edited) (i : ConfIn) :
    covariances N (i.sc k ed') = (covariances N i).map fun GH => (((k ^ 2 : ℝ) : ℂ) • GH.1, ((k ^ 2 : ℝ) : ℂ) • GH.2) := by
  unfold covariances
  rw [msmNum_scale, pseudoNum_scale]
  simp only [ConfIn.sc, vscale_length]
  split
  · rfl
  · split
    · simp only [Except.map]
      congr 2
      · rw [smul_add, smul_smul, smul_smul]
        congr 2
        · push_cast; ring
        · ring
      · rw [smul_sub, smul_smul, smul_smul]
        congr 2
        · push_cast; ring
        · ring
    · rfl

theorem block_smul {nm : ℕ} (a : ℂ) (M : Matrix (Fin nm) (Fin nm) ℂ) (nc c : ℕ) :
    block (a • M) nc c = (block M nc c).map (a • ·) := by
  have he : ∀ i j, entry (a • M) i j = (entry M i j).map (a * ·) := by
    intro i j
    unfold entry
    split <;> rfl
  unfold block
  simp only [he]
  cases entry M c c with
  | error _ => rfl
  | ok x =>
    cases entry M c (c + nc) with
    | error _ => rfl
    | ok y =>
      cases entry M (c + nc) c with
      | error _ => rfl
      | ok z =>
        cases entry M (c + nc) (c + nc) with
        | error _ => rfl
        | ok w =>
          show Except.ok _ = Except.ok _
          congr 1
          ext p q
          fin_cases p <;> fin_cases q <;> rfl

theorem varXuOf_smul (r : ℝ) (G : Matrix (Fin 2) (Fin 2) ℂ) : varXuOf ((r : ℂ) • G) = r * varXuOf G := by
  unfold varXuOf
  simp
  ring
theorem varYuOf_smul (r : ℝ) (G : Matrix (Fin 2) (Fin 2) ℂ) : varYuOf ((r : ℂ) • G) = r * varYuOf G := by
  unfold varYuOf
  simp
  ring
theorem varXvOf_smul (r : ℝ) (G : Matrix (Fin 2) (Fin 2) ℂ) : varXvOf ((r : ℂ) • G) = r * varXvOf G := by
  unfold varXvOf
  simp
  ring
theorem varYvOf_smul (r : ℝ) (G : Matrix (Fin 2) (Fin 2) ℂ) : varYvOf ((r : ℂ) • G) = r * varYvOf G := by
  unfold varYvOf
  simp
  ring

theorem getIdx_map {α β : Type} (f : α → β) (l : List α) (n : ℕ) : getIdx (l.map f) n = (getIdx l n).map f := by
  unfold getIdx
  rw [List.getElem?_map]
  cases l[n]? <;> rfl

theorem ciOne_scale (N : Num) (k : ℝ) (hk : 0 < k) (ed' : Edited) (i : ConfIn) (hlin : i.linci = true) (pw : Option Power)
    (GH : Matrix (Fin i.nm) (Fin i.nm) ℂ × Matrix (Fin i.nm) (Fin i.nm) ℂ) (nc c : ℕ) :
    ciOne N (i.sc k ed') (pw.map (Power.sc k)) (((k ^ 2 : ℝ) : ℂ) • GH.1, ((k ^ 2 : ℝ) : ℂ) • GH.2) nc c =
      (ciOne N i pw GH nc c).map fun r => (r.1.sc k, r.2.sc k) := by
  unfold ciOne
  simp only [ConfIn.sc, block_smul, getIdx_map, hlin, if_true]
  cases block GH.1 nc c with
  | error _ => rfl
  | ok G =>
    cases block GH.2 nc c with
    | error _ => rfl
    | ok H =>
      cases getIdx i.Xu c with
      | error _ => rfl
      | ok Xu =>
        cases getIdx i.Yu c with
        | error _ => rfl
        | ok Yu =>
          cases getIdx i.g c with
          | error _ => rfl
          | ok g =>
            cases htd : i.twodim with
            | false =>
              simp only [Except.map, ok_bind, Bool.false_eq_true, if_false, varXuOf_smul, varYuOf_smul]
              cases pw with
              | none =>
                show Except.ok _ = Except.ok _
                congr 1
                exact linear1_scale k hk none _ _ _ _
              | some p =>
                simp only [Option.map_some, Power.sc, getIdx_map]
                cases getIdx p.Puu c with
                | error _ => rfl
                | ok a =>
                  show Except.ok _ = Except.ok _
                  congr 1
                  exact linear1_scale k hk (some a) _ _ _ _
            | true =>
              simp only [Except.map, ok_bind, if_true, varXuOf_smul, varYuOf_smul, varXvOf_smul, varYvOf_smul]
              cases pw with
              | none =>
                cases getIdx i.Xv c with
                | error _ => rfl
                | ok Xv =>
                  cases getIdx i.Yv c with
                  | error _ => rfl
                  | ok Yv =>
                    show Except.ok _ = Except.ok _
                    congr 1
                    exact linear2_scale k hk none _ _ _ _ _ _ _ _
              | some p =>
                simp only [Option.map_some, Power.sc, getIdx_map]
                cases getIdx p.Puu c with
                | error _ => rfl
                | ok a =>
                  cases getIdx i.Xv c with
                  | error _ => rfl
                  | ok Xv =>
                    cases getIdx i.Yv c with
                    | error _ => rfl
                    | ok Yv =>
                      cases getIdx p.Pvv c with
                      | error _ => rfl
                      | ok b =>
                        show Except.ok _ = Except.ok _
                        congr 1
                        exact linear2_scale k hk (some b) _ _ _ _ _ _ _ _

theorem mapM_map_ok {α β γ : Type} (f : α → Except PyErr β) (g : α → Except PyErr γ) (r : β → γ)
    (h : ∀ a, g a = (f a).map r) (l : List α) : l.mapM g = (l.mapM f).map (List.map r) := by
  induction l with
  | nil => rfl
  | cons a l ih =>
    rw [List.mapM_cons, List.mapM_cons, ih, h]
    cases f a with
    | error _ => rfl
    | ok b => cases l.mapM f <;> rfl

theorem inferRef_scale (k : ℝ) (hk : 0 < k) (ed' : Edited) (i : ConfIn) (vars : List Vars) (rk : RefCon × ℕ) :
    inferRef (i.sc k ed') (vars.map (Vars.sc k)) rk = (inferRef i vars rk).map (List.map (Ci1.sc k)) := by
  unfold inferRef
  simp only [ConfIn.sc, getIdx_map]
  cases getIdx vars (i.sel.nNR + rk.2) with
  | error _ => rfl
  | ok v =>
    cases getIdx i.Xu (i.sel.nNR + rk.2) with
    | error _ => rfl
    | ok Xu =>
      cases getIdx i.Yu (i.sel.nNR + rk.2) with
      | error _ => rfl
      | ok Yu =>
        simp only [Except.map, ok_bind]
        cases i.twodim with
        | false =>
          show Except.ok _ = Except.ok _
          congr 1
          rw [List.map_map]
          refine List.map_congr_left fun q _ => ?_
          have := inferOne_scale false k hk v Xu Yu 0 0 q
          rwa [mul_zero] at this
        | true =>
          simp only [if_true]
          cases getIdx i.Xv (i.sel.nNR + rk.2) with
          | error _ => rfl
          | ok Xv =>
            cases getIdx i.Yv (i.sel.nNR + rk.2) with
            | error _ => rfl
            | ok Yv =>
              show Except.ok _ = Except.ok _
              congr 1
              rw [List.map_map]
              exact List.map_congr_left fun q _ => inferOne_scale true k hk v Xu Yu Xv Yv q

theorem inferCi_scale (k : ℝ) (hk : 0 < k) (ed' : Edited) (i : ConfIn) (vars : List Vars) :
    inferCi (i.sc k ed') (vars.map (Vars.sc k)) = (inferCi i vars).map (List.map (Ci1.sc k)) := by
  unfold inferCi
  rw [show (i.sc k ed').infer = i.infer from rfl, show (i.sc k ed').linci = i.linci from rfl,
    show (i.sc k ed').sel = i.sel from rfl]
  split
  · split
    · rw [mapM_map_ok _ _ _ (inferRef_scale k hk ed' i vars)]
      cases i.sel.refs.zipIdx.mapM (inferRef i vars) with
      | error _ => rfl
      | ok l =>
        show Except.ok _ = Except.ok _
        congr 1
        rw [List.map_flatten]
    · rfl
  · rfl

theorem packCi_scale (td : Bool) (k : ℝ) (l : List Ci1) : packCi td (l.map (Ci1.sc k)) = (packCi td l).sc k := by
  unfold packCi
  cases td <;> simp only [Bool.false_eq_true, if_false, if_true, CiArr.sc, List.map_map] <;> rfl

theorem confidence_scale {N : Num} (hN : LombOk N.lombscargle) (k : ℝ) (hk : 0 < k) (ed' : Edited) (i : ConfIn)
    (hlin : i.linci = true) (h1 : ed'.t = i.ed.t) (h2 : ed'.tin = i.ed.tin) (h3 : ed'.equi = i.ed.equi)
    (h4 : ed'.elor = i.ed.elor) (hl : i.ed.t.length = i.e.length) :
    confidence N (i.sc k ed') = (confidence N i).map (CiArr.sc k) := by
  unfold confidence
  have hp : (if (i.sc k ed').white then .ok none else (residualPower N (i.sc k ed').ed (i.sc k ed').e (i.sc k ed').frq).map some) =
      (if i.white then .ok none else (residualPower N i.ed i.e i.frq).map some).map (Option.map (Power.sc k)) := by
    show (if i.white then .ok none else (residualPower N ed' (vscale k i.e) i.frq).map some) = _
    split
    · rfl
    · rw [residualPower_vscale hN k hk i.ed ed' i.e i.frq h1 h2 h3 h4 hl]
      cases residualPower N i.ed i.e i.frq <;> rfl
  rw [hp, covariances_scale]
  generalize (if i.white then .ok none else (residualPower N i.ed i.e i.frq).map some) = pw
  cases pw with
  | error _ => rfl
  | ok pw =>
    cases covariances N i with
    | error _ => rfl
    | ok GH =>
      simp only [Except.map, ok_bind]
      have hlen : (i.sc k ed').Xu.length = i.Xu.length := by simp [ConfIn.sc]
      rw [hlen]
      have hm := mapM_map_ok (ciOne N i pw GH i.Xu.length) _ _ (ciOne_scale N k hk ed' i hlin pw GH i.Xu.length)
        (List.range i.Xu.length)
      refine Eq.trans (b := ((List.range i.Xu.length).mapM (ciOne N i pw GH i.Xu.length)).map
        (List.map fun r => (r.1.sc k, r.2.sc k)) >>= fun rows => inferCi (i.sc k ed') (rows.map Prod.snd) >>= fun inf =>
          pure (packCi i.twodim (rows.map Prod.fst ++ inf))) ?_ ?_
      · rw [← hm]; rfl
      cases (List.range i.Xu.length).mapM (ciOne N i pw GH i.Xu.length) with
      | error _ => rfl
      | ok rows =>
        simp only [Except.map, ok_bind, List.map_map]
        have hi := inferCi_scale k hk ed' i (rows.map Prod.snd)
        rw [List.map_map] at hi
        have e1 : (Prod.snd ∘ fun r : Ci1 × Vars => (r.1.sc k, r.2.sc k)) = Vars.sc k ∘ Prod.snd := rfl
        rw [e1, hi]
        cases inferCi i (rows.map Prod.snd) with
        | error _ => rfl
        | ok inf =>
          show Except.ok _ = Except.ok _
          congr 1
          have e2 : (Prod.fst ∘ fun r : Ci1 × Vars => (r.1.sc k, r.2.sc k)) = Ci1.sc k ∘ Prod.fst := rfl
          rw [e2, ← List.map_map, ← List.map_append, packCi_scale]

end

end UTide
