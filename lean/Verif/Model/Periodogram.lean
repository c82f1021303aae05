import Verif.Model.Num
import Mathlib.Analysis.SpecialFunctions.Complex.Arg

/-!
# `utide/periodogram.py`

Series are lists of complex numbers; whether the array is real is passed as `cplx = false`.
-/

namespace UTide

noncomputable section

open Classical
open Complex (I)

/-- `freq_bands` (periodogram.py 24-36). -/
def freqBands : List (ℚ × ℚ) :=
  [(10 / 100000, 417 / 100000), (3192 / 100000, 4859 / 100000), (7218 / 100000, 8884 / 100000),
   (11243 / 100000, 12910 / 100000), (15269 / 100000, 16936 / 100000), (19295 / 100000, 20961 / 100000),
   (23320 / 100000, 25100 / 100000), (26000 / 100000, 29000 / 100000), (30000 / 100000, 50000 / 100000)]

/-- `i_constit` (periodogram.py 75-76): position of the periodogram value nearest to a constituent. -/
def nearestIndex (freq : List ℝ) (f : ℝ) : ℕ :=
  let i := roundHalfEven (interp f (freq.zipIdx.map fun p => (p.1, (p.2 : ℝ))))
  (max 0 (min i freq.length)).toNat

/-- `slice(i0, i1)` of band `(f0, f1)` (periodogram.py 83-85, 117-119). -/
def bandSlice (freq : List ℝ) (b : ℚ × ℚ) : ℕ × ℕ :=
  (searchsorted freq b.1, min freq.length (searchsorted freq b.2 + 1))

/-- The unmasked values of `P` in a band, with `masked` the positions excluded by line 77. -/
def bandValues (P : List ℂ) (freq : List ℝ) (masked : List ℕ) (b : ℚ × ℚ) : List ℂ :=
  let s := bandSlice freq b
  (((P.zipIdx.take s.2).drop s.1).filter fun p => decide (p.2 ∉ masked)).map Prod.fst

/-- `P[inband].mean()`, masked (later NaN) if nothing is left (periodogram.py 86, 89). -/
def bandMean (vals : List ℂ) : Option ℂ := if vals = [] then none else some (vals.sum / vals.length)

/-- `fbndavg(P, freq, cfreq)` with the default bands (periodogram.py 39-91). `np.interp` raises ValueError when
there are no frequencies. -/
def fbndavg (P : List ℂ) (freq cfreq : List ℝ) : Except PyErr (List (Option ℂ)) :=
  if freq = [] then .error .valueError
  else .ok (freqBands.map fun b => bandMean (bandValues P freq (cfreq.map (nearestIndex freq)) b))

/-- `freq` of `_lomb_freqs`, the Fourier frequencies (periodogram.py 105-112), with `ofac = 1`. -/
def fourierFreqs (t : List ℝ) : List ℝ :=
  let n := t.length
  let deltaT := (t.getLastD 0 - t.headD 0) / (n - 1)
  (List.range (n / 2 - 1)).map fun k : ℕ => ((k : ℝ) + 1) / (n * deltaT)

/-- The frequencies of one band (periodogram.py 116-124). -/
def lombBand (freq : List ℝ) (b : ℚ × ℚ) : List ℝ :=
  let s := bandSlice freq b
  if s.2 - s.1 > 500 then linspace (freq.getD s.1 0) (freq.getD (s.2 - 1) 0) 500
  else (freq.take s.2).drop s.1

/-- `_lomb_freqs(t)` with the default bands, `ofac = 1`, `max_per_band = 500` (periodogram.py 94-126). -/
def lombFreqs (t : List ℝ) : List ℝ := freqBands.flatMap (lombBand (fourierFreqs t))

/-- `x.mean()` of a complex array. -/
def cmean (x : List ℂ) : ℂ := x.sum / x.length

/-- `signal.windows.hann(n, sym=False)` (scipy). -/
def hann (n : ℕ) : List ℝ :=
  (List.range n).map fun k : ℕ => 0.5 - 0.5 * Real.cos (2 * Real.pi * k / n)

/-- One value of `np.fft.rfft`. -/
def dft (x : List ℝ) (k : ℕ) : ℂ :=
  (x.zipIdx.map fun p => (p.1 : ℂ) * Complex.exp (-2 * Real.pi * I * p.2 * k / x.length)).sum

/-- `np.fft.rfft(x)`, `n/2 + 1` values. -/
def rfft (x : List ℝ) : List ℂ := (List.range (x.length / 2 + 1)).map (dft x)

/-- `cs[1:-1] *= 2` (periodogram.py 287). -/
def doubleInner (cs : List ℂ) : List ℂ :=
  cs.zipIdx.map fun p => if 1 ≤ p.2 ∧ p.2 + 1 < cs.length then 2 * p.1 else p.1

/-- `e - e.mean()` times the window (periodogram.py 279-280). -/
def detrended (e : List ℂ) (window : List ℝ) : List ℂ :=
  List.zipWith (fun x (w : ℝ) => (x - cmean e) * (w : ℂ)) e window

/-- `(window**2).sum()`. -/
def windowPower (window : List ℝ) : ℝ := (window.map fun w => w ^ 2).sum

/-- `_psd(e, window, fs)` (periodogram.py 265-289). -/
def psd (cplx : Bool) (e : List ℂ) (window : List ℝ) (fs : ℝ) : List ℂ :=
  let d := detrended e window
  let re := rfft (d.map Complex.re)
  let cs := if cplx then List.zipWith (fun a b => (starRingEnd ℂ) a * b) re (rfft (d.map Complex.im))
    else re.map fun z => ((‖z‖ ^ 2 : ℝ) : ℂ)
  (doubleInner cs).map fun z => z * (((1 / fs) * (1 / windowPower window) : ℝ) : ℂ)

/-- Sums over the times of `cos`, `sin` of the double angle and the phase shift `tau` (periodogram.py 229-232). -/
def lsTau (t : List ℝ) (w : ℝ) : ℝ :=
  0.5 * Complex.arg ⟨(t.map fun x => Real.cos (2 * w * x)).sum, (t.map fun x => Real.sin (2 * w * x)).sum⟩

/-- `sum(c**2)` and `sum(s**2)` (periodogram.py 245-246, 252-253). -/
def lsCC (t : List ℝ) (w : ℝ) : ℝ := (t.map fun x => Real.cos (w * x - lsTau t w) ^ 2).sum
def lsSS (t : List ℝ) (w : ℝ) : ℝ := (t.map fun x => Real.sin (w * x - lsTau t w) ^ 2).sum

/-- `(x * c).sum()`, `(x * s).sum()` (periodogram.py 247-248, 254-255). -/
def lsXC (t x : List ℝ) (w : ℝ) : ℝ := (List.zipWith (fun y z => z * Real.cos (w * y - lsTau t w)) t x).sum
def lsXS (t x : List ℝ) (w : ℝ) : ℝ := (List.zipWith (fun y z => z * Real.sin (w * y - lsTau t w)) t x).sum

/-- `_ls_cross` at one frequency (periodogram.py 222-262). -/
def lsCross (t : List ℝ) (x : List ℂ) (w : ℝ) : ℂ :=
  let a := 1 / Real.sqrt (lsCC t w)
  let b := 1 / Real.sqrt (lsSS t w)
  let xr := x.map Complex.re
  let xi := x.map Complex.im
  let tmpx : ℂ := ⟨a * lsXC t xr w, b * lsXS t xr w⟩
  let tmpy : ℂ := ⟨a * lsXC t xi w, -b * lsXS t xi w⟩
  let f0 := Complex.exp (I * lsTau t w)
  0.5 * ((tmpx * f0) * (tmpy * (starRingEnd ℂ) f0))

/-- What `scipy.signal.lombscargle` is documented to return: the classical normalised periodogram with the phase
shift `tau`. -/
def LombOk (ls : List ℝ → List ℝ → ℝ → ℝ) : Prop :=
  ∀ t x w, lsCC t w ≠ 0 → lsSS t w ≠ 0 → t.length = x.length →
    ls t x w = 0.5 * (lsXC t x w ^ 2 / lsCC t w + lsXS t x w ^ 2 / lsSS t w)

/-- `w` of `_psd_lomb`: the window interpolated to the sample times (periodogram.py 184-185). -/
def lombWindow (t : List ℝ) (window : List ℝ) : List ℝ :=
  let mn := t.foldl min (t.headD 0)
  let mx := t.foldl max (t.headD 0)
  t.map fun x => interp x ((linspace mn mx t.length).zip window)

/-- The three spectra of `_psd_lomb` (periodogram.py 177-219): `Pxx`, `Pyy`, `Pxy`. -/
structure Spectra where
  Pxx : List ℂ
  Pyy : List ℂ
  Pxy : List ℂ

/-- `_psd_lomb(t, x, window, freq)` (periodogram.py 129-219). Vanishing sums of squared cosines or sines give
NaN or infinite densities; the model stops there. For a real series only `Pxx` is used. -/
def psdLomb (N : Num) (t : List ℝ) (x : List ℂ) (window freq : List ℝ) : Except PyErr Spectra :=
  let w := lombWindow t window
  let xdm := List.zipWith (fun z (w : ℝ) => z * (w : ℂ)) (x.map fun z => z - cmean x) w
  let n : ℝ := x.length
  let deltaT := (t.getLastD 0 - t.headD 0) / (n - 1)
  let fr := freq.map fun f => f * 2 * Real.pi
  let psdnorm : ℂ := ((2 * deltaT * n / windowPower w : ℝ) : ℂ)
  if fr.any fun f => decide (lsCC t f = 0 ∨ lsSS t f = 0) then .error .nonFinite
  else .ok
    { Pxx := fr.map fun f => psdnorm * (N.lombscargle t (xdm.map Complex.re) f : ℂ)
      Pyy := fr.map fun f => psdnorm * (N.lombscargle t (xdm.map Complex.im) f : ℂ)
      Pxy := fr.map fun f => psdnorm * lsCross t xdm f }

/-- `P` of `band_psd`, one entry per band; `none` is NaN. -/
structure BandPsd where
  Puu : List (Option ℂ)
  Pvv : List (Option ℂ)
  Puv : List (Option ℂ)

/-- Dropping the last sample of an odd number (periodogram.py 327-331). -/
def evenPart {α : Type} (l : List α) : List α := if l.length % 2 = 1 then l.dropLast else l

/-- The three spectra and their frequencies before band averaging (periodogram.py 333-361). `t[1]` needs two
samples; a zero sampling interval gives infinite frequencies. -/
def bandSpectra (N : Num) (t : List ℝ) (e : List ℂ) (equi : Bool) : Except PyErr (Spectra × List ℝ) :=
  let hn := hann e.length
  if equi then
    match t with
    | t0 :: t1 :: _ =>
      let dt := 24 * (t1 - t0)
      if dt = 0 then .error .nonFinite
      else
        let fs := 1 / dt
        .ok ({ Pxx := psd false (e.map fun z => (z.re : ℂ)) hn fs,
               Pyy := psd false (e.map fun z => (z.im : ℂ)) hn fs,
               Pxy := psd true e hn fs },
             (List.range (e.length / 2 + 1)).map fun k : ℕ => (k : ℝ) / (e.length * dt))
    | _ => .error .indexError
  else
    let th := t.map fun x => x * 24
    if th = [] then .error .indexError
    else if th.getLastD 0 = th.headD 0 then .error .nonFinite
    else do
      let f := lombFreqs th
      let s ← psdLomb N th e hn f
      return (s, f)

/-- `band_psd(t, e, cfrq, equi, frqosamp=1)` (periodogram.py 292-374). -/
def bandPsd (N : Num) (t : List ℝ) (e : List ℂ) (cfrq : List ℝ) (equi : Bool) : Except PyErr BandPsd := do
  let (s, f) ← bandSpectra N (if e.length % 2 = 1 then t.dropLast else t) (evenPart e) equi
  let puu ← fbndavg s.Pxx f cfrq
  let pvv ← fbndavg s.Pyy f cfrq
  let puv ← fbndavg s.Pxy f cfrq
  return { Puu := puu, Pvv := pvv, Puv := puv.map fun x => x.map fun z => (z.re : ℂ) }

end

end UTide
