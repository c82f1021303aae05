import Verif.Model.Periodogram

/-!
# `utide/periodogram.py`: the arguments `solve` leaves at their defaults

`Model/Periodogram.lean` has the functions as `solve` calls them. Here the same functions with all their arguments:
`fbands` (an array, `none` for `None`), `cfreq=None`, `ofac` and `frqosamp` (documented to be integers),
`max_per_band` and `freq=None`.
-/

namespace UTide

noncomputable section

open Classical

/-- `freq` of `_lomb_freqs(t, ofac=ofac)` (periodogram.py 105-112) and of `_psd_lomb(t, x, freq=None, ofac=ofac)`
(periodogram.py 189-199). -/
def fourierFreqsOf (t : List ℝ) (ofac : ℕ) : List ℝ :=
  let n := t.length
  let deltaT := (t.getLastD 0 - t.headD 0) / (n - 1)
  let reclen := n * deltaT
  let nf := n * ofac
  (List.range (nf / 2 - 1)).map fun k : ℕ => ((k : ℝ) + 1) / reclen

/-- The frequencies of one band (periodogram.py 116-124), at most `maxPer` of them. -/
def lombBandOf (freq : List ℝ) (maxPer : ℕ) (b : ℚ × ℚ) : List ℝ :=
  let s := bandSlice freq b
  if s.2 - s.1 > maxPer then linspace (freq.getD s.1 0) (freq.getD (s.2 - 1) 0) maxPer
  else (freq.take s.2).drop s.1

/-- `_lomb_freqs(t, fbands, ofac, max_per_band)` (periodogram.py 94-126). `np.hstack` of no arrays raises
ValueError. -/
def lombFreqsOf (t : List ℝ) (bands : Option (List (ℚ × ℚ))) (ofac maxPer : ℕ) : Except PyErr (List ℝ) :=
  let bands := bands.getD freqBands
  if bands = [] then .error .valueError
  else .ok (bands.flatMap (lombBandOf (fourierFreqsOf t ofac) maxPer))

/-- `P.F` of `_psd_lomb(t, x, window, freq, ofac)` (periodogram.py 194-201). -/
def psdLombF (t : List ℝ) (freq : Option (List ℝ)) (ofac : ℕ) : List ℝ := freq.getD (fourierFreqsOf t ofac)

/-- `_psd_lomb(t, x, window, freq, ofac)` (periodogram.py 129-219): frequencies and spectra. Without a window `w` is
an array of ones (periodogram.py 181-182) and the series is left as it is. -/
def psdLombCall (N : Num) (t : List ℝ) (x : List ℂ) (window freq : Option (List ℝ)) (ofac : ℕ) :
    Except PyErr (List ℝ × Spectra) :=
  let F := psdLombF t freq ofac
  match window with
  | some W => (psdLomb N t x W F).map fun s => (F, s)
  | none =>
    let xdm := x.map fun z => z - cmean x
    let n : ℝ := x.length
    let deltaT := (t.getLastD 0 - t.headD 0) / (n - 1)
    let fr := F.map fun f => f * 2 * Real.pi
    let psdnorm : ℂ := ((2 * deltaT * n / windowPower (t.map fun _ => 1) : ℝ) : ℂ)
    if fr.any fun f => decide (lsCC t f = 0 ∨ lsSS t f = 0) then .error .nonFinite
    else .ok (F,
      { Pxx := fr.map fun f => psdnorm * (N.lombscargle t (xdm.map Complex.re) f : ℂ)
        Pyy := fr.map fun f => psdnorm * (N.lombscargle t (xdm.map Complex.im) f : ℂ)
        Pxy := fr.map fun f => psdnorm * lsCross t xdm f })

/-- `fbndavg(P, freq, cfreq, fbands)` (periodogram.py 39-91). Only with constituents given is `np.interp` called,
which raises ValueError when there are no frequencies. -/
def fbndavgOf (P : List ℂ) (freq : List ℝ) (cfreq : Option (List ℝ)) (bands : Option (List (ℚ × ℚ))) :
    Except PyErr (List (Option ℂ)) :=
  let bands := bands.getD freqBands
  match cfreq with
  | none => .ok (bands.map fun b => bandMean (bandValues P freq [] b))
  | some c =>
    if freq = [] then .error .valueError
    else .ok (bands.map fun b => bandMean (bandValues P freq (c.map (nearestIndex freq)) b))

/-- The spectra of `band_psd(t, e, cfrq, equi, frqosamp)` before band averaging (periodogram.py 333-361). -/
def bandSpectraOf (N : Num) (t : List ℝ) (e : List ℂ) (equi : Bool) (frqosamp : ℕ) :
    Except PyErr (Spectra × List ℝ) :=
  if equi then bandSpectra N t e true
  else
    let th := t.map fun x => x * 24
    if th = [] then .error .indexError
    else if th.getLastD 0 = th.headD 0 then .error .nonFinite
    else do
      let f ← lombFreqsOf th (some freqBands) frqosamp 500
      let s ← psdLomb N th e (hann e.length) (psdLombF th (some f) 1)
      return (s, psdLombF th (some f) 1)

/-- `band_psd(t, e, cfrq, equi, frqosamp)` (periodogram.py 292-374). -/
def bandPsdOf (N : Num) (t : List ℝ) (e : List ℂ) (cfrq : List ℝ) (equi : Bool) (frqosamp : ℕ) :
    Except PyErr BandPsd := do
  let (s, f) ← bandSpectraOf N (if e.length % 2 = 1 then t.dropLast else t) (evenPart e) equi frqosamp
  let puu ← fbndavgOf s.Pxx f (some cfrq) none
  let pvv ← fbndavgOf s.Pyy f (some cfrq) none
  let puv ← fbndavgOf s.Pxy f (some cfrq) none
  return { Puu := puu, Pvv := pvv, Puv := puv.map fun x => x.map fun z => (z.re : ℂ) }

end

end UTide
