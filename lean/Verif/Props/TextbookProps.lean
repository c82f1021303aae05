import Verif.Props.HarmonicProps
import Verif.Props.FitProps

/-!
# The harmonics in textbook form (C73), and the correction modes of the fit and of the reconstruction (C20)
-/

namespace UTide.Props

noncomputable section

open Classical

/-! ## Specification -/

/-- A cubic in time: degrees at noon of 31 December 1899, per day, per (10000 days)², per (10000 days)³; in cycles. -/
def longitude (a b c d : ℝ) (t : ℝ) : ℝ :=
  (a + b * (t - 693595.5) + c * ((t - 693595.5) / 10000) ^ 2 + d * ((t - 693595.5) / 10000) ^ 3) / 360

/-- Mean longitude of the moon, of the sun, of the lunar perigee, negative of the lunar ascending node, solar perigee
(Explanatory Supplement, 1961), not reduced to one turn. -/
def moonL : ℝ → ℝ := longitude 270.434164 13.1763965268 (-0.0000850) 0.000000039
def sunL : ℝ → ℝ := longitude 279.696678 0.9856473354 0.00002267 0
def perigeeL : ℝ → ℝ := longitude 334.329556 0.1114040803 (-0.0007739) (-0.00000026)
def nodeL : ℝ → ℝ := longitude (-259.183275) 0.0529539222 (-0.0001557) (-0.000000050)
def sunPerigeeL : ℝ → ℝ := longitude 281.220844 0.0000470684 0.0000339 0.000000070

/-- Lunar time: days (counted from midnight) plus the sun's longitude less the moon's. -/
def lunarTime (t : ℝ) : ℝ := t + sunL t - moonL t

/-- The equilibrium argument of a primary constituent, in cycles. -/
def equilibrium (d : Doodson) (semi : Dy) (t : ℝ) : ℝ :=
  d.d1 * lunarTime t + d.d2 * moonL t + d.d3 * sunL t + d.d4 * perigeeL t + d.d5 * nodeL t + d.d6 * sunPerigeeL t +
    semi.toReal

/-- Latitude used for the satellites: kept out of the band of 5 degrees about the equator. -/
def bandLat (lat : ℝ) : ℝ := if 0 < lat then max lat 5 else if lat < 0 then min lat (-5) else 0

/-- Relative amplitude of a satellite: diurnal and semidiurnal ones depend on the latitude. -/
def satelliteRatio (lat : ℝ) (s : Sat) : ℝ :=
  let x := Real.sin (bandLat lat * Real.pi / 180)
  s.amprat.toReal * (if s.ilatfac = 1 then 0.36309 * (1 - 5 * x ^ 2) / x else if s.ilatfac = 2 then 2.59808 * x else 1)

/-- Phase of a satellite relative to its main line, in cycles. -/
def satellitePhase (t : ℝ) (s : Sat) : ℝ :=
  s.d4 * perigeeL t + s.d5 * nodeL t + s.d6 * sunPerigeeL t + s.phcorr.toReal

/-- `exp(2 pi i x)`. -/
def phasor (x : ℝ) : ℂ := Complex.exp (((2 * Real.pi * x : ℝ) : ℂ) * Complex.I)

/-- The satellites the table of constituents lists for entry `k`. -/
def satellites (k : ℕ) : List Sat := ((catalogue[k]?).map fun e => e.sats).getD []

/-- The modulation of a primary line by its satellites: the main line, of amplitude 1, and the satellites. -/
def modulation (lat t : ℝ) (k : ℕ) : ℂ :=
  1 + ((satellites k).map fun s => ((satelliteRatio lat s : ℝ) : ℂ) * phasor (satellitePhase t s)).sum

/-- What each mode of `nodal` means. -/
def nodalAt (m : Mode) (tref lat t : ℝ) (k : ℕ) : ℂ := match m with
  | .exact => modulation lat t k
  | .atReference => modulation lat tref k
  | .off => 1

/-- What each mode of `phase` means: the equilibrium argument, its linearisation at the reference time, or the latter
counted from zero at the reference time. -/
def argumentAt (m : Mode) (tref t : ℝ) (d : Doodson) (semi : Dy) : ℝ := match m with
  | .exact => equilibrium d semi t
  | .atReference => equilibrium d semi tref + deriv (equilibrium d semi) tref * (t - tref)
  | .off => deriv (equilibrium d semi) tref * (t - tref)

/-- A primary line, with its satellites. -/
def tidalLine (mn mp : Mode) (tref lat t : ℝ) (k : ℕ) : ℂ := match kindOf k with
  | some (.primary d semi) => nodalAt mn tref lat t k * phasor (argumentAt mp tref t d semi)
  | _ => 0

/-- The harmonic of catalogue entry `k`: a line, or for a compound the product of lines, as often as the weights say,
those with negative weights conjugated. -/
def textbook (mn mp : Mode) (tref lat t : ℝ) (k : ℕ) : ℂ := match kindOf k with
  | some (.primary _ _) => tidalLine mn mp tref lat t k
  | some (.shallow parts) => (parts.map fun q => powW (tidalLine mn mp tref lat t q.1) q.2.num).prod
  | none => 0

/-! ## Lemmas -/

theorem cis_phasor (x : ℝ) : cis x = phasor x := cis_eq x

theorem cycles_longitude (c : Cubic) (t : ℝ) : c.cycles t = longitude c.c0 c.c1 c.c2 c.c3 t := by
  unfold Cubic.cycles Cubic.dotArgs longitude daten
  dsimp only
  ring

theorem moonL_eq : scCoef.cycles = moonL := funext fun t => cycles_longitude _ t
theorem sunL_eq : hcCoef.cycles = sunL := by
  funext t; rw [cycles_longitude]; unfold hcCoef sunL longitude; norm_num
theorem perigeeL_eq : pcCoef.cycles = perigeeL := funext fun t => cycles_longitude _ t
theorem nodeL_eq : npcCoef.cycles = nodeL := funext fun t => cycles_longitude _ t
theorem sunPerigeeL_eq : ppcCoef.cycles = sunPerigeeL := funext fun t => cycles_longitude _ t

theorem equilibrium_eq (d : Doodson) (s : Dy) (t : ℝ) : d.dot (astroLift t) + s.toReal = equilibrium d s t := by
  unfold equilibrium Doodson.dot astroLift lunarTime
  rw [moonL_eq, sunL_eq, perigeeL_eq, nodeL_eq, sunPerigeeL_eq]

theorem deriv_equilibrium (d : Doodson) (s : Dy) (t : ℝ) : deriv (equilibrium d s) t = d.dot (ader t) := by
  have he : equilibrium d s = fun t => d.dot (astroLift t) + s.toReal := funext fun t => (equilibrium_eq d s t).symm
  obtain ⟨h1, h2, h3, h4, h5, h6⟩ := astroLift_deriv t
  rw [he]
  apply HasDerivAt.deriv
  unfold Doodson.dot
  exact ((((((h1.const_mul _).add (h2.const_mul _)).add (h3.const_mul _)).add (h4.const_mul _)).add
    (h5.const_mul _)).add (h6.const_mul _)).add_const _

theorem bandLat_eq (lat : ℝ) : clampLat lat = bandLat lat := by
  unfold clampLat bandLat
  rcases lt_trichotomy lat 0 with h | h | h
  · rw [if_neg (show ¬ 0 < lat by linarith), if_pos h, abs_of_neg h, sign_neg h]
    split
    · rw [min_eq_right (by linarith)]; simp
    · rw [min_eq_left (by linarith)]
  · subst h; simp
  · rw [if_pos h, abs_of_pos h, sign_pos h]
    split
    · rw [max_eq_right (by linarith)]; simp
    · rw [max_eq_left (by linarith)]

theorem satelliteRatio_eq (lat : ℝ) (s : Sat) : satRatio lat s = satelliteRatio lat s := by
  unfold satRatio satelliteRatio slat
  rw [bandLat_eq]
  dsimp only
  split
  · norm_num
  · split
    · rfl
    · rw [mul_one]

theorem satellitePhase_eq (t : ℝ) (s : Sat) :
    Complex.exp (Complex.I * 2 * Real.pi * satPhase (astro t) s) = phasor (satellitePhase t s) := by
  rw [show Complex.exp (Complex.I * 2 * Real.pi * satPhase (astro t) s) = cis (satPhase (astro t) s) by
    unfold cis; congr 1; ring, ← cis_phasor]
  unfold satPhase satellitePhase
  rw [← perigeeL_eq, ← nodeL_eq, ← sunPerigeeL_eq]
  obtain ⟨-, -, -, ⟨a, ha⟩, ⟨b, hb⟩, ⟨c, hc⟩⟩ := astro_congr_lift t
  obtain ⟨n, hn⟩ := fmod1_congr (s.d4 * (astro t).p + s.d5 * (astro t).np + s.d6 * (astro t).pp + s.phcorr.toReal)
  refine cis_congr ⟨n + s.d4 * a + s.d5 * b + s.d6 * c, ?_⟩
  push_cast
  rw [← ha, ← hb, ← hc, ← hn]
  unfold astroLift
  ring

theorem satsOf_eq (k : ℕ) : satsOf k = satellites k := by
  unfold satsOf satellites
  cases catalogue[k]? <;> rfl

theorem modulation_eq (lat t : ℝ) (k : ℕ) : satSum lat t k = modulation lat t k := by
  unfold satSum modulation
  rw [satsOf_eq]
  congr 2
  exact List.map_congr_left fun s _ => by rw [satelliteRatio_eq, satellitePhase_eq]

theorem nodalAt_eq (fl : Flags) {mn : Mode} (h : flagMode fl.nodsatlint fl.nodsatnone = some mn) (tref lat t : ℝ)
    (k : ℕ) : nodZ fl tref lat t k = nodalAt mn tref lat t k := by
  unfold nodZ nodalAt
  cases h1 : fl.nodsatlint <;> cases h2 : fl.nodsatnone <;> rw [h1, h2] at h <;> simp [flagMode] at h <;> subst h <;>
    simp [modulation_eq]

theorem argumentAt_eq (fl : Flags) {mp : Mode} (h : flagMode fl.gwchlint fl.gwchnone = some mp) (tref t : ℝ) {k : ℕ}
    {d : Doodson} {s : Dy} (hk : kindOf k = some (.primary d s)) :
    cis (gwV fl tref t k) = phasor (argumentAt mp tref t d s) := by
  unfold gwV argumentAt
  have hf := linFreqs_primary tref hk
  have hl : 24 * (t - tref) * linFreqs tref k = deriv (equilibrium d s) tref * (t - tref) := by
    rw [hf, deriv_equilibrium]; ring
  cases h1 : fl.gwchlint <;> cases h2 : fl.gwchnone <;> rw [h1, h2] at h <;> simp [flagMode] at h <;> subst h <;>
    simp only [Bool.false_eq_true, if_false, if_true]
  · rw [cis_vGreenwich t hk, equilibrium_eq, cis_phasor]
  · rw [hl, cis_phasor]
  · rw [cis_add, cis_vGreenwich tref hk, equilibrium_eq, hl, ← cis_add, cis_phasor]

theorem line_eq (fl : Flags) {mn mp : Mode} (hn : flagMode fl.nodsatlint fl.nodsatnone = some mn)
    (hp : flagMode fl.gwchlint fl.gwchnone = some mp) (tref lat t : ℝ) {k : ℕ} {d : Doodson} {s : Dy}
    (hk : kindOf k = some (.primary d s)) : utEgen fl tref lat t k = tidalLine mn mp tref lat t k := by
  rw [utEgen_primary fl tref lat t fun q hq => by rw [hk] at hq; cases hq]
  unfold tidalLine
  rw [hk, nodalAt_eq fl hn, argumentAt_eq fl hp tref t hk]

/-! ## C73 -/

/-- **C73.** The basis function of every constituent except M7: the main line with its satellites at the time the mode
says, on the equilibrium argument as the mode says; for compounds the product of the lines. (The latitude 0 is left out
because the code divides by its sine.) -/
theorem C73_basis_function (fl : Flags) (mn mp : Mode) (hn : flagMode fl.nodsatlint fl.nodsatnone = some mn)
    (hp : flagMode fl.gwchlint fl.gwchnone = some mp) (tref lat t : ℝ) (_hlat : lat ≠ 0 ∨ mn = .off) (k : ℕ)
    (hk : k < 146) (hM : constitNames[k]? ≠ some "M7") :
    utE fl tref lat t (linFreqs tref k) k = textbook mn mp tref lat t k := by
  rw [utE_eq_gen]
  obtain ⟨x, hx⟩ := kindOf_of_lt hk
  unfold textbook
  rw [hx]
  cases x with
  | primary d s => exact line_eq fl hn hp tref lat t hx
  | shallow parts =>
    have hM' : k ≠ M7 := fun e => hM (by subst e; decide +kernel)
    rw [utEgen_shallow fl tref lat t hx hM']
    refine congrArg List.prod (List.map_congr_left fun q hq => ?_)
    obtain ⟨d, s, e⟩ := kindOf_parent hx hq
    rw [line_eq fl hn hp tref lat t e]

/-- **C73**, the exception: M7 is catalogued as 3.5 times M2; its basis function is a square root of the seventh power
of M2's (which root depends on the whole turns dropped from the angles, see `C40_false`). -/
theorem C73_M7 (fl : Flags) (mn mp : Mode) (hn : flagMode fl.nodsatlint fl.nodsatnone = some mn)
    (hp : flagMode fl.gwchlint fl.gwchnone = some mp) (tref lat t : ℝ) (_hlat : lat ≠ 0 ∨ mn = .off) :
    utE fl tref lat t (linFreqs tref (constitNames.idxOf "M7")) (constitNames.idxOf "M7") ^ 2 =
      tidalLine mn mp tref lat t (constitNames.idxOf "M2") ^ 7 := by
  have e1 : constitNames.idxOf "M7" = M7 := by decide +kernel
  have e2 : constitNames.idxOf "M2" = 47 := by decide +kernel
  rw [e1, e2, utE_eq_gen, ← line_eq fl hn hp tref lat t kind_M2]
  have h0 := nodF_nonneg_primary fl tref lat t (k := 47) fun q hq => by rw [kind_M2] at hq; cases hq
  have hw : (⟨7, 1⟩ : Dy).toReal = 7 / 2 := by unfold Dy.toReal; norm_num
  unfold utEgen
  rw [nodF_shallow fl tref lat t kind_M7, nodU_shallow fl tref lat t kind_M7, gwV_shallow fl tref t kind_M7]
  simp only [List.map_cons, List.map_nil, List.prod_cons, List.prod_nil, List.sum_cons, List.sum_nil, mul_one, add_zero,
    hw]
  rw [mul_pow, mul_pow, ← cis_nat_mul, ← cis_nat_mul]
  congr 1
  · rw [← Complex.ofReal_pow, ← Complex.ofReal_pow, ← Real.rpow_natCast, ← Real.rpow_mul h0,
      ← Real.rpow_natCast (nodF fl tref lat t 47) 7]
    norm_num
  · congr 1; push_cast; ring

/-- M2 and M4 two days after the reference time, exact: M4 is the square of the modulated line. -/
example : textbook .exact .exact 735000 45 735002 81 = textbook .exact .exact 735000 45 735002 47 ^ 2 ∧
    (satellites 47).length = 9 ∧ constitNames[81]? = some "M4" := by
  have h1 : kindOf 81 = some (.shallow [(47, ⟨2, 0⟩)]) := by rfl
  refine ⟨?_, by decide +kernel, by decide +kernel⟩
  unfold textbook
  rw [h1, kind_M2]
  simp [powW]

/-! ## C20 -/

/-- Whatever `solve` returns: the harmonic of every constituent of the fit, and the one `reconstruct` uses, are those
of the modes requested. -/
theorem C20_harmonics (E : Env) (t : TimeArg) (u : Series) (v : Option Series) (lat : Option ℝ) (opts : Dict PyVal)
    (hnd : opts.keys.Nodup) (c : Coef) (h : solve E t u v lat opts = .ok c) (mn mp : Mode)
    (hn : (requested opts "nodal").bind nodalMode = some mn) (hp : (requested opts "phase").bind phaseMode = some mp)
    (hlat : c.lat ≠ 0 ∨ mn = .off) (i : ℕ) (n : String) (hi : c.name[i]? = some n) (hM : n ≠ "M7") (τ : ℝ) :
    harmonic c n τ = textbook mn mp c.reftime c.lat τ (constitNames.idxOf n) ∧
    utE c.opt.flags c.reftime c.lat τ (c.frq.getD i 0) (c.lind.getD i 0) =
      textbook mn mp c.reftime c.lat τ (constitNames.idxOf n) := by
  obtain ⟨e1, e2, e3⟩ := permute_aligned h
  obtain ⟨opt, p, tn, constit, m, W, rf, full, o, ind, h1, h2, h3⟩ := solve_solved _ _ _ _ _ _ _ h
  have hopt : c.opt = opt := by rw [h3.result]; exact h3.head.opt.trans h2.hopt
  obtain ⟨f1, f2⟩ := C20_modes opts hnd _ opt h1
  have f1 := f1 mn hn
  have f2 := f2 mp hp
  rw [e1, List.getElem?_map, Option.map_eq_some_iff] at hi
  obtain ⟨k, hk, rfl⟩ := hi
  have hk1 := e3 k (List.mem_of_getElem? hk)
  have hk2 : constitNames[k]? ≠ some "M7" := by
    rw [constitNames_nameAt hk1]
    exact fun e => hM (Option.some.inj e)
  have key := C73_basis_function opt.flags mn mp f1 f2 c.reftime c.lat τ hlat k hk1 hk2
  unfold harmonic nameBasis
  rw [idxOf_nameAt hk1, hopt]
  refine ⟨key, ?_⟩
  rw [e2, List.getD_eq_getElem?_getD, List.getD_eq_getElem?_getD, List.getElem?_map, hk]
  exact key

/-- The tide of constituent number `i` of `coef` at `τ`, in the modes `mn`, `mp`. -/
def tideIn (mn mp : Mode) (c : Coef) (τ : ℝ) (i : ℕ) : ℂ :=
  let z := textbook mn mp c.reftime c.lat τ (constitNames.idxOf (c.name.getD i ""))
  match c.ell with
  | .one A g => ((A.getD i 0 * (z * cisd (-(g.getD i 0))).re : ℝ) : ℂ)
  | .two M m th g => cisd (th.getD i 0) * ⟨M.getD i 0 * (z * cisd (-(g.getD i 0))).re,
      m.getD i 0 * (z * cisd (-(g.getD i 0))).im⟩

/-- `reconstruct` works in the modes that were requested from `solve`, without being told again. -/
theorem C20_reconstruct (E : Env) (t : TimeArg) (u : Series) (v : Option Series) (lat : Option ℝ) (opts : Dict PyVal)
    (R : Ready E t u v) (hnd : opts.keys.Nodup) (c : Coef) (h : solve E t u v lat opts = .ok c) (hk : AllKept c)
    (mn mp : Mode) (hn : (requested opts "nodal").bind nodalMode = some mn)
    (hp : (requested opts "phase").bind phaseMode = some mp) (hlat : c.lat ≠ 0 ∨ mn = .off) (hM : "M7" ∉ c.name)
    (E' : Env) (t' : TimeArr) (a : RecArgs) :
    reconstruct E' t' c a = (normalizeTime E'.dt64 t' a.epoch).map fun tn => tn.map fun x => x.toReal?.map fun τ =>
      level c τ + (((List.range c.name.length).filter (Selected c a)).map (tideIn mn mp c τ)).sum := by
  rw [C36_selected E t u v lat opts R hnd c h hk E' t' a]
  have key : ∀ τ : ℝ, ((List.range c.name.length).filter (Selected c a)).map (tide c τ) =
      ((List.range c.name.length).filter (Selected c a)).map (tideIn mn mp c τ) := by
    intro τ
    refine List.map_congr_left fun i hi => ?_
    have hi : i < c.name.length := List.mem_range.1 (List.mem_filter.1 hi).1
    have h1 := (C20_harmonics E t u v lat opts hnd c h mn mp hn hp hlat i _ (List.getElem?_eq_getElem hi)
      (fun e => hM (e ▸ List.getElem_mem hi)) τ).2
    unfold tide tideIn
    dsimp only
    rw [h1, List.getD_eq_getElem _ _ hi]
    cases c.ell <;> rfl
  simp only [key]

/-- `solve` fits in the modes that were requested: the curves among which it finds the best (`C01_best`, `C02_best`)
are made of the harmonics of these modes. -/
theorem C20_fit (E : Env) (t : TimeArg) (u : Series) (v : Option Series) (lat : Option ℝ) (opts : Dict PyVal)
    (hnd : opts.keys.Nodup) (c : Coef) (h : solve E t u v lat opts = .ok c) (mn mp : Mode)
    (hn : (requested opts "nodal").bind nodalMode = some mn) (hp : (requested opts "phase").bind phaseMode = some mp)
    (hlat : c.lat ≠ 0 ∨ mn = .off) (hM : "M7" ∉ c.name) (A g : String → ℝ) (mean slope τ : ℝ) :
    scalarCurve c A g mean slope τ = mean + slope * (τ - c.reftime) + (c.name.map fun n => A n *
      (textbook mn mp c.reftime c.lat τ (constitNames.idxOf n) * cisd (-(g n))).re).sum := by
  unfold scalarCurve
  congr 2
  refine List.map_congr_left fun n hn' => ?_
  obtain ⟨i, hi⟩ := List.getElem?_of_mem hn'
  rw [(C20_harmonics E t u v lat opts hnd c h mn mp hn hp hlat i n hi (fun e => hM (e ▸ hn')) τ).1]

end

end UTide.Props
