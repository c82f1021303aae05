import Verif.Props.RepeatCi
import Verif.Props.ColourProps
import Verif.Props.ShuffleProps

/-!
# The order of the samples and the confidence intervals: C129

With a white noise floor the intervals do not depend on the order of the samples. With the default noise model they do:
the sampling interval of the periodogram is taken from the first two times (or from the first and the last one), so
samples given in descending order of time get negative frequencies, no frequency falls into a band, and the intervals of
an evenly sampled record are NaN while an unevenly sampled one cannot be analysed at all.
-/

namespace UTide.Props

noncomputable section

open Classical Matrix

/-! ## Specification -/

/-- Linearised intervals from ordinary least squares without inference, either noise model. -/
structure LinearRun (E : Env) (t : TimeArg) (u : Series) (v : Option Series) (lat : Option ℝ) (opts : Dict PyVal)
    (c : Coef) (tn : List Fl) : Prop where
  returned : solve E t u v lat opts = .ok c
  keys : opts.keys.Nodup
  ols : ∃ x, requested opts "method" = some x ∧ IsStr x "ols"
  infer : readInfer c.opt.infer = .ok none
  ci : c.opt.confInt = true
  linear : c.opt.linci = true
  kept : AllKept c
  time : normalizeTime E.dt64 t.arr c.opt.epoch = .ok tn

/-- Both results have intervals, the same ones for the same constituent. -/
def SameIntervals (c c' : Coef) : Prop :=
  ∃ ci ci', c.ci = some ci ∧ c'.ci = some ci' ∧ ∀ (i j : ℕ) (n : String), c.name[i]? = some n → c'.name[j]? = some n →
    ∃ r, intervalAt ci i = some r ∧ intervalAt ci' j = some r

/-- **C129, as one would like it**: two runs on the same samples in another order, with the same constituents and
reference time, give the same intervals. -/
def C129_full : Prop :=
  ∀ (E : Env) (t t' : TimeArg) (u u' : Series) (v v' : Option Series) (lat : Option ℝ) (opts : Dict PyVal) (c c' : Coef)
    (tn tn' : List Fl), Ready E t u v → Ready E t' u' v' → NumOk E.num → v'.isSome = v.isSome →
    LinearRun E t u v lat opts c tn → LinearRun E t' u' v' lat opts c' tn' → Shuffled tn u v tn' u' v' →
    c'.name.Perm c.name → c'.reftime = c.reftime → SameIntervals c c'

/-! ## White noise -/

theorem one_mul_fl (x : Fl) : Fl.fin 1 * x = x := by
  cases x with
  | fin a => show Fl.fin (1 * a) = _; rw [one_mul]
  | nan => rfl
  | pinf => show Fl.scaleInf 1 true = _; simp [Fl.scaleInf]
  | ninf => show Fl.scaleInf 1 false = _; simp [Fl.scaleInf]

theorem narrow_one (r : Ci1) : Ci1.narrow 1 r = r := by
  unfold Ci1.narrow
  simp only [one_mul_fl]

/-- **C129, white noise**: the order of the samples does not matter to the intervals. Missing in comparison with
`C129_full`: the coloured noise model, for which it does (`C129_false`). -/
theorem C129_white_partial {E : Env} {t t' : TimeArg} {u u' : Series} {v v' : Option Series} {lat : Option ℝ}
    {opts : Dict PyVal} {c c' : Coef} {tn tn' : List Fl} (R : Ready E t u v) (R' : Ready E t' u' v')
    (hI : InvOk E.num.inv) (hv : v'.isSome = v.isSome) (H : WhiteRun E t u v lat opts c tn)
    (H' : WhiteRun E t' u' v' lat opts c' tn') (hS : Shuffled tn u v tn' u' v') (hn : c'.name.Perm c.name)
    (href : c'.reftime = c.reftime) : SameIntervals c c' := by
  obtain ⟨ci, ci', h1, h2, h3⟩ := C113_repeated R R' hI hv H H' 1 one_pos (by
    unfold RepeatedRows
    rw [List.replicate_one, List.flatten_singleton]
    exact hS) hn href
  refine ⟨ci, ci', h1, h2, fun i j n hi hj => ?_⟩
  obtain ⟨hlt, r, g1, g2⟩ := h3 i j n hi hj
  refine ⟨r, g1, ?_⟩
  rw [g2]
  have : (0 : ℝ) < ((sampleTimes tn u v).length : ℝ) - numPar c := by
    have : (numPar c : ℝ) < (sampleTimes tn u v).length := by exact_mod_cast hlt
    linarith
  rw [Nat.cast_one, one_mul, div_self this.ne', Real.sqrt_one, narrow_one]

/-! ## Negative frequencies -/

/-- Frequencies below all bands. -/
theorem slice_below (freq : List ℝ) (h : ∀ f ∈ freq, f ≤ 0) (b : ℚ × ℚ) (hb : b ∈ freqBands) :
    bandSlice freq b = (freq.length, freq.length) := by
  have key : ∀ q : ℚ, 0 < q → searchsorted freq (q : ℝ) = freq.length := by
    intro q hq
    unfold searchsorted
    have hq' : (0 : ℝ) < q := by exact_mod_cast hq
    clear hq
    induction freq with
    | nil => rfl
    | cons x l ih =>
      rw [List.takeWhile_cons_of_pos (by simpa using lt_of_le_of_lt (h x (by simp)) hq'), List.length_cons, List.length_cons,
        ih fun f hf => h f (by simp [hf])]
  have h12 : 0 < b.1 ∧ 0 < b.2 := by
    revert b
    decide +kernel
  unfold bandSlice
  rw [key _ h12.1, key _ h12.2]
  simp

theorem fbndavg_below (P : List ℂ) (freq cfreq : List ℝ) (h : ∀ f ∈ freq, f ≤ 0) (avs : List (Option ℂ)) (ha : fbndavg P freq cfreq = .ok avs) : ∀ (k : ℕ) x, avs[k]? = some x → x = none := by
  unfold fbndavg at ha
  split at ha
  · cases ha
  · cases Except.ok.inj ha
    intro k x hx
    obtain ⟨b, hb, rfl⟩ := List.mem_map.1 (List.mem_of_getElem? hx)
    have : bandValues P freq (cfreq.map (nearestIndex freq)) b = [] := by
      unfold bandValues
      rw [slice_below freq h b hb]
      dsimp only
      rw [List.drop_eq_nil_of_le (by simp)]
      rfl
    rw [this]
    rfl

/-- Samples in descending order of time: no density in any band. -/
theorem bandPsd_descending (N : Num) (t0 t1 : ℝ) (rest : List ℝ) (e : List ℂ) (frq : List ℝ) (ba : BandPsd) (h : t1 < t0)
    (hl : e.length = (t0 :: t1 :: rest).length) (hb : bandPsd N (t0 :: t1 :: rest) e frq true = .ok ba) :
    ∀ (k : ℕ) x, ba.Puu[k]? = some x → x = none := by
  unfold bandPsd at hb
  obtain ⟨r', h1⟩ : ∃ r', (if e.length % 2 = 1 then (t0 :: t1 :: rest).dropLast else (t0 :: t1 :: rest)) = t0 :: t1 :: r' := by
    by_cases ho : e.length % 2 = 1
    · rw [if_pos ho]
      cases rest with
      | nil => rw [hl] at ho; simp at ho
      | cons t2 r => exact ⟨_, rfl⟩
    · rw [if_neg ho]; exact ⟨rest, rfl⟩
  rw [h1] at hb
  unfold bandSpectra at hb
  have hd : ¬ (24 * (t1 - t0) = 0) := by intro h0; linarith
  simp only [if_true, if_neg hd, ok_bind, bind_eq_ok, pure_eq_ok, Except.ok.injEq] at hb
  obtain ⟨puu, hu, pvv, hv, puv, hw, rfl⟩ := hb
  refine fbndavg_below _ _ _ ?_ _ hu
  intro f hf
  obtain ⟨k, -, rfl⟩ := List.mem_map.1 hf
  refine div_nonpos_of_nonneg_of_nonpos (Nat.cast_nonneg k) ?_
  exact mul_nonpos_of_nonneg_of_nonpos (Nat.cast_nonneg _) (by linarith)

theorem residualPower_descending (N : Num) (ed : Edited) (e : List ℂ) (frq : List ℝ) (heq : ed.equi = true)
    (ht : e.length = ed.t.length) (hle : ed.t.length ≤ ed.tin.length) (t0 t1 : ℝ) (rest : List ℝ)
    (htin : ed.tin = t0 :: t1 :: rest) (h01 : t1 < t0) (w : Power) (h : residualPower N ed e frq = .ok w)
    (i : ℕ) (f : ℝ) (hf : frq[i]? = some f) (b : ℝ × ℝ) (hb : b ∈ noiseBands) (hin : InBand b f) :
    w.Puu[i]? = some .nan := by
  obtain ⟨ba, -, h2, h3, h4⟩ := C62_power N ed e frq w h
  have hba : (∀ (k : ℕ) x, ba.Puu[k]? = some x → x = none) ∧ ba.Puu.length = 9 ∧ ba.Pvv.length = 9 ∧ ba.Puv.length = 9 := by
    have len : ∀ e', bandPsd N ed.tin e' frq true = .ok ba → ba.Puu.length = 9 ∧ ba.Pvv.length = 9 ∧ ba.Puv.length = 9 := by
      intro e' hb'
      unfold bandPsd at hb'
      simp only [bind_eq_ok, pure_eq_ok, Except.ok.injEq] at hb'
      obtain ⟨sf, -, puu, hu, pvv, hv, puv, hw, rfl⟩ := hb'
      have l : ∀ P avs, fbndavg P sf.2 frq = .ok avs → avs.length = 9 := by
        intro P avs ha
        unfold fbndavg at ha
        split at ha
        · cases ha
        · cases Except.ok.inj ha
          simp [freqBands]
      exact ⟨l _ _ hu, l _ _ hv, by simpa using l _ _ hw⟩
    by_cases hlt : ed.t.length < ed.tin.length
    · obtain ⟨e', he', hb'⟩ := h3 heq hlt
      refine ⟨?_, len _ hb'⟩
      rw [htin] at hb'
      refine bandPsd_descending N t0 t1 rest e' frq ba h01 ?_ hb'
      unfold complexInterp at he'
      split at he'
      · cases he'
      · cases Except.ok.inj he'
        rw [List.length_map, htin]
    · have hb' := h2 heq hlt
      refine ⟨?_, len _ hb'⟩
      rw [htin] at hb'
      refine bandPsd_descending N t0 t1 rest e frq ba h01 ?_ hb'
      rw [ht, ← htin]
      omega
  obtain ⟨k, hk⟩ := List.getElem?_of_mem hb
  have hk9 : k < 9 := by
    have := (List.getElem?_eq_some_iff.1 hk).1
    simpa [noiseBands] using this
  obtain ⟨-, g⟩ := h4 i f hf
  obtain ⟨g1, -, -⟩ := g k b hk hin _ _ _ (List.getElem?_eq_getElem (by rw [hba.2.1]; exact hk9))
    (List.getElem?_eq_getElem (by rw [hba.2.2.1]; exact hk9)) (List.getElem?_eq_getElem (by rw [hba.2.2.2]; exact hk9))
  rw [g1, hba.1 k _ (List.getElem?_eq_getElem (by rw [hba.2.1]; exact hk9))]
  rfl

theorem lombFreqs_below (t : List ℝ) (h : t.getLastD 0 ≤ t.headD 0) : lombFreqs t = [] := by
  have hf : ∀ f ∈ fourierFreqs t, f ≤ 0 := by
    intro f hf
    unfold fourierFreqs at hf
    obtain ⟨k, hk, rfl⟩ := List.mem_map.1 hf
    have hn : 1 ≤ t.length := by
      have := List.mem_range.1 hk
      omega
    have hn' : (1 : ℝ) ≤ t.length := by exact_mod_cast hn
    refine div_nonpos_of_nonneg_of_nonpos (by positivity) (mul_nonpos_of_nonneg_of_nonpos (Nat.cast_nonneg _) ?_)
    exact div_nonpos_of_nonpos_of_nonneg (by linarith) (by linarith)
  unfold lombFreqs
  rw [List.flatMap_eq_nil_iff]
  intro b hb
  unfold lombBand
  rw [slice_below _ hf b hb]
  simp

theorem descending_ends (t : List ℝ) (h : t.Pairwise (· > ·)) : t.getLastD 0 ≤ t.headD 0 := by
  cases t with
  | nil => simp
  | cons a l =>
    cases hl : l.getLast? with
    | none => simp [List.getLast?_eq_none_iff.1 hl]
    | some b =>
      have hm : b ∈ l := List.mem_of_getLast? hl
      have := (List.pairwise_cons.1 h).1 b hm
      have e : (a :: l).getLastD 0 = b := by
        rw [List.getLastD_cons, List.getLastD_eq_getLast?, hl]; rfl
      rw [e]
      exact le_of_lt this

/-- Samples in descending order of time, unevenly spaced: there are no frequencies at all. -/
theorem bandPsd_uneven_descending (N : Num) (t : List ℝ) (e : List ℂ) (frq : List ℝ) (ba : BandPsd)
    (h : t.Pairwise (· > ·)) (hb : bandPsd N t e frq false = .ok ba) : False := by
  unfold bandPsd at hb
  simp only [bind_eq_ok] at hb
  obtain ⟨⟨s, f⟩, hs, puu, hu, -⟩ := hb
  have ht : (if e.length % 2 = 1 then t.dropLast else t).Pairwise (· > ·) := by
    split
    · exact h.sublist (List.dropLast_sublist t)
    · exact h
  generalize (if e.length % 2 = 1 then t.dropLast else t) = t' at hs ht
  have hth : (t'.map fun x => x * 24).Pairwise (· > ·) := by
    rw [List.pairwise_map]
    exact ht.imp fun h => by
      show _ * (24 : ℝ) > _
      linarith [show _ > _ from h]
  have hf : f = [] := by
    unfold bandSpectra at hs
    simp only [Bool.false_eq_true, if_false] at hs
    split at hs
    · cases hs
    split at hs
    · cases hs
    simp only [bind_eq_ok, pure_eq_ok, Except.ok.injEq, Prod.mk.injEq] at hs
    obtain ⟨_, -, -, rfl⟩ := hs
    exact lombFreqs_below _ (descending_ends _ hth)
  subst hf
  unfold fbndavg at hu
  simp at hu

/-- No power, no interval. -/
theorem linear1_nan (Xu Yu vX vY : ℝ) : (linear1 (some .nan) Xu Yu vX vY).1 = ⟨.nan, .fin 0, .fin 0, .nan⟩ := by
  have hs : ∀ x y : ℝ, (rescale .nan x y).sqrt = .nan := fun x y => rfl
  have hl : ∀ d1 d2 d3 d4 s3 s4 : Fl, linSum d1 d2 d3 d4 .nan .nan s3 s4 = .nan := by
    intro d1 d2 d3 d4 s3 s4
    unfold linSum
    have : Fl.sq .nan = .nan := rfl
    rw [this, mul_nan, mul_nan, nan_add, nan_add, nan_add]
    rfl
  unfold linear1 utLinci
  simp only [hs, hl, if_true, mul_nan]

/-! ## C129 -/

/-- **C129, evenly sampled record in descending order**: with the coloured noise model, the intervals of every
constituent inside one of the nine bands are NaN. -/
theorem C129_descending {E : Env} {t : TimeArg} {u : Series} {lat : Option ℝ} {opts : Dict PyVal} {c : Coef} {tn : List Fl}
    (R : Ready E t u none) (hI : InvOk E.num.inv) (H : ColourRun E t u none lat opts c tn) (t0 t1 : ℝ) (rest : List ℝ)
    (hev : EvenlySpaced (finiteTimes tn)) (hd : finiteTimes tn = t0 :: t1 :: rest) (h01 : t1 < t0) :
    ∃ ci, c.ci = some ci ∧ ∀ (i : ℕ) f, c.frq[i]? = some f → (∃ b ∈ noiseBands, InBand b f) →
      intervalAt ci i = some ⟨.nan, .fin 0, .fin 0, .nan⟩ := by
  obtain ⟨p, constit, m, W, rf, full, o, ind, F, hols, hinf, -⟩ :=
    run_facts R H.keys H.ols H.returned none H.infer (fun s hs => by cases hs) tn H.time
  obtain ⟨x, hx⟩ := F.data R
  obtain ⟨hi, hlt⟩ := F.full_rank R hI hols H.ci
  obtain ⟨ci, pw, hci, -, hw, hrow⟩ := F.ciRow R hI H.keys hols H.ci H.linear hinf x hx
  obtain ⟨w, rfl, hres⟩ := hw H.coloured
  have hcc : c.ci = some (ci.permute ind) := by
    rw [F.solved.result]; show full.ci.map _ = _; rw [hci]; rfl
  obtain ⟨e1, e2, e3, -, e5⟩ := editData_usable _ _ _ (F.samples R).1 _ F.prep.init.edit
  have heq : p.ed.equi = true := by
    rw [(timeStats_ok _ _ _ _ _ _ e5).1]
    exact C68_even _ (by rw [hd]; simp) hev
  refine ⟨ci.permute ind, hcc, fun i f hf hb => ?_⟩
  obtain ⟨b, hb, hin⟩ := hb
  have hcf : c.frq = gather full.frq ind := by rw [F.solved.result]; rfl
  obtain ⟨n, hn⟩ : ∃ n, c.name[i]? = some n := by
    have h1 := (List.getElem?_eq_some_iff.1 hf).1
    have hcn : c.name = gather full.name ind := by rw [F.solved.result]; rfl
    have h2 : c.name.length = c.frq.length := by
      rw [hcn, hcf, (gather_perm full.name (ind := ind) (by rw [F.len.name]; exact F.kept H.keys R H.kept)).length_eq,
        (gather_perm full.frq (ind := ind) (by rw [F.len.frq]; exact F.kept H.keys R H.kept)).length_eq, F.len.name, F.len.frq]
    exact ⟨_, List.getElem?_eq_getElem (by rw [h2]; exact h1)⟩
  obtain ⟨k, hk, hkn, hki, he, ci', hci', hint⟩ := F.position hinf ci hci i n hn
  cases Option.some.inj (hci'.symm.trans hcc)
  obtain ⟨r1, r2⟩ := hrow k hk
  rw [hint, r2]
  have hfk : p.sel.frq[k.val]? = some f := by
    rw [← hf, hcf, gather_getElem? _ _ (by rw [F.len.frq]; exact F.lt), hki, F.solved.frq]
    rfl
  have hP := residualPower_descending E.num p.ed _ _ heq (by
      rw [F.residual R H.keys hols hinf hi x hx, List.length_ofFn, F.prep.height R.ht R.hu R.hv]
      have := congrArg List.length e3
      have h2 := congrArg List.length e2
      rw [List.length_map] at this h2
      rw [this, h2]) (by
      rw [e1, e2, List.length_map, usable_samples _ _ _ (F.samples R).1]
      exact samples_le _ _) t0 t1 rest (e1.trans hd) h01 w hres k.val f hfk b hb hin
  have hrowP : powerRow (some w) Power.Puu k.val = some .nan := hP
  simp only [Option.isSome_none, Bool.false_eq_true, if_false, hrowP, linear1_nan]

/-- **C129, unevenly sampled record in descending order**: with the coloured noise model no intervals can be had, from
any method and from either kind of interval; `solve` fails. -/
theorem C129_uneven {E : Env} {t : TimeArg} {u : Series} {v : Option Series} {lat : Option ℝ} {opts : Dict PyVal} {c : Coef}
    {tn : List Fl} (R : Ready E t u v) (h : solve E t u v lat opts = .ok c)
    (htn : normalizeTime E.dt64 t.arr c.opt.epoch = .ok tn) (hne : isEqui (finiteTimes tn) = false)
    (hd : (sampleTimes tn u v).Pairwise (· > ·)) (hci : c.opt.confInt = true) : c.opt.white = true := by
  obtain ⟨opt, p, tn', constit, m, W, rf, full, o, ind, F⟩ := solve_facts R h
  cases Except.ok.inj (htn.symm.trans (by rw [F.copt]; exact F.prep.init.time))
  obtain ⟨e1, e2, e3, -, e5⟩ := editData_usable _ _ _ (F.samples R).1 _ F.prep.init.edit
  have heq : p.ed.equi = false := by
    rw [(timeStats_ok _ _ _ _ _ _ e5).1]
    exact hne
  rcases F.solved.ci with ⟨h4, -⟩ | ⟨-, ci, hc, -⟩
  · rw [F.prep.hopt, ← F.copt, hci] at h4; cases h4
  by_contra hw
  have hw' : (confIn p m W).white = false := by
    show p.opt.white = false
    rw [F.prep.hopt, ← F.copt]
    simpa using hw
  unfold confidence at hc
  simp only [bind_eq_ok, hw', Bool.false_eq_true, if_false] at hc
  obtain ⟨pw, hpw, -⟩ := hc
  cases hr : residualPower E.num (confIn p m W).ed (confIn p m W).e (confIn p m W).frq with
  | error e => rw [hr] at hpw; cases hpw
  | ok w =>
    obtain ⟨ba, h1, -⟩ := C62_power _ _ _ _ _ hr
    refine bandPsd_uneven_descending _ _ _ _ _ ?_ (h1 heq)
    have : (confIn p m W).ed.t = sampleTimes tn u v := e2
    rw [this]
    exact hd

end

end UTide.Props
