import Verif.Props.CatalogueProps
import Verif.Props.LinearTime
import Verif.Props.NeedProps
import Verif.Lemmas.SpecScale
import Verif.Lemmas.Mirror
import Verif.Props.ReturnProps

/-!
# C154: the same record at another date
-/

namespace UTide

namespace Props

noncomputable section

open Classical

/-! ## Data editing -/

theorem shift_finiteTimes (s : ℝ) (tn : List Fl) :
    finiteTimes (tn.map (· + Fl.fin s)) = (finiteTimes tn).map (· + s) := by
  unfold finiteTimes
  rw [List.filterMap_map, List.map_filterMap]
  congr 1
  funext x
  cases x <;> rfl

theorem shift_isFinite (s : ℝ) (x : Fl) : (x + Fl.fin s).isFinite = x.isFinite := by cases x <;> rfl

theorem shift_dropTimes (s : ℝ) (tn : List Fl) (u : List Cell) :
    dropTimes (tn.map (· + Fl.fin s)) u = dropTimes tn u := by
  unfold dropTimes
  simp only [List.any_map, List.map_map, Function.comp_def, shift_isFinite]

theorem shift_diffs (s : ℝ) : ∀ t : List ℝ, diffs (t.map (· + s)) = diffs t
  | [] => rfl
  | [_] => rfl
  | a :: b :: l => by
    have := shift_diffs s (b :: l)
    simp only [List.map_cons, diffs] at this ⊢
    rw [this]
    congr 1
    ring

theorem shift_isEqui (s : ℝ) (t : List ℝ) : isEqui (t.map (· + s)) = isEqui t := by
  unfold isEqui
  rw [shift_diffs]

theorem shift_foldl_max (s : ℝ) (l : List ℝ) (a : ℝ) : (l.map (· + s)).foldl max (a + s) = l.foldl max a + s := by
  induction l generalizing a with
  | nil => rfl
  | cons b l ih =>
    simp only [List.map_cons, List.foldl_cons]
    rw [max_add_add_right, ih]

theorem shift_foldl_min (s : ℝ) (l : List ℝ) (a : ℝ) : (l.map (· + s)).foldl min (a + s) = l.foldl min a + s := by
  induction l generalizing a with
  | nil => rfl
  | cons b l ih =>
    simp only [List.map_cons, List.foldl_cons]
    rw [min_add_add_right, ih]

theorem shift_ptp (s : ℝ) (t : List ℝ) : ptp (t.map (· + s)) = ptp t := by
  cases t with
  | nil => rfl
  | cons a l =>
    simp only [List.map_cons, ptp]
    rw [shift_foldl_max, shift_foldl_min]
    congr 1
    ring

theorem shift_midpoint (s : ℝ) (t : List ℝ) : midpoint (t.map (· + s)) = (midpoint t).map (· + s) := by
  cases t with
  | nil => rfl
  | cons a l =>
    simp only [List.map_cons, midpoint, Except.map]
    congr 1
    have : ((a + s) :: l.map (· + s)).getLast (by simp) = (a :: l).getLast (by simp) + s := by
      have := List.getLast_map (f := (· + s)) (l := a :: l) (by simp)
      simpa using this
    rw [this]
    ring

/-- The edited data with all times moved. -/
def moved (s : ℝ) (ed : Edited) : Edited :=
  { ed with tin := ed.tin.map (· + s), t := ed.t.map (· + s), tref := ed.tref + s }

theorem shift_editData (s : ℝ) (tn : List Fl) (u : List Cell) (v : Option (List Cell)) :
    editData (tn.map (· + Fl.fin s)) u v = (editData tn u v).map (moved s) := by
  unfold editData
  simp only [shift_dropTimes, shift_finiteTimes]
  obtain ⟨u', hu⟩ : ∃ x, x = dropTimes tn (u.map maskedInvalid) := ⟨_, rfl⟩
  obtain ⟨v', hv⟩ : ∃ x, x = v.map fun v => dropTimes tn (v.map maskedInvalid) := ⟨_, rfl⟩
  rw [← hu, ← hv]
  obtain ⟨tin, ht⟩ : ∃ x, x = finiteTimes tn := ⟨_, rfl⟩
  rw [← ht]
  have hd : dropMasked (tin.map (· + s)) u' v' =
      ((dropMasked tin u' v').1.map (· + s), (dropMasked tin u' v').2) := by
    unfold dropMasked
    split
    · rw [compress_map]
    · rfl
  rw [hd]
  obtain ⟨⟨t, uu, vv⟩, hdm⟩ : ∃ x, x = dropMasked tin u' v' := ⟨_, rfl⟩
  rw [← hdm]
  dsimp only
  have hs : timeStats (tin.map (· + s)) (t.map (· + s)) =
      (timeStats tin t).map fun x => (x.1 + s, x.2) := by
    unfold timeStats
    rw [shift_isEqui]
    have hx : (if isEqui tin = true then tin.map (· + s) else t.map (· + s)) =
        (if isEqui tin = true then tin else t).map (· + s) := by split <;> rfl
    rw [hx]
    dsimp only
    rw [shift_ptp, shift_midpoint, List.length_map]
    cases ptp (if isEqui tin = true then tin else t) with
    | error e => rfl
    | ok a => cases midpoint (if isEqui tin = true then tin else t) <;> rfl
  rw [hs]
  cases timeStats tin t with
  | error e => rfl
  | ok x => rfl

/-! ## Selection -/

theorem mkInf_name (s : InferSpec) (a b : ℝ) (i : ℕ) :
    mkInf s b i = (mkInf s a i).map fun q => { q with frq := linFreqs b q.lind } := by
  unfold mkInf
  simp only [bind, Except.bind, pure, Except.pure]
  cases getIdx s.amp i with
  | error e => rfl
  | ok x =>
    cases getIdx s.phase i with
    | error e => rfl
    | ok y =>
      dsimp only
      cases inferRm s i _ with
      | error e => rfl
      | ok z =>
        dsimp only
        cases getIdx s.inferred i with
        | error e => rfl
        | ok n =>
          dsimp only
          cases constitIndex n <;> rfl

theorem mkRef_name (s : InferSpec) (a b : ℝ) (n : String) :
    mkRef s b n = (mkRef s a n).map fun r =>
      { r with frq := linFreqs b r.lind, inf := r.inf.map fun q => { q with frq := linFreqs b q.lind } } := by
  unfold mkRef
  simp only [bind, Except.bind, pure, Except.pure]
  cases constitIndex n with
  | error e => rfl
  | ok k =>
    dsimp only
    rw [mapM_map_ok (mkInf s a) (mkInf s b) _ (mkInf_name s a b)]
    cases (refPositions s.reference n).mapM (mkInf s a) <;> rfl

/-- Which constituents are selected does not depend on the reference time. -/
theorem cnstitsel_name (a b : ℝ) (mr : Fl) (inc : Constit) (inf : Option InferSpec) (s s' : Sel)
    (h : cnstitsel a mr inc inf = .ok s) (h' : cnstitsel b mr inc inf = .ok s') : s'.name = s.name := by
  unfold cnstitsel at h h'
  simp only [bind, Except.bind, pure, Except.pure] at h h'
  cases h1 : startLind mr inc with
  | error e => rw [h1] at h; cases h
  | ok l =>
    rw [h1] at h h'
    dsimp only at h h'
    cases h2 : removeRI inf l with
    | error e => rw [h2] at h; cases h
    | ok l' =>
      rw [h2] at h h'
      dsimp only at h h'
      cases inf with
      | none =>
        rw [← Except.ok.inj h, ← Except.ok.inj h']
      | some q =>
        dsimp only at h h'
        rw [mapM_map_ok (mkRef q a) (mkRef q b) _ (mkRef_name q a b)] at h'
        cases h3 : (allRefs q.reference).mapM (mkRef q a) with
        | error e => rw [h3] at h; cases h
        | ok rs =>
          rw [h3] at h h'
          simp only [Except.map] at h h'
          rw [← Except.ok.inj h, ← Except.ok.inj h']
          simp only [List.flatMap_map, List.map_map, Function.comp_def]

/-! ## C154 -/

/-- Specification: two calls with the same data and options, all times of the second being `s` days later. -/
structure Later (E : Env) (t t' : TimeArg) (u : Series) (v : Option Series) (lat : Option ℝ) (opts : Dict PyVal)
    (s : ℝ) (c c' : Coef) : Prop where
  run : solve E t u v lat opts = .ok c
  run' : solve E t' u v lat opts = .ok c'
  times : ∃ tn, normalizeTime E.dt64 t.arr c.opt.epoch = .ok tn ∧
    normalizeTime E.dt64 t'.arr c.opt.epoch = .ok (tn.map (· + Fl.fin s))

variable {E : Env} {t t' : TimeArg} {u : Series} {v : Option Series} {lat : Option ℝ} {opts : Dict PyVal} {s : ℝ}
  {c c' : Coef}

/-- **C154, reference time.** A record taken `s` days later has its reference time `s` days later. -/
theorem C154_reference (L : Later E t t' u v lat opts s c c') : c'.reftime = c.reftime + s := by
  obtain ⟨q, p, tn, con, m, W, rf, full, o, ind, h1, h2, h3⟩ := solve_solved _ _ _ _ _ _ _ L.run
  obtain ⟨q', p', tn', con', m', W', rf', full', o', ind', h1', h2', h3'⟩ := solve_solved _ _ _ _ _ _ _ L.run'
  cases Except.ok.inj (h1.symm.trans h1')
  obtain ⟨tn0, e1, e2⟩ := L.times
  have hc : c.opt = q := by rw [h3.result]; exact h3.head.opt.trans h2.hopt
  rw [hc] at e1 e2
  cases Except.ok.inj (h2.init.time.symm.trans e1)
  cases Except.ok.inj (h2'.init.time.symm.trans e2)
  have he := h2'.init.edit
  rw [shift_editData, h2.init.edit] at he
  have hed : moved s p.ed = p'.ed := Except.ok.inj he
  have r : c.reftime = p.ed.tref := by rw [h3.result]; exact h3.head.reftime
  have r' : c'.reftime = p'.ed.tref := by rw [h3'.result]; exact h3'.head.reftime
  rw [r, r', ← hed]
  rfl

/-- **C154, constituents.** The same constituents are selected, inferred ones included. -/
theorem C154_constituents (L : Later E t t' u v lat opts s c c') (hnd : opts.keys.Nodup) (R : Ready E t u v)
    (R' : Ready E t' u v) (hk : AllKept c) (hk' : AllKept c') :
    c'.name.Perm c.name := by
  obtain ⟨q, p, tn, con, m, W, rf, full, o, ind, F⟩ := solve_facts R L.run
  obtain ⟨q', p', tn', con', m', W', rf', full', o', ind', F'⟩ := solve_facts R' L.run'
  cases Except.ok.inj (F.hopt.symm.trans F'.hopt)
  obtain ⟨tn0, e1, e2⟩ := L.times
  rw [F.copt] at e1 e2
  cases Except.ok.inj (F.prep.init.time.symm.trans e1)
  cases Except.ok.inj (F'.prep.init.time.symm.trans e2)
  have he := F'.prep.init.edit
  rw [shift_editData, F.prep.init.edit] at he
  have hed : moved s p.ed = p'.ed := Except.ok.inj he
  cases Except.ok.inj (F.prep.cons.symm.trans F'.prep.cons)
  have hinf : p.infer = p'.infer := Except.ok.inj (F.prep.hinfer.symm.trans F'.prep.hinfer)
  have hs := F'.prep.hsel
  rw [← hed, ← hinf] at hs
  have hname : p'.sel.name = p.sel.name := cnstitsel_name _ _ _ _ _ _ _ F.prep.hsel hs
  have hpn' := F'.perm_names R' hnd hk'
  rw [hname] at hpn'
  exact hpn'.trans (F.perm_names R hnd hk).symm

/-- The correction recorded for `phase='raw'`. -/
theorem raw_flag (opts : Dict PyVal) (hnd : opts.keys.Nodup) (is2D : Bool) (q : Opt) (hq : getOpt opts is2D = .ok q)
    (hp : requested opts "phase" = some (.str "raw")) : q.flags.gwchnone = true := by
  obtain ⟨hk, c, oc, ci, me, tr, ph, no, inf, ray, rk, wh, ve, ep, h1, h2, h3, h4, h5, h6, h7, h8, h9, h10,
    h11, h12, h13, r1, r2, r3, r4, r5, r6, r7, r8, r9, r10, r11, r12, r13, r14, r15, r16⟩ := getOpt_ok opts hnd _ q hq
  rw [requested_eq, h6] at hp
  cases Option.some.inj hp
  have hl : q.flags.gwchlint = false :=
    (Except.ok.inj (show (Except.ok false : Except PyErr Bool) = .ok q.flags.gwchlint from r13)).symm
  rw [if_neg (by rw [hl]; exact Bool.false_ne_true)] at r14
  exact (Except.ok.inj (show (Except.ok true : Except PyErr Bool) = .ok q.flags.gwchnone from r14)).symm

/-- **C154, harmonics.** Without nodal corrections and with raw phases, the harmonics of the two fits agree to within
`3.1e-7` per day from the reference time, if both reference times are within 400 years of the end of 1899. -/
theorem C154_harmonics (L : Later E t t' u v lat opts s c c') (hnd : opts.keys.Nodup)
    (hn : requested opts "nodal" = some (.bool false)) (hp : requested opts "phase" = some (.str "raw"))
    (h1 : |c.reftime - 693595.5| ≤ 146100) (h2 : |c'.reftime - 693595.5| ≤ 146100) (n : String) (hc : n ∈ c.name) (τ : ℝ) :
    ‖harmonic c' n (τ + s) - harmonic c n τ‖ ≤ 3.1e-7 * |τ - c.reftime| := by
  obtain ⟨q, hq, hco⟩ := solve_opt E t u v lat opts c L.run
  obtain ⟨q', hq', hco'⟩ := solve_opt E t' u v lat opts c' L.run'
  cases Except.ok.inj (hq.symm.trans hq')
  have f1 := noNodal_flag opts hnd _ q hq hn
  have f2 := raw_flag opts hnd _ q hq hp
  have e : ∀ (r l x : ℝ), nameBasis q.flags r l x n = phasor (24 * (x - r) * linFreqs r (constitNames.idxOf n)) := by
    intro r l x
    unfold nameBasis utE phasor
    rw [if_pos ⟨f1, f2⟩, Complex.ofReal_one, one_mul, zero_add]
    congr 1
    push_cast
    ring
  have hk : constitNames.idxOf n < 146 := by
    obtain ⟨i, hi⟩ := List.mem_iff_getElem?.1 hc
    obtain ⟨k, hk, rfl, -⟩ := entry_at L.run i n hi
    rw [idxOf_nameAt hk]
    exact hk
  have hr := C154_reference L
  unfold harmonic
  rw [hco, hco', e, e, hr]
  have hf : |linFreqs (c.reftime + s) (constitNames.idxOf n) - linFreqs c.reftime (constitNames.idxOf n)| ≤ 2e-9 := by
    have a := near_close c.reftime h1 _ hk
    have b := near_close (c.reftime + s) (by rw [← hr]; exact h2) _ hk
    rw [abs_le] at a b ⊢
    constructor <;> linarith [a.1, a.2, b.1, b.2]
  obtain ⟨f, hfd⟩ : ∃ f, f = linFreqs c.reftime (constitNames.idxOf n) := ⟨_, rfl⟩
  obtain ⟨g, hgd⟩ : ∃ g, g = linFreqs (c.reftime + s) (constitNames.idxOf n) := ⟨_, rfl⟩
  rw [← hfd, ← hgd] at hf ⊢
  have hsplit : phasor (24 * (τ + s - (c.reftime + s)) * g) =
      phasor (24 * (τ - c.reftime) * (g - f)) * phasor (24 * (τ - c.reftime) * f) := by
    rw [← phasor_add]
    congr 1
    ring
  have hone : ∀ x, ‖phasor x‖ = 1 := by
    intro x
    unfold phasor
    exact Complex.norm_exp_ofReal_mul_I _
  rw [hsplit, ← sub_one_mul, norm_mul, hone, mul_one]
  refine (norm_phasor_sub_one _).trans ?_
  rw [abs_mul, abs_mul, abs_of_pos (by norm_num : (0 : ℝ) < 24)]
  have hpi := Real.pi_lt_d2
  have h0 := abs_nonneg (τ - c.reftime)
  calc 2 * Real.pi * (24 * |τ - c.reftime| * |g - f|) ≤ 2 * Real.pi * (24 * |τ - c.reftime| * 2e-9) := by gcongr
    _ ≤ 2 * 3.15 * (24 * |τ - c.reftime| * 2e-9) := by gcongr
    _ ≤ 3.1e-7 * |τ - c.reftime| := by nlinarith

/-- **C154, predictions.** A solution without nodal corrections and with raw phases, its reference time moved by `s` days,
predicts for times moved by `s` days what it predicted before: the same series, with NaN at the same places, or the
same error. -/
theorem C154_predictions (E : Env) (t t' : TimeArr) (c : Coef) (a : RecArgs) (s : ℝ)
    (hn : c.opt.flags.nodsatnone = true) (hp : c.opt.flags.gwchnone = true) (tn : List Fl)
    (ht : normalizeTime E.dt64 t a.epoch = .ok tn) (ht' : normalizeTime E.dt64 t' a.epoch = .ok (tn.map (· + Fl.fin s))) :
    reconstruct E t' { c with reftime := c.reftime + s } a = reconstruct E t c a := by
  have hE : ∀ (x f : ℝ) (k : ℕ), utE c.opt.flags (c.reftime + s) c.lat (x + s) f k =
      utE c.opt.flags c.reftime c.lat x f k := by
    intro x f k
    unfold utE
    rw [if_pos ⟨hn, hp⟩, if_pos ⟨hn, hp⟩, add_sub_add_right_eq_sub]
  have hfit : ∀ (ind : List ℕ) (x : ℝ), recFit { c with reftime := c.reftime + s } ind (x + s) = recFit c ind x := by
    intro ind x
    unfold recFit
    have h : utE c.opt.flags (c.reftime + s) c.lat (x + s) = utE c.opt.flags c.reftime c.lat x := by
      funext f k
      exact hE x f k
    dsimp only
    rw [h]
  have hval : ∀ (z : ℂ) (x : ℝ), recValue { c with reftime := c.reftime + s } z (x + s) = recValue c z x := by
    intro z x
    unfold recValue
    simp only [add_sub_add_right_eq_sub]
  have hat : ∀ (ind : List ℕ) (x : Fl), recAt { c with reftime := c.reftime + s } ind (x + Fl.fin s) = recAt c ind x := by
    intro ind x
    cases x with
    | fin x =>
      change (recValue _ (recFit _ ind (x + s)) (x + s)).map some = (recValue c (recFit c ind x) x).map some
      rw [hfit, hval]
    | nan => rfl
    | pinf => rfl
    | ninf => rfl
  have hidx : recIndex { c with reftime := c.reftime + s } a = recIndex c a := rfl
  have hchk : checkRec { c with reftime := c.reftime + s } = checkRec c := rfl
  unfold reconstruct
  rw [ht, ht', hidx, hchk]
  simp only [bind, Except.bind]
  cases recIndex c a with
  | error e => rfl
  | ok ind =>
    dsimp only
    cases checkRec c ind with
    | error e => rfl
    | ok _ =>
      dsimp only
      rw [List.mapM_map]
      exact mapM_congr' _ _ _ fun x _ => hat ind x

/-! ## Example -/

/-- A day of samples starting at `s`. -/
def laterT (s : ℝ) : TimeArg := ⟨[3], .float [.fin (0 + s), .fin (0.5 + s), .fin (1 + s)], []⟩

theorem laterT_times (s : ℝ) : normalizeTime idealEnv.dt64 (laterT s).arr (.str "python") =
    .ok ([.fin 0, .fin 0.5, .fin 1].map (· + Fl.fin s)) := by
  show (Except.ok (List.map _ _) : Except PyErr (List Fl)) = _
  congr 1

theorem later_sound (s : ℝ) : SoundCall idealEnv (laterT s) dayU none 45 exOpts where
  options := {
    nodup := by decide
    names := by decide
    conf := ⟨"none", rfl, by decide⟩
    nodal := ⟨_, .off, rfl, rfl⟩
    phase := ⟨_, .off, rfl, rfl⟩
    method := ⟨_, rfl⟩
    robust := ⟨_, _, rfl⟩
    trend := ⟨_, rfl⟩
    white := ⟨_, rfl⟩
    verbose := ⟨_, rfl⟩
    rayleigh := ⟨_, rfl⟩
    infer := rfl
    order := .inr (.inr (.inl rfl)) }
  ols := rfl
  noConf := rfl
  order := .inr (.inr rfl)
  constit := .inr ⟨.list, ["M2"], by simp, by simp, rfl, fun n hn => M2S2_known n (by simp at hn; simp [hn])⟩
  shapes := ⟨rfl, rfl, by simp⟩
  ht := by simp [TimeArg.WF, TimeArr.length, laterT]
  hu := dayReady.hu
  hv := dayReady.hv
  times := ⟨_, _, rfl, laterT_times s, by
    change usable [.fin (0 + s), .fin (0.5 + s), .fin (1 + s)] _ _ ≠ []
    simp [usable, goodSamples, Fl.toReal?, Cell.value?, dayU]⟩
  latitude := .inl ⟨by norm_num, by norm_num, by norm_num⟩
  length := fun h => absurd (Option.some.inj (show some (PyVal.bool false) = some (.bool true) from h)) (by simp)

/-- Non-vacuity: a raw solution for M2, moved by 5 days. -/
example (c : Coef) (hc : c.opt = exOpt false) :
    reconstruct idealEnv (laterT 5).arr { c with reftime := c.reftime + 5 } ⟨.str "python", false, none, 0, 0⟩ =
      reconstruct idealEnv dayT.arr c ⟨.str "python", false, none, 0, 0⟩ :=
  C154_predictions idealEnv _ _ c _ 5 (by rw [hc]; rfl) (by rw [hc]; rfl) [.fin 0, .fin 0.5, .fin 1]
    (by
      show (Except.ok (List.map _ _) : Except PyErr (List Fl)) = _
      congr 1) (laterT_times 5)

/-- Non-vacuity: a day in 1917 and the same samples 10000 days later; half a day from the reference time the harmonics
of M2 differ by less than `1.6e-7`. -/
example : ∃ c c', solve idealEnv (laterT 700000) dayU none (some 45) exOpts = .ok c ∧
    solve idealEnv (laterT 710000) dayU none (some 45) exOpts = .ok c' ∧ c'.reftime = c.reftime + 10000 ∧
    c'.name.Perm c.name ∧ ∀ n ∈ c.name, ∀ τ, |τ - c.reftime| ≤ 0.5 → ‖harmonic c' n (τ + 10000) - harmonic c n τ‖ ≤ 1.6e-7 := by
  obtain ⟨c, hc⟩ := C75_returns _ _ _ _ _ _ (later_sound 700000)
  obtain ⟨c', hc'⟩ := C75_returns _ _ _ _ _ _ (later_sound 710000)
  have ready : ∀ s, Ready idealEnv (laterT s) dayU none := fun s =>
    idealReady _ _ _ (later_sound s).ht dayReady.hu (by simp)
  have ho : ∀ s c, solve idealEnv (laterT s) dayU none (some 45) exOpts = .ok c → c.opt = exOpt false := by
    intro s c h
    obtain ⟨q, hq, hco⟩ := solve_opt _ _ _ _ _ _ _ h
    rw [hco]
    exact (Except.ok.inj ((exOpt_eq false).symm.trans hq)).symm
  have L : Later idealEnv (laterT 700000) (laterT 710000) dayU none (some 45) exOpts 10000 c c' := by
    refine ⟨hc, hc', [.fin 0, .fin 0.5, .fin 1].map (· + Fl.fin 700000), ?_, ?_⟩
    · rw [ho _ _ hc]
      exact laterT_times 700000
    · rw [ho _ _ hc]
      refine (laterT_times 710000).trans ?_
      congr 1
      change [Fl.fin (0 + 710000), Fl.fin (0.5 + 710000), Fl.fin (1 + 710000)] =
        [Fl.fin (0 + 700000 + 10000), Fl.fin (0.5 + 700000 + 10000), Fl.fin (1 + 700000 + 10000)]
      norm_num
  have hr := C154_reference L
  have hin : 700000 ≤ c.reftime ∧ c.reftime ≤ 700001 := by
    have hfin : finiteTimes ([Fl.fin 0, .fin 0.5, .fin 1].map (· + Fl.fin 700000)) = [0 + 700000, 0.5 + 700000, 1 + 700000] := by
      rw [shift_finiteTimes]
      rfl
    obtain ⟨⟨a, ha, h1⟩, b, hb, h2⟩ := C68_inside idealEnv _ _ _ _ _ (ready 700000).ht (ready 700000).hu (ready 700000).hv c
      hc _ (by rw [ho _ _ hc]; exact laterT_times 700000) (by rw [hfin]; norm_num)
    rw [hfin] at ha hb
    simp only [List.mem_cons, List.not_mem_nil, or_false] at ha hb
    constructor
    · rcases ha with rfl | rfl | rfl <;> linarith
    · rcases hb with rfl | rfl | rfl <;> linarith
  have hk : ∀ s c, solve idealEnv (laterT s) dayU none (some 45) exOpts = .ok c → AllKept c := by
    intro s c h
    refine .inl (.inr (.inl ?_))
    rw [ho s c h]
    exact .inl rfl
  refine ⟨c, c', hc, hc', hr, C154_constituents L (by decide) (ready _) (ready _) (hk _ _ hc) (hk _ _ hc'), ?_⟩
  intro n hn τ hτ
  refine (C154_harmonics L (by decide) rfl rfl ?_ ?_ n hn τ).trans (by nlinarith)
  · rw [abs_le]; constructor <;> linarith [hin.1, hin.2]
  · rw [hr, abs_le]; constructor <;> linarith [hin.1, hin.2]

end

end Props

end UTide
