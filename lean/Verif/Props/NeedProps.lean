import Verif.Props.ApplyProps

/-!
# C153: what a prediction is made of
-/

namespace UTide

namespace Props

noncomputable section

open Classical

/-- Specification: nothing of a raw phase, linearised correction or trend, so that time is never measured from the
reference time. -/
def NoReference (c : Coef) : Prop :=
  c.opt.notrend = true ∧ (c.opt.flags.nodsatlint = false ∨ c.opt.flags.nodsatnone = true) ∧
    c.opt.flags.gwchlint = false ∧ c.opt.flags.gwchnone = false

/-- Specification: two solutions agree in what a prediction is made of: names, catalogue entries, ellipses, means and
slopes, the dimension, the trend and the kind of correction; the latitude unless there are no nodal corrections, the
frequencies if the phases are raw and there are no nodal corrections, and the reference time if time is measured
from it. -/
structure SamePrediction (c c' : Coef) : Prop where
  name : c'.name = c.name
  lind : c'.lind = c.lind
  ell : c'.ell = c.ell
  mean : c'.mean = c.mean
  twodim : c'.opt.twodim = c.opt.twodim
  notrend : c'.opt.notrend = c.opt.notrend
  flags : c'.opt.flags = c.opt.flags
  lat : c.opt.flags.nodsatnone = true ∨ c'.lat = c.lat
  frq : c'.frq = c.frq ∨ c'.frq.length = c.frq.length ∧ ¬ (c.opt.flags.nodsatnone = true ∧ c.opt.flags.gwchnone = true)
  reftime : NoReference c ∨ c'.reftime = c.reftime

/-- Specification: the two calls of `reconstruct` ask for the same constituents. The thresholds count only if no
constituents are listed, and the intervals (and the choice to have no diagnostics) only if a threshold is not 0. -/
def SameRequest (c c' : Coef) (a a' : RecArgs) : Prop :=
  a'.epoch = a.epoch ∧ a'.constit = a.constit ∧
    (a.constit ≠ none ∨
      (a.minSNR = 0 ∧ a.minPE = 0 ∨ c.opt.nodiagn = true) ∧ (a'.minSNR = 0 ∧ a'.minPE = 0 ∨ c'.opt.nodiagn = true) ∨
      a'.minSNR = a.minSNR ∧ a'.minPE = a.minPE ∧ c'.ci = c.ci ∧ c'.opt.nodiagn = c.opt.nodiagn)

theorem recIndex_need (c c' : Coef) (a a' : RecArgs) (h : SamePrediction c c') (hr : SameRequest c c' a a') :
    recIndex c' a' = recIndex c a := by
  obtain ⟨he, hc, hr⟩ := hr
  unfold recIndex
  rw [hc, h.name, h.ell]
  cases hcon : a.constit with
  | some rc => rfl
  | none =>
    dsimp only
    rcases hr with h1 | ⟨h1, h2⟩ | ⟨h1, h2, h3, h4⟩
    · exact absurd hcon h1
    · rw [if_pos h1, if_pos h2]
    · rw [h1, h2, h3, h4]

theorem utE_noFrq (fl : Flags) (h : ¬ (fl.nodsatnone = true ∧ fl.gwchnone = true)) (tref lat t f f' : ℝ) (k : ℕ) :
    utE fl tref lat t f k = utE fl tref lat t f' k := by
  unfold utE
  rw [if_neg h, if_neg h]

theorem utE_noRef (fl : Flags) (h : fl.nodsatlint = false ∨ fl.nodsatnone = true) (h1 : fl.gwchlint = false)
    (h2 : fl.gwchnone = false) (r r' lat t f : ℝ) (k : ℕ) : utE fl r lat t f k = utE fl r' lat t f k := by
  have hF : nodF fl r lat t k = nodF fl r' lat t k := by
    unfold nodF
    rcases h with h | h <;> simp [h]
  have hU : nodU fl r lat t k = nodU fl r' lat t k := by
    unfold nodU
    rcases h with h | h <;> simp [h]
  have hV : gwV fl r t k = gwV fl r' t k := by
    unfold gwV
    simp [h1, h2]
  unfold utE
  rw [hF, hU, hV, if_neg (by simp [h2]), if_neg (by simp [h2])]

theorem zipWith_noFrq {α β γ : Type} (g : α → β → γ) (hg : ∀ x y b, g x b = g y b) :
    ∀ (l l' : List α) (m : List β), l.length = l'.length → List.zipWith g l m = List.zipWith g l' m
  | [], [], _, _ => rfl
  | x :: l, y :: l', [], _ => rfl
  | x :: l, y :: l', b :: m, h => by
    simp only [List.zipWith_cons_cons]
    rw [hg x y b, zipWith_noFrq g hg l l' m (by simpa using h)]

theorem gather_length_eq (l l' : List ℝ) (h : l'.length = l.length) (ind : List ℕ) :
    (gather l' ind).length = (gather l ind).length := by
  have hm : l'.map (fun _ => ()) = l.map (fun _ => ()) := by
    rw [List.map_const', List.map_const', h]
  have := congrArg List.length (congrArg (fun z => gather z ind) hm)
  simpa only [gather_map, List.length_map] using this

theorem recFit_need (c c' : Coef) (h : SamePrediction c c') (ind : List ℕ) (t : ℝ) : recFit c' ind t = recFit c ind t := by
  have hE : List.zipWith (utE c'.opt.flags c'.reftime c'.lat t) (gather c'.frq ind) (gather c'.lind ind) =
      List.zipWith (utE c.opt.flags c.reftime c.lat t) (gather c.frq ind) (gather c.lind ind) := by
    rw [h.flags, h.lind]
    have h1 : utE c.opt.flags c'.reftime c'.lat t = utE c.opt.flags c.reftime c.lat t := by
      have ha : utE c.opt.flags c'.reftime c'.lat t = utE c.opt.flags c'.reftime c.lat t := by
        rcases h.lat with hl | hl
        · exact congrFun (congrFun (utE_noLat c.opt.flags hl c'.lat c.lat) c'.reftime) t
        · rw [hl]
      rw [ha]
      rcases h.reftime with hr | hr
      · funext f k
        exact utE_noRef c.opt.flags hr.2.1 hr.2.2.1 hr.2.2.2 _ _ _ _ _ _
      · rw [hr]
    rw [h1]
    rcases h.frq with hf | ⟨hf, hn⟩
    · rw [hf]
    · exact zipWith_noFrq (utE c.opt.flags c.reftime c.lat t)
        (fun x y k => utE_noFrq c.opt.flags hn c.reftime c.lat t x y k) (gather c'.frq ind) (gather c.frq ind)
        (gather c.lind ind) (gather_length_eq c.frq c'.frq hf ind)
  unfold recFit
  dsimp only
  rw [hE, h.twodim, h.ell]

theorem recValue_need (c c' : Coef) (h : SamePrediction c c') (z : ℂ) (t : ℝ) : recValue c' z t = recValue c z t := by
  unfold recValue
  rw [h.twodim, h.mean, h.notrend]
  rcases h.reftime with hr | hr
  · rw [hr.1]
    cases c.opt.twodim <;> cases c.mean <;> rfl
  · rw [hr]

theorem checkRec_need (c c' : Coef) (h : SamePrediction c c') (ind : List ℕ) : checkRec c' ind = checkRec c ind := by
  unfold checkRec
  rw [h.lind, h.flags]
  rcases h.lat with hl | hl
  · have : nodalSingular c.opt.flags c'.lat = nodalSingular c.opt.flags c.lat := by
      funext k
      unfold nodalSingular
      simp [hl]
    rw [this]
  · rw [hl]

/-- **C153.** Predictions made from two solutions that agree in what a prediction is made of, with two requests for the
same constituents, have the same outcome: the same series or the same error. Nothing else recorded in the
solutions (weights, diagnostics, recorded options, the way the solutions were obtained) has an effect. -/
theorem C153_needed (E : Env) (t : TimeArr) (c c' : Coef) (a a' : RecArgs) (h : SamePrediction c c')
    (hr : SameRequest c c' a a') : reconstruct E t c' a' = reconstruct E t c a := by
  have hat : recAt c' = recAt c := by
    funext ind x
    cases x with
    | fin x => simp only [recAt, recFit_need c c' h, recValue_need c c' h]
    | nan => rfl
    | pinf => rfl
    | ninf => rfl
  unfold reconstruct
  rw [hr.1, recIndex_need c c' a a' h hr, hat, funext (checkRec_need c c' h)]

/-- The recorded options are those read from the keyword arguments. -/
theorem solve_opt (E : Env) (t : TimeArg) (u : Series) (v : Option Series) (lat : Option ℝ) (opts : Dict PyVal)
    (c : Coef) (h : solve E t u v lat opts = .ok c) : ∃ q, getOpt opts v.isSome = .ok q ∧ c.opt = q := by
  obtain ⟨q, p, tn, constit, m, W, rf, full, o, ind, h1, h2, h3⟩ := solve_solved _ _ _ _ _ _ _ h
  refine ⟨q, h1, ?_⟩
  rw [h3.result]
  exact h3.head.opt.trans h2.hopt

/-- The correction recorded for `nodal=False`. -/
theorem noNodal_flag (opts : Dict PyVal) (hnd : opts.keys.Nodup) (is2D : Bool) (q : Opt) (hq : getOpt opts is2D = .ok q)
    (hno : requested opts "nodal" = some (.bool false)) : q.flags.nodsatnone = true := by
  obtain ⟨hk, c, oc, ci, me, tr, ph, no, inf, ray, rk, wh, ve, ep, h1, h2, h3, h4, h5, h6, h7, h8, h9, h10,
    h11, h12, h13, r1, r2, r3, r4, r5, r6, r7, r8, r9, r10, r11, r12, r13, r14, r15, r16⟩ := getOpt_ok opts hnd _ q hq
  rw [requested_eq, h7] at hno
  cases Option.some.inj hno
  have hl : q.flags.nodsatlint = false :=
    (Except.ok.inj (show (Except.ok false : Except PyErr Bool) = .ok q.flags.nodsatlint from r11)).symm
  rw [if_neg (by rw [hl]; exact Bool.false_ne_true)] at r12
  have := Except.ok.inj (show (Except.ok false : Except PyErr Bool) = .ok (!q.flags.nodsatnone) from r12)
  cases hv : q.flags.nodsatnone with
  | true => rfl
  | false => rw [hv] at this; cases this

/-- **C153, latitude.** Without nodal corrections the predictions made from the results of two calls that differ in the
latitude are the same. -/
theorem C153_latitude (E : Env) (t : TimeArg) (u : Series) (v : Option Series) (a b : ℝ) (opts : Dict PyVal)
    (hnd : opts.keys.Nodup) (hno : requested opts "nodal" = some (.bool false)) (c c' : Coef)
    (h : solve E t u v (some a) opts = .ok c) (h' : solve E t u v (some b) opts = .ok c') (s : TimeArr) (r : RecArgs) :
    reconstruct E s c' r = reconstruct E s c r := by
  obtain ⟨-, c0, h0, -, hs⟩ := (C152_latitude E t u v a b opts hnd hno).2 c h
  cases Except.ok.inj (h'.symm.trans h0)
  have hflag : c.opt.flags.nodsatnone = true := by
    obtain ⟨q, hq, hc⟩ := solve_opt E t u v _ opts c h
    rw [hc]
    exact noNodal_flag opts hnd _ q hq hno
  rw [hs]
  exact C153_needed E s c _ r r ⟨rfl, rfl, rfl, rfl, rfl, rfl, rfl, .inl hflag, .inl rfl, .inr rfl⟩
    ⟨rfl, rfl, .inr (.inr ⟨rfl, rfl, rfl, rfl⟩)⟩

/-- **C153, options.** The predictions made from the results of two calls that differ only in options that do not apply
(C152) are the same. -/
theorem C153_options (E : Env) (t : TimeArg) (u : Series) (v : Option Series) (lat : Option ℝ) (opts opts' : Dict PyVal)
    (hnd : opts.keys.Nodup) (hnd' : opts'.keys.Nodup)
    (heq : ∀ k, k ∉ conditionalKeys → requested opts k = requested opts' k)
    (hrob : (∃ x, requested opts "method" = some x ∧ x.eqStr "ols" = .ok true) ∨
      requested opts "robust_kw" = requested opts' "robust_kw")
    (hray : ListsConstituents opts ∨ requested opts "Rayleigh_min" = requested opts' "Rayleigh_min")
    (hwh : requested opts "conf_int" = some (.str "none") ∨ requested opts "white" = requested opts' "white")
    (c c' : Coef) (h : solve E t u v lat opts = .ok c) (h' : solve E t u v lat opts' = .ok c') (s : TimeArr)
    (r : RecArgs) : reconstruct E s c' r = reconstruct E s c r := by
  obtain ⟨q, hq, hc⟩ := solve_opt E t u v _ opts c h
  obtain ⟨q', hq', hc'⟩ := solve_opt E t u v _ opts' c' h'
  obtain ⟨c0, h0, hs⟩ :=
    (C152_options E t u v lat opts opts' hnd hnd' q q' hq hq' heq hrob hray hwh).2.1 c h
  cases Except.ok.inj (h'.symm.trans h0)
  obtain ⟨ho, -⟩ := getOpt_apply opts opts' hnd hnd' _ heq hrob q q' hq hq'
  rw [hs, hc', ho, ← hc]
  exact C153_needed E s c _ r r ⟨rfl, rfl, rfl, rfl, rfl, rfl, rfl, .inr rfl, .inl rfl, .inr rfl⟩
    ⟨rfl, rfl, .inr (.inr ⟨rfl, rfl, rfl, rfl⟩)⟩

/-- A solution with one constituent, exact corrections and no trend, written out. -/
def needCoef (ref lat : ℝ) (frq : List ℝ) (w : List ℝ) : Coef where
  name := ["M2"]
  ell := .one [3] [40]
  ci := none
  mean := .one 1 none
  PE := none
  SNR := none
  diagn := none
  frq := frq
  lind := [47]
  reftime := ref
  lat := lat
  opt := { exOpt false with flags := ⟨false, false, false, false⟩, notrend := true, nodiagn := true }
  nR := 0
  nNR := 1
  nI := 0
  weights := w
  rf := none

/-- Non-vacuity: solutions that differ in reference time, frequencies and weights, and requests that differ in the
thresholds. -/
theorem extra_need (c : Coef) (hc : c = needCoef 700000 45 [0.0805] [1, 1]) :
    SamePrediction c (needCoef 710000 45 [0] []) ∧
    SameRequest c (needCoef 710000 45 [0] []) ⟨.none, true, none, 2, 0⟩ ⟨.none, false, none, 0, 5⟩ := by
  subst hc
  refine ⟨⟨rfl, rfl, rfl, rfl, rfl, rfl, rfl, .inr rfl, .inr ⟨rfl, ?_⟩, .inl ⟨rfl, .inl rfl, rfl, rfl⟩⟩,
    rfl, rfl, .inr (.inl ⟨.inr rfl, .inr rfl⟩)⟩
  simp [needCoef]

/-- Non-vacuity: with raw phases and no nodal corrections the latitude may differ. -/
theorem extra_need_lat (E : Env) (t : TimeArr) (r : RecArgs) (c : Coef) (h : c.opt.flags.nodsatnone = true) (lat : ℝ) :
    reconstruct E t { c with lat := lat } r = reconstruct E t c r :=
  C153_needed E t c _ r r ⟨rfl, rfl, rfl, rfl, rfl, rfl, rfl, .inl h, .inl rfl, .inr rfl⟩
    ⟨rfl, rfl, .inr (.inr ⟨rfl, rfl, rfl, rfl⟩)⟩

end

end Props

end UTide
