import Verif.Props.WhiteProps
import Verif.Props.RobustScale
import Verif.Props.SixExample
import Verif.Props.FillExample

/-!
# Records without a usable sample: C123
-/

namespace UTide.Props

noncomputable section

open Classical

local notation "conj" => starRingEnd ℂ

/-! ## Specification -/

/-- No row has both a finite time and a value. -/
def NoSamples (tn : List Fl) (u : Series) (v : Option Series) : Prop :=
  ∀ i, ¬ UsableRow tn (sampleValues u.data (v.map Series.data)) i

/-- C123 as claimed: a record without any usable sample is refused. -/
def C123_full : Prop :=
  ∀ (E : Env) (t : TimeArg) (u : Series) (v : Option Series) (lat : Option ℝ) (opts : Dict PyVal), NumOk E.num →
    Ready E t u v → opts.keys.Nodup → ∀ (c : Coef) (tn : List Fl), solve E t u v lat opts = .ok c →
      normalizeTime E.dt64 t.arr c.opt.epoch = .ok tn → ¬ NoSamples tn u v

/-! ## Lemmas -/

section
variable {E : Env} {t : TimeArg} {u : Series} {v : Option Series} {lat : Option ℝ} {opts : Dict PyVal}
  {c : Coef} {opt : Opt} {p : Prep} {tn : List Fl} {constit : Constit} {m : List ℂ} {W : List ℝ}
  {rf : Option RobOut} {full : Coef} {o : Order} {ind : List ℕ}

theorem Facts.no_rows (F : Facts E t u v lat opts c opt p tn constit m W rf full o ind) (R : Ready E t u v)
    (h0 : NoSamples tn u v) : usable tn u.data (v.map Series.data) = [] ∧ p.ed.t = [] ∧ p.B = [] ∧ xraw p.ed = [] := by
  obtain ⟨l1, l2, l3⟩ := F.samples R
  have hs : usable tn u.data (v.map Series.data) = [] := by
    rw [usable_samples _ _ _ l1]
    refine List.eq_nil_iff_forall_not_mem.2 fun s hs => ?_
    obtain ⟨i, h1, h2⟩ := (mem_samples _ _ _).1 hs
    exact h0 i ⟨_, _, h1, h2⟩
  rw [hs] at l2 l3
  refine ⟨hs, by simpa using l2, ?_, by simpa using l3⟩
  have := F.t_length
  rw [l2] at this
  exact List.length_eq_zero_iff.1 (by simpa using this.symm)

theorem minNorm_nil (n : ℕ) (m : List ℂ) (h : IsMinNormSol n [] [] m) : m = List.replicate n 0 := by
  have h1 := h.minimal (List.replicate n 0) (by simp) (by simp [cost])
  have h2 : normSq (List.replicate n (0 : ℂ)) = 0 := by simp [normSq]
  rw [h2] at h1
  refine List.eq_replicate_iff.2 ⟨h.length, fun b hb => ?_⟩
  have h3 : ‖b‖ ^ 2 ≤ normSq m := by
    unfold normSq
    exact List.single_le_sum (fun x hx => by obtain ⟨y, -, rfl⟩ := List.mem_map.1 hx; positivity) _
      (List.mem_map.2 ⟨b, hb, rfl⟩)
  have h4 : ‖b‖ ^ 2 = 0 := le_antisymm (h3.trans h1) (by positivity)
  simpa using h4

end

/-- Preparation of the matrix succeeds without inference, whatever values are missing, if the times give a reference
time. -/
theorem prep_edited (E : Env) (t : TimeArg) (u : Series) (v : Option Series) (la : ℝ)
    (opt : Opt) (tn : List Fl) (constit : Constit) (hinf : readInfer opt.infer = .ok none)
    (hc : readConstit opt.cnstit = .ok constit) (hk : KnownConstit opt.flags constit)
    (hs : GoodShapes t u v) (htn : normalizeTime E.dt64 t.arr opt.epoch = .ok tn)
    (ed : Edited) (hed : editData tn u.data (v.map Series.data) = .ok ed)
    (hlat : ∀ k, nodalSingular opt.flags la k = false) (htr : opt.notrend = true) :
    ∃ p, PrepOk E opt t u v (some la) tn constit p := by
  have hinit : InitOk E opt t u v (some la) tn ed la := ⟨rfl, hs, htn, hed⟩
  obtain ⟨l, hl, hemp⟩ := startLind_total opt.flags ((Fl.fin (opt.rmin : ℝ)).div (.fin (24 * ed.lor))) constit hk
  obtain ⟨sel, hsel⟩ : ∃ sel, cnstitsel ed.tref ((Fl.fin (opt.rmin : ℝ)).div (.fin (24 * ed.lor))) constit none
      = .ok sel := by
    unfold cnstitsel
    rw [hl]
    exact ⟨_, rfl⟩
  obtain ⟨hsl, hnr, -, -⟩ := cnstitsel_none _ _ _ _ hsel
  have hlsel : sel.lind = l := by rw [hl] at hsl; exact (Except.ok.inj hsl).symm
  have hcheck : checkMatrix opt (constit == .auto) none ed la sel = .ok () := by
    unfold checkMatrix
    rw [hnr, hlsel]
    have e1 : (l.isEmpty && !((constit == .auto) && (none : Option InferSpec).isNone) &&
        !(opt.flags.nodsatnone && opt.flags.gwchnone)) = false := by simpa using hemp
    have e2 : ((usedLind sel).any (nodalSingular opt.flags la)) = false := by
      rw [List.any_eq_false]; intro k _; simp [hlat k]
    simp only [e1, e2, raiseIf, Bool.false_eq_true, if_false]
    simp only [ok_bind]
    rw [if_neg (by simp [htr])]
  exact ⟨⟨opt, none, ed, la, sel, numCols (!opt.notrend) sel,
      ed.t.map (modelRow opt.flags ed.tref la ed.lor (!opt.notrend) (approxOf none) sel)⟩,
      ⟨hinit, hc, hinf, hsel, hcheck, rfl, rfl, rfl⟩⟩

/-! ## C123 -/

/-- A record of three missing values. -/
def emptyT : TimeArg := ⟨[3], .float [.fin 0, .fin 0.5, .fin 1], []⟩
def emptyU : Series := ⟨[3], [⟨.nan, false⟩, ⟨.nan, false⟩, ⟨.nan, false⟩]⟩

theorem empty_ready : Ready idealEnv emptyT emptyU none :=
  idealReady _ _ _ (by simp [TimeArg.WF, TimeArr.length, emptyT]) (by simp [Series.WF, emptyU]) (by simp)

theorem empty_samples : NoSamples [.fin 0, .fin 0.5, .fin 1] emptyU none := by
  rintro i ⟨τ, x, -, h⟩
  have e : sampleValues emptyU.data (Option.map Series.data none) = [none, none, none] := by
    simp [sampleValues, emptyU, Cell.value?, Fl.toReal?]
  rw [e] at h
  match i with
  | 0 | 1 | 2 => simp at h
  | n + 3 => simp at h

theorem empty_returns : ∃ c, solve idealEnv emptyT emptyU none (some 45) gwOpts = .ok c ∧ c.opt = gwOpt := by
  obtain ⟨ed, hed⟩ : ∃ ed, editData [.fin 0, .fin 0.5, .fin 1] emptyU.data (Option.map Series.data none) = .ok ed := by
    have he : isEqui [0, 0.5, 1] = true := C68_even _ (by simp) ⟨0.5, by
      intro i a b h1 h2
      match i with
      | 0 => simp at h1 h2; rw [← h1, ← h2]; norm_num
      | 1 => simp at h1 h2; rw [← h1, ← h2]; norm_num
      | n + 2 => simp at h2⟩
    have ht : ∃ r, timeStats [0, 0.5, 1] [] = .ok r := by
      unfold timeStats
      rw [he]
      exact ⟨_, rfl⟩
    obtain ⟨r, hr⟩ := ht
    show ∃ ed, editData [.fin 0, .fin 0.5, .fin 1] emptyU.data none = .ok ed
    rw [editData_none _ _ (by simp [emptyU])]
    have hg : goodSamples [.fin 0, .fin 0.5, .fin 1] emptyU.data = [] := by
      simp [goodSamples, emptyU, Fl.toReal?, Cell.value?]
    unfold editOf
    rw [hg]
    have hf : finiteTimes [.fin 0, .fin 0.5, .fin 1] = [0, 0.5, 1] := by simp [finiteTimes, Fl.toReal?]
    rw [hf, List.map_nil, hr]
    exact ⟨_, rfl⟩
  obtain ⟨p, hp⟩ := prep_edited idealEnv emptyT emptyU none 45 gwOpt [.fin 0, .fin 0.5, .fin 1] (.names ["M2"]) rfl rfl
    ⟨by simpa using M2_known, .inl (by simp)⟩ ⟨rfl, rfl, by simp⟩ rfl ed hed (fun k => by simp [nodalSingular, gwOpt]) rfl
  have hpo := hp.hopt
  have hsol : ∃ c, stageSolution idealEnv p = .ok c := by
    unfold stageSolution stageFit stageConf stageDiagn
    rw [hpo]
    exact ⟨_, rfl⟩
  obtain ⟨c, hcf⟩ := hsol
  obtain ⟨m, W, rf, c1, c2, o', hs'⟩ := (stageSolution_ok idealEnv p c).1 hcf
  have hc := (solve_ok idealEnv emptyT emptyU none (some 45) gwOpts c).2
    ⟨gwOpt, p, _, _, m, W, rf, c1, c2, o', gwOpt_eq, hp, hs'⟩
  refine ⟨c, hc, ?_⟩
  obtain ⟨opt, p, tn, constit, m, W, rf, full, o, ind, F⟩ := solve_facts empty_ready hc
  rw [F.copt]
  exact Except.ok.inj (F.hopt.symm.trans gwOpt_eq)

/-- C123 is false as claimed: three missing values at times 0, 0.5 and 1 are analysed. -/
theorem C123_false : ¬ C123_full := by
  intro h
  obtain ⟨c, hc, ho⟩ := empty_returns
  exact h idealEnv emptyT emptyU none (some 45) gwOpts idealNum_ok empty_ready (by decide) c _ hc
    (by rw [ho]; rfl) empty_samples

/-- C123, what holds: without any usable sample, `method='ols'` returns only if the times are found evenly spaced and no
confidence intervals are asked for. All amplitudes returned are then 0, and so are mean and trend. -/
theorem C123_partial (E : Env) (t : TimeArg) (u : Series) (v : Option Series) (lat : Option ℝ) (opts : Dict PyVal)
    (hN : NumOk E.num) (R : Ready E t u v) (hnd : opts.keys.Nodup)
    (hm : ∃ x, requested opts "method" = some x ∧ IsStr x "ols") (c : Coef) (tn : List Fl)
    (h : solve E t u v lat opts = .ok c) (htn : normalizeTime E.dt64 t.arr c.opt.epoch = .ok tn)
    (h0 : NoSamples tn u v) :
    isEqui (finiteTimes tn) = true ∧ c.ci = none ∧
      (∀ i e, ellipseAt c.ell i = some e → e.Lsmaj = 0 ∧ e.Lsmin = 0) ∧ ∀ τ, level c τ = 0 := by
  obtain ⟨opt, p, tn0, constit, m, W, rf, full, o, ind, F⟩ := solve_facts R h
  have hc := F.copt
  subst hc
  cases Except.ok.inj (F.prep.init.time.symm.trans htn)
  have hols : c.opt.method = .ols := by
    obtain ⟨x, hx, hx'⟩ := hm
    exact (getOpt_requests _ hnd _ _ F.hopt).ols _ hx (by rcases hx' with rfl | rfl <;> simp [PyVal.eqStr])
  obtain ⟨z1, z2, z3, z4⟩ := F.no_rows R h0
  refine ⟨?_, ?_, ?_⟩
  · obtain ⟨tn1, e1, -, e3⟩ := C68_reftime E t u v lat opts R.ht R.hu R.hv c h
    cases Except.ok.inj (htn.symm.trans e1)
    by_contra hq
    obtain ⟨a, b, e4, -⟩ := e3 (by simpa using hq)
    rw [z1] at e4
    simp at e4
  · rcases F.solved.ci with ⟨-, h2⟩ | ⟨h1, -⟩
    · rw [F.solved.result]; show full.ci.map _ = _; rw [h2]; rfl
    · obtain ⟨-, hlt⟩ := F.full_rank R hN.inv hols (by rw [← F.prep.hopt]; exact h1)
      rw [z3] at hlt
      simp at hlt
  · have a1 := F.minNorm R hols
    rw [z3, z4] at a1
    have hm0 := minNorm_nil _ _ a1
    have hzero : m = nameCoef p.sel (!c.opt.notrend) (fun _ => 0) (fun _ => 0) 0 (0 * (p.ed.lor : ℂ)) := by
      rw [hm0]
      symm
      refine List.eq_replicate_iff.2 ⟨F.nameCoef_length _ _ _ _, fun b hb => ?_⟩
      unfold nameCoef at hb
      simp only [zero_mul, List.mem_append, List.mem_map, List.mem_singleton] at hb
      rcases hb with ((((⟨n, -, rfl⟩ | ⟨n, -, rfl⟩) | ⟨r, -, rfl⟩) | ⟨r, -, rfl⟩) | rfl) | hb
      · rfl
      · rfl
      · rfl
      · rfl
      · rfl
      · split at hb
        · simpa using hb
        · simp at hb
    obtain ⟨e1, e2⟩ := F.read hnd (fun _ => 0) (fun _ => 0) 0 0 (fun _ _ _ _ => by simp) (fun _ _ _ _ => by simp) hzero
    refine ⟨fun i e he => ?_, fun τ => ?_⟩
    · rw [e1, ellipseAt_map] at he
      cases hi : c.name[i]? with
      | none => rw [hi] at he; simp at he
      | some n =>
        rw [hi] at he
        simp only [Option.map_some, Option.some.injEq] at he
        rw [← he]
        split
        · simp [ell2, cs2cep2]
        · simp [ell1, cs2cep1]
    · rw [level_meanRec c _ _ 0 0 (fun _ => rfl) e2 τ]
      simp

/-- C123, robust method: without any usable sample it does not return. -/
theorem C123_robust (E : Env) (t : TimeArg) (u : Series) (v : Option Series) (lat : Option ℝ) (opts : Dict PyVal)
    (hN : NumOk E.num) (R : Ready E t u v) (hnd : opts.keys.Nodup) (kw : List (String × PyVal)) (hr : AsksRobust opts kw)
    (hh : Harmless kw) (c : Coef) (tn : List Fl)
    (h : solve E t u v lat opts = .ok c) (htn : normalizeTime E.dt64 t.arr c.opt.epoch = .ok tn) :
    ¬ NoSamples tn u v := by
  intro h0
  obtain ⟨opt, p, tn0, constit, m, W, rf, full, o, ind, F⟩ := solve_facts R h
  have hc := F.copt
  subst hc
  cases Except.ok.inj (F.prep.init.time.symm.trans htn)
  have hrob := F.method_robust hnd hr
  obtain ⟨z1, z2, z3, z4⟩ := F.no_rows R h0
  have hf := F.solved.fit
  unfold stageFit at hf
  rw [F.prep.hopt, hrob] at hf
  simp only [bind_eq_ok, pure_eq_ok] at hf
  obtain ⟨a, ha, out, hout, -⟩ := hf
  rw [z3, z4] at hout
  obtain ⟨wf, e, n, -, -, -, -, -, -, hsome, -⟩ := robustfit_spec E.num a p.nm [] [] out hout
  have hrc := hh.args ha
  unfold passFit weightedFit at hsome
  have h1 : List.zipWith (fun (wi : ℝ) (r : List ℂ) => r.map fun x => (wi : ℂ) * x)
      (passW E.num (robProblem E.num a wf p.nm [] []) n) (robProblem E.num a wf p.nm [] []).X = [] := by
    show List.zipWith _ _ [] = []
    simp
  have h2 : List.zipWith (fun (wi : ℝ) (yi : ℂ) => (wi : ℂ) * yi)
      (passW E.num (robProblem E.num a wf p.nm [] []) n) (robProblem E.num a wf p.nm [] []).y = [] := by
    show List.zipWith _ _ [] = []
    simp
  rw [h1, h2] at hsome
  have h3 := ((hN.lstsq (some a.rcond) p.nm [] [] (by simp) rfl).2 hrc).2.2.1 hsome
  simp at h3

/-- The same record with the robust method. -/
example (c : Coef) : solve idealEnv emptyT emptyU none (some 45) (methodOpts "robust" sixKw) ≠ .ok c := by
  intro h
  obtain ⟨opt, p, tn, constit, m, W, rf, full, o, ind, F⟩ := solve_facts empty_ready h
  have htn := F.prep.init.time
  have ho : opt.epoch = .str "python" := by
    have := F.hopt
    rw [show getOpt (methodOpts "robust" sixKw) (none : Option Series).isSome =
      .ok { exOpt false with method := .robust sixKw } from rfl] at this
    rw [← Except.ok.inj this]; rfl
  have ht : tn = [.fin 0, .fin 0.5, .fin 1] := by
    rw [ho] at htn
    exact (Except.ok.inj htn).symm
  exact C123_robust idealEnv emptyT emptyU none (some 45) (methodOpts "robust" sixKw) idealNum_ok empty_ready (by decide) sixKw
    ⟨⟨"robust", by decide, rfl⟩, false, rfl⟩ ⟨by decide, by simp [sixKw]⟩ c tn h (by rw [F.copt]; exact htn)
    (by rw [ht]; exact empty_samples)

/-- The case of `C123_false`: amplitude and mean 0. -/
example : ∃ c, solve idealEnv emptyT emptyU none (some 45) gwOpts = .ok c ∧ c.ci = none ∧ level c 0 = 0 := by
  obtain ⟨c, hc, ho⟩ := empty_returns
  obtain ⟨-, h2, -, h4⟩ := C123_partial idealEnv emptyT emptyU none (some 45) gwOpts idealNum_ok empty_ready (by decide)
    ⟨_, rfl, .inl rfl⟩ c _ hc (by rw [ho]; rfl) empty_samples
  exact ⟨c, hc, h2, h4 0⟩

end

end UTide.Props
