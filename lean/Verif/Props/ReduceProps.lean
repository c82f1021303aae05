import Verif.Props.FillProps
import Verif.Props.NestedProps

/-!
# Leaving out what was fitted as zero: C108
-/

namespace UTide.Props

noncomputable section

open Classical

local notation "conj" => starRingEnd ℂ

/-! ## Lemmas -/

theorem ell_normal (td : Bool) (a b : ℂ) (e : Ell) (he : e = if td then ell2 a b else ell1 a b) :
    e = (if td then ell2 (ccw e) (cw e) else ell1 (ccw e) (cw e)) ∧ (e.Lsmaj = 0 → e.Lsmin = 0) := by
  cases td with
  | true =>
    simp only [if_true] at he ⊢
    subst he
    refine ⟨by rw [ccw_ell2, cw_ell2], fun h => ?_⟩
    rw [ell2_eq] at h ⊢
    dsimp only at h ⊢
    have h1 := norm_nonneg a
    have h2 := norm_nonneg b
    linarith
  | false =>
    simp only [Bool.false_eq_true, if_false] at he ⊢
    subst he
    refine ⟨?_, fun _ => by rw [ell1_eq]⟩
    have h : ccw (ell1 a b) + conj (cw (ell1 a b)) = a + conj b := by
      rw [ccw_ell1, cw_ell1, Complex.conj_conj]; ring
    rw [ell1_eq (ccw (ell1 a b)), h, ell1_eq]

section
variable {E : Env} {t : TimeArg} {u : Series} {v : Option Series} {lat : Option ℝ} {opts : Dict PyVal}
  {c : Coef} {opt : Opt} {p : Prep} {tn : List Fl} {constit : Constit} {m : List ℂ} {W : List ℝ}
  {rf : Option RobOut} {full : Coef} {o : Order} {ind : List ℕ}

/-- The rotating components by name, with the ellipses they give and the curve they make up. -/
theorem Facts.parts (F : Facts E t u v lat opts c opt p tn constit m W rf full o ind) (R : Ready E t u v)
    (hnd : opts.keys.Nodup) (h : solve E t u v lat opts = .ok c) (hk : AllKept c) (hn : c.name.Nodup) :
    ∃ (P M : String → ℂ) (mean slope : ℂ), TiedRotary p.infer v.isSome P M ∧ (opt.notrend = true → slope = 0) ∧
      (∀ n, n ∉ c.name → P n = 0 ∧ M n = 0) ∧
      (∀ i n, c.name[i]? = some n → ∃ e, ellipseAt c.ell i = some e ∧
        e = (if v.isSome then ell2 (P n) (M n) else ell1 (P n) (M n)) ∧ (e.Lsmaj = 0 → P n = 0 ∧ M n = 0)) ∧
      (∀ τ, level c τ = mean + slope * ((τ - c.reftime : ℝ) : ℂ)) ∧
      ∀ τ, curve full (List.range p.sel.lind.length) τ = rotaryCurve c P M mean slope τ := by
  obtain ⟨P, M, mean, slope, h1, h2, h0, h3, h4⟩ := F.components R hnd hk hn
  have hperm := F.perm_names R hnd hk
  refine ⟨P, M, mean, slope, h1, h2, h0, ?_, h4, fun τ => ?_⟩
  · intro i n hi
    obtain ⟨e, he, e1, e2⟩ := h3 i n hi
    obtain ⟨P', M', mean', slope', hP', hM', hs', hm'⟩ := F.exists_coef (hperm.nodup_iff.1 hn) m F.mlen
    obtain ⟨r1, -⟩ := F.read hnd P' M' mean' slope' hP' hM' hm'
    have he' := he
    rw [r1, ellipseAt_map, hi] at he'
    obtain ⟨n1, n2⟩ := ell_normal v.isSome (P' n) (M' n) e (Option.some.inj he').symm
    rw [e1, e2] at n1
    refine ⟨e, he, n1, fun hz => ?_⟩
    have hz' := n2 hz
    constructor
    · rw [← e1]; unfold ccw; rw [hz, hz']; simp
    · rw [← e2]; unfold cw; rw [hz, hz']; simp
  · have ha : RecArgs.Everything { epoch := .str "python", constit := none, minSNR := 0, minPE := 0, verbose := false } :=
      ⟨rfl, rfl, rfl⟩
    have e1 := F.reconstruct_all R hnd hk _ ha E (.float [.fin τ])
    have e2 := predicted R hnd h hk P M h3 _ ha E (.float [.fin τ])
    have ht : normalizeTime E.dt64 (.float [.fin τ]) (.str "python") = .ok [.fin τ] := by
      rfl
    rw [e1] at e2
    dsimp only at e2
    rw [ht] at e2
    have := Except.ok.inj e2
    simp only [List.map_cons, List.map_nil, Fl.toReal?, Option.map_some, List.cons.injEq, Option.some.injEq, and_true] at this
    rw [this, h4]
    unfold rotaryCurve
    ring

/-- The misfit of an ordinary least-squares fit. -/
theorem Facts.cost_fit (F : Facts E t u v lat opts c opt p tn constit m W rf full o ind) (R : Ready E t u v)
    (hnd : opts.keys.Nodup) (hols : opt.method = .ols) (hex : approxOf p.infer = false) :
    cost p.B (xraw p.ed) m = ((UTide.Props.samples tn (sampleValues u.data (v.map Series.data))).map fun s =>
      ‖s.2 - curve full (List.range p.sel.lind.length) s.1‖ ^ 2).sum := by
  rw [F.cost_eq R, usable_samples _ _ _ (F.samples R).1]
  congr 1
  refine List.map_congr_left fun s hs' => ?_
  have hτ : s.1 ∈ p.ed.t := by
    rw [(F.samples R).2.1, usable_samples _ _ _ (F.samples R).1]; exact List.mem_map_of_mem hs'
  rw [F.curve_eq R hnd hols hex _ hτ]

/-- Coefficients set to zero outside the result stay tied. -/
theorem Facts.cut (F : Facts E t u v lat opts c opt p tn constit m W rf full o ind) (R : Ready E t u v)
    (hnd : opts.keys.Nodup) (hk : AllKept c) (f : InfCon → ℂ) (A : String → ℂ) (h : TiedBy p.sel f A) :
    TiedBy p.sel f fun n => if n ∈ c.name then A n else 0 := by
  have hperm := F.perm_names R hnd hk
  have hnames := F.prep.aligned.names
  intro r hr q hq
  have h1 : r.name ∈ c.name := by
    rw [hperm.mem_iff, hnames]
    simp only [List.mem_append, List.mem_map]
    exact .inl (.inr ⟨r, hr, rfl⟩)
  have h2 : q.name ∈ c.name := by
    rw [hperm.mem_iff, hnames]
    simp only [List.mem_append, List.mem_flatMap, List.mem_map]
    exact .inr ⟨r, hr, q, hq, rfl⟩
  dsimp only
  rw [if_pos h1, if_pos h2]
  exact h r hr q hq

end

/-! ## C108 -/

/-- **C108.** `c` and `c'` are ordinary least-squares analyses of the same record, `c'` with only some of the
constituents of `c`, perhaps without the trend. If everything left out was found to be zero in `c` (amplitude zero, no
slope), then the rest is the same in both: every ellipse, mean and trend. (The samples separate the constituents of
`c'`; those of `c` need not be separated.) -/
theorem C108_reduced (E : Env) (t : TimeArg) (u : Series) (v : Option Series) (lat : Option ℝ) (opts opts' : Dict PyVal)
    (R : Ready E t u v) (hnd : opts.keys.Nodup) (hnd' : opts'.keys.Nodup)
    (hm : ∃ x, requested opts "method" = some x ∧ IsStr x "ols")
    (hm' : ∃ x, requested opts' "method" = some x ∧ IsStr x "ols") (c c' : Coef)
    (h : solve E t u v lat opts = .ok c) (h' : solve E t u v lat opts' = .ok c') (hk : AllKept c) (hk' : AllKept c')
    (hn : c.name.Nodup) (hsub : ∀ n ∈ c'.name, n ∈ c.name)
    (hsame : ∀ k ∈ ["nodal", "phase", "epoch", "infer"], requested opts k = requested opts' k)
    (hzero : ∀ (i : ℕ) (n : String) (e : Ell), c.name[i]? = some n → n ∉ c'.name → ellipseAt c.ell i = some e →
      e.Lsmaj = 0)
    (htr : c.opt.notrend = true → c'.opt.notrend = true)
    (hslope : c'.opt.notrend = true → ∀ τ, level c τ = level c c.reftime)
    (sp : Option InferSpec) (hi : readInfer c'.opt.infer = .ok sp) (hex : ∀ s, sp = some s → s.approximate = false)
    (tn : List Fl) (htn : normalizeTime E.dt64 t.arr c'.opt.epoch = .ok tn)
    (hsep : Separated c' sp v.isSome (SampleTime tn u.data (v.map Series.data))) : SameTide c c' := by
  have hfl : c'.opt.flags = c.opt.flags ∧ c'.opt.epoch = c.opt.epoch ∧ c'.opt.infer = c.opt.infer := by
    obtain ⟨opt, p, tn0, constit, m, W, rf, full, o, ind, F⟩ := solve_facts R h
    obtain ⟨opt', p', tn1, constit', m', W', rf', full', o', ind', F'⟩ := solve_facts R h'
    obtain ⟨e1, e2, -, e4⟩ := getOpt_fields opts opts' hnd hnd' _ _ _ F.hopt F'.hopt
    rw [F.copt, F'.copt]
    exact ⟨e1 (hsame _ (by simp)) (hsame _ (by simp)), e2 (hsame _ (by simp)), e4 (hsame _ (by simp))⟩
  obtain ⟨hfl, hep, hin⟩ := hfl
  obtain ⟨p, constit, m, W, rf, full, o, ind, F, hols, hinf, hex1⟩ := run_facts R hnd hm h sp (by rw [← hin]; exact hi)
    hex tn (by rw [← hep]; exact htn)
  obtain ⟨p', constit', m', W', rf', full', o', ind', F', hols', hinf', hex2⟩ := run_facts R hnd' hm' h' sp hi hex tn htn
  have hed : p'.ed = p.ed := Except.ok.inj (F'.prep.init.edit.symm.trans F.prep.init.edit)
  have hlat : p'.lat = p.lat := Option.some.inj (F'.prep.init.hlat.symm.trans F.prep.init.hlat)
  have href : c'.reftime = c.reftime := by rw [F.creftime, F'.creftime, hed]
  have hh : ∀ n τ, harmonic c' n τ = harmonic c n τ := by
    intro n τ
    rw [F.harmonic_eq, F'.harmonic_eq, hed, hlat, hfl]
  have hn' := hsep.names
  rw [← hinf'] at hsep
  have hn2 := (F'.perm_names R hnd' hk').nodup_iff.1 hn'
  obtain ⟨P, M, mean, slope, hT, hs, hz, hell, hlev, hcur⟩ := F.parts R hnd h hk hn
  -- what is left out is zero
  have hout : ∀ n, n ∉ c'.name → P n = 0 ∧ M n = 0 := by
    intro n hn0
    by_cases hc : n ∈ c.name
    · obtain ⟨i, hi⟩ := List.getElem?_of_mem hc
      obtain ⟨e, he, -, h0⟩ := hell i n hi
      exact h0 (hzero i n e hi hn0 he)
    · exact hz n hc
  have hs' : c'.opt.notrend = true → slope = 0 := by
    intro hnt
    have := hslope hnt (c.reftime + 1)
    rw [hlev, hlev] at this
    simpa using this
  -- curves of the small model are curves of the large one
  have hcurve : ∀ (Q N : String → ℂ) (a b : ℂ) (τ : ℝ), (∀ n, n ∉ c'.name → Q n = 0 ∧ N n = 0) →
      rotaryCurve c' Q N a b τ = rotaryCurve c Q N a b τ := by
    intro Q N a b τ h0
    unfold rotaryCurve
    rw [href, sum_subset hn' hn hsub _ (fun n hn => by rw [(h0 n hn).1, (h0 n hn).2]; ring)]
    simp only [hh]
  rw [hinf, ← hinf'] at hT
  obtain ⟨hP, hM⟩ := F'.tiedBy hnd' P M hT
  have a1 := F.minNorm R hols
  have a2 := F'.minNorm R hols'
  have hmeq : m' = nameCoef p'.sel (!c'.opt.notrend) P M mean (slope * (p'.ed.lor : ℂ)) := by
    refine optimal_unique p'.nm p'.B (xraw p'.ed) _ _ (F'.prep.height R.ht R.hu R.hv) (F'.indep R hnd' hk' hex2 hsep)
      a2.length (F'.nameCoef_length _ _ _ _) a2.optimal ?_
    intro y hy
    obtain ⟨Q, N, k, s, hQ, hN, hs2, rfl⟩ := F'.exists_coef hn2 y hy
    rw [F'.cost_curve R hnd' hk' hex2 _ _ _ _ hP hM hs', F'.cost_curve R hnd' hk' hex2 _ _ _ _ hQ hN hs2]
    have hT' := F'.tiedRotary hnd' _ _ (F'.cut R hnd' hk' _ _ hQ) (F'.cut R hnd' hk' _ _ hN)
    rw [hinf', ← hinf] at hT'
    obtain ⟨hQ1, hN1⟩ := F.tiedBy hnd _ _ hT'
    have h1 := a1.optimal _ (F.nameCoef_length (fun n => if n ∈ c'.name then Q n else 0)
      (fun n => if n ∈ c'.name then N n else 0) k (s * (p.ed.lor : ℂ)))
    rw [F.cost_fit R hnd hols hex1, F.cost_curve R hnd hk hex1 _ _ _ _ hQ1 hN1 (fun h => hs2 (htr h))] at h1
    have e1 : ∀ τ, rotaryCurve c' P M mean slope τ = curve full (List.range p.sel.lind.length) τ := by
      intro τ
      rw [hcur, hcurve _ _ _ _ _ hout]
    have e2 : ∀ τ, rotaryCurve c' Q N k s τ = rotaryCurve c (fun n => if n ∈ c'.name then Q n else 0)
        (fun n => if n ∈ c'.name then N n else 0) k s τ := by
      intro τ
      rw [← hcurve _ _ _ _ _ (fun n hn => by simp [hn])]
      unfold rotaryCurve
      congr 3
      refine List.map_congr_left fun n hn => ?_
      simp only [hn, if_true]
    simp only [e1, e2]
    exact h1
  obtain ⟨r1, r2⟩ := F'.read hnd' P M mean slope hP hM hmeq
  refine ⟨?_, ?_⟩
  · intro i j n hi hj
    obtain ⟨e, he, he1, -⟩ := hell i n hi
    rw [r1, ellipseAt_map, hj, he, he1]
    rfl
  · intro τ
    rw [level_meanRec c' _ _ _ _ hs' r2 τ, hlev, href]
    cases hv : v.isSome with
    | true => simp
    | false =>
      simp only [Bool.false_eq_true, if_false]
      obtain ⟨P', M', mean', slope', hP', hM', hs0, hm0⟩ := F.exists_coef ((F.perm_names R hnd hk).nodup_iff.1 hn) m F.mlen
      obtain ⟨-, r0⟩ := F.read hnd P' M' mean' slope' hP' hM' hm0
      have h0 := level_meanRec c _ _ _ _ hs0 r0 τ
      rw [hv, hlev] at h0
      simp only [Bool.false_eq_true, if_false] at h0
      rw [h0, Complex.ofReal_re]

end

end UTide.Props
