import Verif.Props.ShuffleProps
import Verif.Props.SuperExamples

/-!
# The components of a current: C93
-/

namespace UTide.Props

noncomputable section

open Classical

local notation "conj" => starRingEnd ℂ

/-! ## Specification -/

/-- `u'` and `w'` are the components `u` and `w` of a current, both with a gap wherever one of them has a gap. -/
def Components (tn : List Fl) (u w u' w' : Series) : Prop :=
  ∀ (i : ℕ) (τ : ℝ), tn[i]? = some (.fin τ) → ∃ z, (sampleValues u.data (some w.data))[i]? = some z ∧
    (sampleValues u'.data none)[i]? = some (z.map fun x => ((x.re : ℝ) : ℂ)) ∧
    (sampleValues w'.data none)[i]? = some (z.map fun x => ((x.im : ℝ) : ℂ))

/-! ## The predicted curve -/

/-- Contribution of a constituent from its two rotating components. -/
theorem tide_rotary {E : Env} {t : TimeArg} {u : Series} {v : Option Series} {lat : Option ℝ} {opts : Dict PyVal}
    {c : Coef} (h : solve E t u v lat opts = .ok c) (τ : ℝ) (i : ℕ) (n : String) (e : Ell) (hn : c.name[i]? = some n)
    (he : ellipseAt c.ell i = some e) :
    tide c τ i = harmonic c n τ * ccw e + conj (harmonic c n τ) * cw e := by
  obtain ⟨e1, e2, e3⟩ := permute_aligned h
  have hi : i < c.name.length := (List.getElem?_eq_some_iff.1 hn).1
  have hi' : i < c.lind.length := by rw [e1, List.length_map] at hi; exact hi
  have hz : utE c.opt.flags c.reftime c.lat τ (c.frq.getD i 0) (c.lind.getD i 0) = harmonic c n τ := by
    have hn' : n = nameAt c.lind[i] := by
      rw [List.getElem?_eq_getElem hi] at hn
      rw [← Option.some.inj hn]; simp only [e1, List.getElem_map]
    have hf : c.frq.getD i 0 = linFreqs c.reftime c.lind[i] := by
      rw [List.getD_eq_getElem _ _ (by rw [e2, List.length_map]; exact hi')]; simp only [e2, List.getElem_map]
    unfold harmonic nameBasis
    rw [hn', hf, List.getD_eq_getElem _ _ hi', idxOf_nameAt (e3 _ (List.getElem_mem hi'))]
  rw [vector_rotary]
  unfold tide
  rw [hz]
  dsimp only
  cases hell : c.ell with
  | one A g =>
    rw [hell] at he
    simp only [ellipseAt, Option.bind_eq_some_iff, Option.map_eq_some_iff] at he
    obtain ⟨a, ha, b, hb, rfl⟩ := he
    simp only [List.getD_eq_getElem?_getD, ha, hb, Option.getD_some, cisd_zero, one_mul, zero_mul]
    rfl
  | two A m th g =>
    rw [hell] at he
    simp only [ellipseAt, Option.bind_eq_some_iff, Option.map_eq_some_iff] at he
    obtain ⟨a, ha, b, hb, d, hd, f, hf, rfl⟩ := he
    simp only [List.getD_eq_getElem?_getD, ha, hb, hd, hf, Option.getD_some]

/-- Everything that is predicted from a result whose rotating components are known by name. -/
theorem predicted {E : Env} {t : TimeArg} {u : Series} {v : Option Series} {lat : Option ℝ} {opts : Dict PyVal}
    (R : Ready E t u v) (hnd : opts.keys.Nodup) {c : Coef} (h : solve E t u v lat opts = .ok c) (hk : AllKept c)
    (P M : String → ℂ) (hc : ∀ i n, c.name[i]? = some n → ∃ e, ellipseAt c.ell i = some e ∧ ccw e = P n ∧ cw e = M n)
    (a : RecArgs) (ha : RecArgs.Everything a) (E' : Env) (t' : TimeArr) :
    reconstruct E' t' c a = (normalizeTime E'.dt64 t' a.epoch).map fun tn => tn.map fun x => x.toReal?.map fun τ =>
      level c τ + (c.name.map fun n => harmonic c n τ * P n + conj (harmonic c n τ) * M n).sum := by
  rw [C36_selected E t u v lat opts R hnd c h hk E' t' a]
  congr 1
  funext tn
  refine List.map_congr_left fun x _ => ?_
  congr 1
  funext τ
  congr 2
  have hall : (List.range c.name.length).filter (Selected c a) = List.range c.name.length := by
    refine List.filter_eq_self.2 fun i _ => ?_
    obtain ⟨h1, h2, h3⟩ := ha
    simp only [Selected, h1, h2, h3, true_and, true_or, decide_true]
  rw [hall]
  apply List.ext_getElem
  · simp
  · intro i h1 h2
    simp only [List.getElem_map, List.getElem_range]
    have hi : c.name[i]? = some (c.name[i]'(by simpa using h2)) := List.getElem?_eq_getElem _
    obtain ⟨e, g1, g2, g3⟩ := hc i _ hi
    rw [tide_rotary h τ i _ e hi g1, g2, g3]

section
variable {E : Env} {t : TimeArg} {u : Series} {lat : Option ℝ} {opts : Dict PyVal}
  {c : Coef} {opt : Opt} {p : Prep} {tn : List Fl} {constit : Constit} {m : List ℂ} {W : List ℝ}
  {rf : Option RobOut} {full : Coef} {o : Order} {ind : List ℕ}

/-- Scalar series: the two rotating components are conjugate, mean and slope real. -/
theorem Facts.conjugate (F : Facts E t u none lat opts c opt p tn constit m W rf full o ind) (R : Ready E t u none)
    (hnd : opts.keys.Nodup) (hols : opt.method = .ols) (P M : String → ℂ) (mean slope : ℂ)
    (hP : TiedBy p.sel InfCon.Rp P) (hM : TiedBy p.sel InfCon.Rm M) (hs : opt.notrend = true → slope = 0)
    (hm : m = nameCoef p.sel (!opt.notrend) P M mean (slope * (p.ed.lor : ℂ))) :
    (∀ n ∈ p.sel.name, M n = conj (P n)) ∧ mean.im = 0 ∧ slope.im = 0 := by
  have hlens := fun s hs => F.inferLengths hnd s hs
  simp only [Option.isSome_none, Bool.false_eq_true, if_false] at hlens
  have hconj : p.sel.Conj := sel_conj F.prep.hsel fun s hs => (hlens s hs).2.1.le
  obtain ⟨l1, l2, l3⟩ := F.samples R
  have hreal : ∀ z ∈ xraw p.ed, conj z = z := by
    intro z hz
    rw [l3] at hz
    obtain ⟨s, hs, rfl⟩ := List.mem_map.1 hz
    rw [usable_samples _ _ _ l1, mem_samples] at hs
    obtain ⟨i, -, hs⟩ := hs
    simp only [Option.map_none, sampleValues, List.getElem?_map] at hs
    cases hu : u.data[i]? with
    | none => rw [hu] at hs; simp at hs
    | some y =>
      rw [hu] at hs
      simp only [Option.map_some, Option.some.injEq, Option.map_eq_some_iff] at hs
      obtain ⟨y', -, hy⟩ := hs
      rw [← hy, Complex.conj_ofReal]
  have a1 := F.minNorm R hols
  rw [F.prep.nm, F.prep.B] at a1
  have hal := F.prep.aligned
  have hbl := nameCoef_blocks hal (!opt.notrend) P M mean (slope * (p.ed.lor : ℂ))
  rw [← hm] at hbl
  obtain ⟨m1, m2, m3, m4⟩ := mirror_unique hal hconj _ _ _ _ _ _ _ _ hreal (by rw [l2, l3]; simp) m a1 _ _ _ _ _ _ hbl
  have hall := allAm_conj hconj _ _ _ _ _ _ _ _ hbl m1 m2
  rw [hm, nameCoef_allAp hal _ _ _ _ _ hP, nameCoef_allAm hal _ _ _ _ _ hM, List.map_map] at hall
  refine ⟨List.map_inj_left.1 hall, Complex.conj_eq_iff_im.1 m3, ?_⟩
  cases hnt : opt.notrend with
  | true => rw [hs hnt]; rfl
  | false =>
    rw [hnt] at m4
    have h0 := F.lorNonzero hnt
    have : conj (slope * (p.ed.lor : ℂ)) = slope * (p.ed.lor : ℂ) := by simpa using m4
    have := Complex.conj_eq_iff_im.1 this
    rw [Complex.im_mul_ofReal] at this
    exact (mul_eq_zero.1 this).resolve_right h0

theorem Facts.counts {v : Option Series} (F : Facts E t u v lat opts c opt p tn constit m W rf full o ind) :
    c.nNR + c.nR + c.nI = p.sel.nNR + p.sel.nR + p.sel.nI := by
  have h1 : c.nNR = full.nNR := by rw [F.solved.result]; rfl
  have h2 : c.nR = full.nR := by rw [F.solved.result]; rfl
  have h3 : c.nI = full.nI := by rw [F.solved.result]; rfl
  rw [h1, h2, h3, F.solved.head.nNR, F.solved.head.nR, F.solved.head.nI]
  rfl

end

/-! ## C93 -/

theorem AllKept.transfer {c c' : Coef} (h : AllKept c) (hn : c'.name.Perm c.name)
    (ho : c'.opt.ordercnstit = c.opt.ordercnstit) (hc : c'.nNR + c'.nR + c'.nI = c.nNR + c.nR + c.nI) : AllKept c' := by
  unfold AllKept at h ⊢
  rw [ho, hn.nodup_iff, hn.length_eq, hc]
  exact h


theorem sampleValues_re {tn : List Fl} {u w u' w' : Series} (h : Components tn u w u' w') :
    Transformed (fun _ z => ((z.re : ℝ) : ℂ)) tn u (some w) u' none ∧
    Transformed (fun _ z => ((z.im : ℝ) : ℂ)) tn u (some w) w' none := by
  constructor
  · intro i τ hi
    obtain ⟨z, h1, h2, -⟩ := h i τ hi
    show (sampleValues u'.data none)[i]? = (sampleValues u.data (some w.data))[i]?.map _
    rw [h1, h2]; rfl
  · intro i τ hi
    obtain ⟨z, h1, -, h2⟩ := h i τ hi
    show (sampleValues w'.data none)[i]? = (sampleValues u.data (some w.data))[i]?.map _
    rw [h1, h2]; rfl

/-- **C93.** A current `(u, w)` and its components analysed one by one. `opts'` is `opts` with, if there is inference,
the ratios and offsets written twice (once for each direction of rotation, as the code requires for a vector). -/
theorem C93_components (E : Env) (t : TimeArg) (u w u' w' : Series) (lat : Option ℝ) (opts opts' : Dict PyVal)
    (R : Ready E t u (some w)) (Ru : Ready E t u' none) (Rw : Ready E t w' none)
    (hnd : opts.keys.Nodup) (hnd' : opts'.keys.Nodup)
    (hsame : ∀ k, k ≠ "infer" → requested opts k = requested opts' k)
    (hm : ∃ x, requested opts "method" = some x ∧ IsStr x "ols")
    (c a b : Coef) (h : solve E t u (some w) lat opts' = .ok c) (ha : solve E t u' none lat opts = .ok a)
    (hb : solve E t w' none lat opts = .ok b) (hk : AllKept c) (hn : c.name.Nodup)
    (sp : Option InferSpec) (hi : readInfer a.opt.infer = .ok sp) (hi' : readInfer c.opt.infer = .ok (sp.map doubled))
    (tn : List Fl) (htn : normalizeTime E.dt64 t.arr c.opt.epoch = .ok tn) (hC : Components tn u w u' w') :
    (a.name.Perm c.name ∧ b.name.Perm c.name) ∧
    (∃ mu mv su sv, a.mean = .one mu su ∧ b.mean = .one mv sv ∧
      c.mean = .two mu mv (su.bind fun x => sv.map fun y => (x, y))) ∧
    (∀ i j k n, c.name[i]? = some n → a.name[j]? = some n → b.name[k]? = some n → ∃ e e' e'',
      ellipseAt c.ell i = some e ∧ ellipseAt a.ell j = some e' ∧ ellipseAt b.ell k = some e'' ∧
      ccw e = ccw e' + Complex.I * ccw e'' ∧ cw e = cw e' + Complex.I * cw e'') ∧
    ∀ (E' : Env) (t' : TimeArr) (x : RecArgs), RecArgs.Everything x → ∀ r, reconstruct E' t' c x = .ok r →
      ∃ ru rv, reconstruct E' t' a x = .ok ru ∧ reconstruct E' t' b x = .ok rv ∧
        r = List.zipWith (fun y z => y.bind fun y => z.map fun z => (⟨y.re, z.re⟩ : ℂ)) ru rv := by
  obtain ⟨optc, p, tn0, constit, m, W, rf, full, o, ind, F⟩ := solve_facts R h
  obtain ⟨opta, pa, tna, constita, ma, Wa, rfa, fulla, oa, inda, Fa⟩ := solve_facts Ru ha
  obtain ⟨optb, pb, tnb, constitb, mb, Wb, rfb, fullb, ob, indb, Fb⟩ := solve_facts Rw hb
  have hcc := F.copt
  have hca := Fa.copt
  have hcb := Fb.copt
  subst hcc hca hcb
  cases Except.ok.inj (F.prep.init.time.symm.trans htn)
  have hab : b.opt = a.opt := Except.ok.inj (Fb.hopt.symm.trans Fa.hopt)
  have hinfa : pa.infer = sp := Except.ok.inj (Fa.prep.hinfer.symm.trans hi)
  have hinfb : pb.infer = sp := Except.ok.inj (Fb.prep.hinfer.symm.trans (by rw [hab]; exact hi))
  have hinf : p.infer = sp.map doubled := Except.ok.inj (F.prep.hinfer.symm.trans hi')
  have hoo := getOpt_infer opts' opts hnd' hnd _ _ (fun k hk => (hsame k hk).symm) _ _ F.hopt Fa.hopt
  have hlens := fun s hs => Fa.inferLengths hnd s hs
  simp only [Option.isSome_none, Bool.false_eq_true, if_false] at hlens
  have hcs : ∀ tref mr con, cnstitsel tref mr con sp = cnstitsel tref mr con p.infer := by
    intro tref mr con
    rw [hinf]
    cases hsp : sp with
    | none => rfl
    | some s =>
      obtain ⟨l1, l2, l3⟩ := hlens s (hinfa.trans hsp)
      exact (cnstitsel_doubled tref mr con s l2 l3 l1).symm
  have hap : approxOf sp = approxOf p.infer := by
    rw [hinf]; cases sp <;> rfl
  have hsm : SameModel c.opt a.opt :=
    ⟨by rw [hoo], by rw [hoo], by rw [hoo], by rw [hoo], by rw [hoo]⟩
  have hsm' : SameModel c.opt b.opt := by rw [hab]; exact hsm
  obtain ⟨tc1, tc2⟩ := sampleValues_re hC
  have htna : tna = tn := by
    have h1 := Fa.prep.init.time
    rw [hsm.epoch, htn] at h1
    exact (Except.ok.inj h1).symm
  have htnb : tnb = tn := by
    have h1 := Fb.prep.init.time
    rw [hsm'.epoch, htn] at h1
    exact (Except.ok.inj h1).symm
  subst htna
  subst htnb
  obtain ⟨-, T⟩ := twin F Fa R Ru hsm (by rw [hinfa]; exact hcs) (by rw [hinfa]; exact hap) _ tc1
  obtain ⟨-, T'⟩ := twin F Fb R Rw hsm' (by rw [hinfb]; exact hcs) (by rw [hinfb]; exact hap) _ tc2
  have hq := getOpt_requests _ hnd _ _ Fa.hopt
  have holsa : a.opt.method = .ols := by
    obtain ⟨x, hx, hs⟩ := hm
    exact hq.ols x hx ((eqStr_iff _ _).2 hs)
  have hols : c.opt.method = .ols := by
    rw [hoo] at holsa; exact holsa
  have holsb : b.opt.method = .ols := by rw [hab]; exact holsa
  have hnt : a.opt.notrend = c.opt.notrend := hsm.notrend
  have hnt' : b.opt.notrend = c.opt.notrend := hsm'.notrend
  -- the coefficients
  have hx : xraw p.ed = vadd (xraw pa.ed) (vscale Complex.I (xraw pb.ed)) := by
    obtain ⟨us, x1, x2, x3⟩ := T.x
    obtain ⟨us', y1, y2, y3⟩ := T'.x
    have : us' = us := by
      have e1 : us'.map Prod.fst = us.map Prod.fst := y1.symm.trans x1
      have e2 : us'.map Prod.snd = us.map Prod.snd := y2.symm.trans x2
      exact List.ext_getElem (by simpa using congrArg List.length e1) fun i h1 h2 => by
        have g1 := List.getElem_of_eq e1 (i := i) (by simpa using h1)
        have g2 := List.getElem_of_eq e2 (i := i) (by simpa using h1)
        simp only [List.getElem_map] at g1 g2
        exact Prod.ext g1 g2
    subst this
    rw [x2, x3, y3, vscale, List.map_map]
    unfold vadd
    rw [zipWith_map_same]
    refine List.map_congr_left fun s _ => ?_
    simp only [Function.comp]
    rw [mul_comm]
    exact (Complex.re_add_im _).symm
  have hha := Fa.prep.height Ru.ht Ru.hu Ru.hv
  have hhb := Fb.prep.height Rw.ht Rw.hu Rw.hv
  have m1 := F.minNorm R hols
  have m2 := Fa.minNorm Ru holsa
  have m3 := (Fb.minNorm Rw holsb).scale Complex.I Complex.I_ne_zero
  rw [T.nm, T.B] at m2
  rw [T'.nm, T'.B] at m3
  rw [T.B] at hha
  rw [T'.B] at hhb
  rw [hx] at m1
  have hmm : m = vadd ma (vscale Complex.I mb) :=
    IsMinNormSol.unique (by simp [hha, ← hhb]) m1 (m2.add hha (by simp [hhb]) m3)
  have hn' : p.sel.name.Nodup := (F.perm_names R hnd' hk).nodup_iff.1 hn
  obtain ⟨P, M, mean, slope, hP, hM, hs, hmc⟩ := Fa.exists_coef (by rw [T.sel]; exact hn') ma Fa.mlen
  obtain ⟨Q, N, mean', slope', hQ, hN, hs', hmc'⟩ := Fb.exists_coef (by rw [T'.sel]; exact hn') mb Fb.mlen
  obtain ⟨r1, r2⟩ := Fa.read hnd P M mean slope hP hM hmc
  obtain ⟨r1', r2'⟩ := Fb.read hnd Q N mean' slope' hQ hN hmc'
  obtain ⟨k1, k2, k3⟩ := Fa.conjugate Ru hnd holsa P M mean slope hP hM hs hmc
  obtain ⟨k1', k2', k3'⟩ := Fb.conjugate Rw hnd holsb Q N mean' slope' hQ hN hs' hmc'
  rw [T.sel, T.lor, hnt] at hmc
  rw [T'.sel, T'.lor, hnt'] at hmc'
  rw [T.sel] at hP hM k1
  rw [T'.sel] at hQ hN k1'
  have hP2 : TiedBy p.sel InfCon.Rp fun n => P n + Complex.I * Q n := by
    intro r hr q hq; dsimp only; rw [hP r hr q hq, hQ r hr q hq]; ring
  have hM2 : TiedBy p.sel InfCon.Rm fun n => M n + Complex.I * N n := by
    intro r hr q hq; dsimp only; rw [hM r hr q hq, hN r hr q hq]; ring
  obtain ⟨r3, r4⟩ := F.read hnd' _ _ (mean + Complex.I * mean') (slope + Complex.I * slope') hP2 hM2 (by
    rw [hmm, hmc, hmc', vscale_nameCoef, vadd_nameCoef2]; ring_nf)
  have hoa : oa = o := by
    have h1 := Fa.solved.order
    rw [Fa.prep.hopt, hoo] at h1
    have h2 := F.solved.order
    rw [F.prep.hopt] at h2
    exact Except.ok.inj (h1.symm.trans h2)
  have hob : ob = o := by
    have h1 := Fb.solved.order
    rw [Fb.prep.hopt, hab, hoo] at h1
    have h2 := F.solved.order
    rw [F.prep.hopt] at h2
    exact Except.ok.inj (h1.symm.trans h2)
  have na := same_names F Fa R Ru hnd' T.sel hk hoa
  have nb := same_names F Fb R Rw hnd' T'.sel hk hob
  have hka : AllKept a := hk.transfer na (by rw [hoo]) (by rw [Fa.counts, F.counts, T.sel])
  have hkb : AllKept b := hk.transfer nb (by rw [hab, hoo]) (by rw [Fb.counts, F.counts, T'.sel])
  have hmem : ∀ n ∈ c.name, n ∈ p.sel.name := fun n h => (F.perm_names R hnd' hk).subset h
  have ea : ∀ j n, a.name[j]? = some n → ∃ e, ellipseAt a.ell j = some e ∧ ccw e = P n ∧ cw e = M n := by
    intro j n hj
    have hx := k1 n (hmem n (na.subset (List.mem_of_getElem? hj)))
    refine ⟨_, by rw [r1, ellipseAt_map, hj]; rfl, ?_, ?_⟩
    · simp only [Option.isSome_none, Bool.false_eq_true, if_false, ccw_ell1, hx, Complex.conj_conj]; ring
    · simp only [Option.isSome_none, Bool.false_eq_true, if_false, cw_ell1, hx, Complex.conj_conj, map_div₀, map_add]
      rw [map_ofNat]; ring
  have eb : ∀ j n, b.name[j]? = some n → ∃ e, ellipseAt b.ell j = some e ∧ ccw e = Q n ∧ cw e = N n := by
    intro j n hj
    have hx := k1' n (hmem n (nb.subset (List.mem_of_getElem? hj)))
    refine ⟨_, by rw [r1', ellipseAt_map, hj]; rfl, ?_, ?_⟩
    · simp only [Option.isSome_none, Bool.false_eq_true, if_false, ccw_ell1, hx, Complex.conj_conj]; ring
    · simp only [Option.isSome_none, Bool.false_eq_true, if_false, cw_ell1, hx, Complex.conj_conj, map_div₀, map_add]
      rw [map_ofNat]; ring
  have ec : ∀ j n, c.name[j]? = some n → ∃ e, ellipseAt c.ell j = some e ∧ ccw e = P n + Complex.I * Q n ∧
      cw e = M n + Complex.I * N n := by
    intro j n hj
    refine ⟨_, by rw [r3, ellipseAt_map, hj]; rfl, ?_, ?_⟩
    · simp only [Option.isSome_some, if_true, ccw_ell2]
    · simp only [Option.isSome_some, if_true, cw_ell2]
  refine ⟨⟨na, nb⟩, ?_, ?_, ?_⟩
  · refine ⟨_, _, _, _, r2, r2', ?_⟩
    rw [r4, hnt, hnt']
    unfold meanRec
    simp only [Option.isSome_some, if_true, Complex.add_re, Complex.add_im, Complex.I_mul_re, Complex.I_mul_im, k2, k2', k3,
      k3']
    cases c.opt.notrend <;> simp
  · intro i j k n hi hj hk
    obtain ⟨e, f1, f2, f3⟩ := ec i n hi
    obtain ⟨e', g1, g2, g3⟩ := ea j n hj
    obtain ⟨e'', g4, g5, g6⟩ := eb k n hk
    exact ⟨e, e', e'', f1, g1, g4, by rw [f2, g2, g5], by rw [f3, g3, g6]⟩
  · intro E' t' x hx r hr
    rw [predicted R hnd' h hk _ _ ec x hx E' t'] at hr
    rw [predicted Ru hnd ha hka _ _ ea x hx E' t', predicted Rw hnd hb hkb _ _ eb x hx E' t']
    cases hnt0 : normalizeTime E'.dt64 t' x.epoch with
    | error e => rw [hnt0] at hr; cases hr
    | ok tn1 =>
      rw [hnt0] at hr
      refine ⟨_, _, rfl, rfl, ?_⟩
      rw [← Except.ok.inj hr, zipWith_map_same]
      refine List.map_congr_left fun y _ => ?_
      cases y.toReal? with
      | none => rfl
      | some τ =>
        simp only [Option.map_some, Option.bind_some, Option.some.injEq]
        have hfa : ∀ n, harmonic a n τ = harmonic c n τ := by
          intro n; unfold harmonic
          rw [Fa.creftime, F.creftime, Fa.clat, F.clat, T.tref, T.lat, hsm.flags]
        have hfb : ∀ n, harmonic b n τ = harmonic c n τ := by
          intro n; unfold harmonic
          rw [Fb.creftime, F.creftime, Fb.clat, F.clat, T'.tref, T'.lat, hsm'.flags]
        have hra : a.reftime = c.reftime := by rw [Fa.creftime, F.creftime, T.tref]
        have hrb : b.reftime = c.reftime := by rw [Fb.creftime, F.creftime, T'.tref]
        simp only [hfa, hfb]
        rw [(na.map _).sum_eq, (nb.map _).sum_eq, level_meanRec c _ _ _ _ (by
            intro h; rw [hs (hnt.trans h), hs' (hnt'.trans h)]; ring) r4 τ, level_meanRec a _ _ _ _ hs r2 τ,
          level_meanRec b _ _ _ _ hs' r2' τ, hra, hrb]
        have hreal : ∀ (P M : String → ℂ), (∀ n ∈ p.sel.name, M n = conj (P n)) →
            ∃ x : ℝ, (c.name.map fun n => harmonic c n τ * P n + conj (harmonic c n τ) * M n).sum = (x : ℂ) := by
          intro P M hPM
          refine ⟨(c.name.map fun n => 2 * (harmonic c n τ * P n).re).sum, ?_⟩
          rw [ofReal_sum_map]
          refine congrArg List.sum (List.map_congr_left fun n hn => ?_)
          rw [hPM n (hmem n hn), ← map_mul, Complex.add_conj]
        obtain ⟨xa, hxa⟩ := hreal P M k1
        obtain ⟨xb, hxb⟩ := hreal Q N k1'
        have hsum : (c.name.map fun n => harmonic c n τ * (P n + Complex.I * Q n) +
            conj (harmonic c n τ) * (M n + Complex.I * N n)).sum = (xa : ℂ) + Complex.I * (xb : ℂ) := by
          rw [← hxa, ← hxb, ← List.sum_map_mul_left, ← List.sum_map_add]
          refine congrArg List.sum (List.map_congr_left fun n _ => ?_)
          ring
        rw [hsum, hxa, hxb]
        apply Complex.ext <;> simp [k2, k2', k3, k3']

/-- Current `(1, 0), (0, 1), (2, 1), (5, 0)`. -/
example : ∃ c a b e e' e'' mu mv su sv, solve idealEnv quadT (quadSeries 1 0 2 5) (some (quadSeries 0 1 1 0)) (some 45) exOpts = .ok c ∧
    solve idealEnv quadT (quadSeries 1 0 2 5) none (some 45) exOpts = .ok a ∧
    solve idealEnv quadT (quadSeries 0 1 1 0) none (some 45) exOpts = .ok b ∧
    a.mean = .one mu su ∧ b.mean = .one mv sv ∧
    c.mean = .two mu mv (su.bind fun x => sv.map fun y => (x, y)) ∧
    ellipseAt c.ell 0 = some e ∧ ellipseAt a.ell 0 = some e' ∧ ellipseAt b.ell 0 = some e'' ∧
    ccw e = ccw e' + Complex.I * ccw e'' := by
  obtain ⟨c, hc, D⟩ := quad_run 1 0 2 5 (some (quadSeries 0 1 1 0)) (.inr ⟨_, _, _, _, rfl⟩)
  obtain ⟨a, ha, Da⟩ := quad_run 1 0 2 5 none (.inl rfl)
  obtain ⟨b, hb, Db⟩ := quad_run 0 1 1 0 none (.inl rfl)
  obtain ⟨-, ⟨mu, mv, su, sv, h1, h2, h3⟩, h4, -⟩ := C93_components idealEnv quadT _ _ _ _ (some 45) exOpts exOpts
    (quad_ready 1 0 2 5 (some (quadSeries 0 1 1 0)) (.inr ⟨_, _, _, _, rfl⟩)) (quad_ready 1 0 2 5 none (.inl rfl))
    (quad_ready 0 1 1 0 none (.inl rfl)) (by decide) (by decide) (fun _ _ => rfl) ⟨_, rfl, .inl rfl⟩ c a b hc ha hb D.kept
    (by rw [D.name]; simp) none (by rw [Da.opt]; rfl) (by rw [D.opt]; rfl) quadTn (by rw [D.opt]; exact quad_times) (by
      intro i τ hτ
      match i with
      | 0 => exact ⟨_, rfl, by simp [sampleValues, quadSeries, Cell.value?, Fl.toReal?],
          by simp [sampleValues, quadSeries, Cell.value?, Fl.toReal?]⟩
      | 1 => exact ⟨_, rfl, by simp [sampleValues, quadSeries, Cell.value?, Fl.toReal?],
          by simp [sampleValues, quadSeries, Cell.value?, Fl.toReal?]⟩
      | 2 => exact ⟨_, rfl, by simp [sampleValues, quadSeries, Cell.value?, Fl.toReal?],
          by simp [sampleValues, quadSeries, Cell.value?, Fl.toReal?]⟩
      | 3 => exact ⟨_, rfl, by simp [sampleValues, quadSeries, Cell.value?, Fl.toReal?],
          by simp [sampleValues, quadSeries, Cell.value?, Fl.toReal?]⟩
      | i + 4 => simp [quadTn] at hτ)
  obtain ⟨e, e', e'', g1, g2, g3, g4, -⟩ := h4 0 0 0 "M2" (by rw [D.name]; rfl) (by rw [Da.name]; rfl) (by rw [Db.name]; rfl)
  exact ⟨c, a, b, e, e', e'', mu, mv, su, sv, hc, ha, hb, h1, h2, h3, g1, g2, g3, g4⟩

end

end UTide.Props
