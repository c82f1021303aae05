import Verif.Props.RecoverProps
import Verif.Lemmas.Mirror

/-!
# Relations between two runs of `solve`: C05, C06, C07, C08
-/

namespace UTide.Props

noncomputable section

open Classical

local notation "conj" => starRingEnd ℂ

/-! ## Specification -/

/-- Every amplitude and semi-axis times `k`. -/
def scaleEll (k : ℝ) : EllArr → EllArr
  | .one A g => .one (A.map (k * ·)) g
  | .two M m th g => .two (M.map (k * ·)) (m.map (k * ·)) th g

/-- Mean and slope times `k`. -/
def scaleMean (k : ℝ) : MeanSlope → MeanSlope
  | .one m s => .one (k * m) (s.map (k * ·))
  | .two a b s => .two (k * a) (k * b) (s.map fun p => (k * p.1, k * p.2))

/-- `u'`, `v'` is `u`, `v` with every sample `x` (as `u + iv`) replaced by `f τ x`, `τ` being its time. Samples of
`u`, `v` that are missing are missing in `u'`, `v'`. -/
def Transformed (f : ℝ → ℂ → ℂ) (tn : List Fl) (u : Series) (v : Option Series) (u' : Series) (v' : Option Series) :
    Prop :=
  ∀ (i : ℕ) (τ : ℝ), tn[i]? = some (.fin τ) → (sampleValues u'.data (v'.map Series.data))[i]? =
    (sampleValues u.data (v.map Series.data))[i]?.map (Option.map (f τ))

/-! ## Lemmas -/

theorem sampleValues_length (tn : List Fl) (u : List Cell) (v : Option (List Cell)) (h : SameLength tn u v) :
    tn.length = (sampleValues u v).length := by
  obtain ⟨h1, h2⟩ := h
  cases v with
  | none => simp [sampleValues, h1]
  | some v => simp [sampleValues, h1, h2 v rfl]

/-- The options that determine the model matrix agree. -/
structure SameModel (q q' : Opt) : Prop where
  flags : q'.flags = q.flags
  cnstit : q'.cnstit = q.cnstit
  rmin : q'.rmin = q.rmin
  notrend : q'.notrend = q.notrend
  epoch : q'.epoch = q.epoch

section
variable {E : Env} {t : TimeArg} {u : Series} {v : Option Series} {lat : Option ℝ} {opts : Dict PyVal}
  {c : Coef} {opt : Opt} {p : Prep} {tn : List Fl} {constit : Constit} {m : List ℂ} {W : List ℝ}
  {rf : Option RobOut} {full : Coef} {o : Order} {ind : List ℕ}
  {u' : Series} {v' : Option Series} {opts' : Dict PyVal}
  {c' : Coef} {opt' : Opt} {p' : Prep} {tn' : List Fl} {constit' : Constit} {m' : List ℂ} {W' : List ℝ}
  {rf' : Option RobOut} {full' : Coef} {o' : Order} {ind' : List ℕ}

/-- What two runs on the same times have in common. -/
structure Twin (f : ℝ → ℂ → ℂ) (p p' : Prep) : Prop where
  t : p'.ed.t = p.ed.t
  tref : p'.ed.tref = p.ed.tref
  lor : p'.ed.lor = p.ed.lor
  lat : p'.lat = p.lat
  sel : p'.sel = p.sel
  nm : p'.nm = p.nm
  B : p'.B = p.B
  x : ∃ us : List (ℝ × ℂ), p.ed.t = us.map Prod.fst ∧ xraw p.ed = us.map Prod.snd ∧
    xraw p'.ed = us.map fun s => f s.1 s.2

theorem twin (F : Facts E t u v lat opts c opt p tn constit m W rf full o ind)
    (F' : Facts E t u' v' lat opts' c' opt' p' tn' constit' m' W' rf' full' o' ind')
    (R : Ready E t u v) (R' : Ready E t u' v') (hs : SameModel opt opt')
    (hcs : ∀ tref mr con, cnstitsel tref mr con p'.infer = cnstitsel tref mr con p.infer)
    (hap : approxOf p'.infer = approxOf p.infer)
    (f : ℝ → ℂ → ℂ) (hf : Transformed f tn u v u' v') : tn' = tn ∧ Twin f p p' := by
  have htn : tn' = tn := by
    have h1 := F.prep.init.time
    have h2 := F'.prep.init.time
    rw [hs.epoch, h1] at h2
    exact (Except.ok.inj h2).symm
  refine ⟨htn, ?_⟩
  subst htn
  have l1 := (F.samples R).1
  have l2 := (F'.samples R').1
  have hus := samples_transform f tn' _ _ (sampleValues_length _ _ _ l1) (sampleValues_length _ _ _ l2) hf
  rw [← usable_samples _ _ _ l1, ← usable_samples _ _ _ l2] at hus
  obtain ⟨-, a2, a3⟩ := F.samples R
  obtain ⟨-, b2, b3⟩ := F'.samples R'
  have ht : p'.ed.t = p.ed.t := by
    rw [b2, a2, hus, List.map_map]; rfl
  obtain ⟨-, -, -, -, a5⟩ := editData_usable _ _ _ l1 _ F.prep.init.edit
  obtain ⟨-, -, -, -, b5⟩ := editData_usable _ _ _ l2 _ F'.prep.init.edit
  rw [← a2] at a5
  rw [← b2, ht, a5] at b5
  have h6 := Except.ok.inj b5
  have h7 : p'.ed.tref = p.ed.tref := (congrArg Prod.fst h6).symm
  have h8 : p'.ed.lor = p.ed.lor := (congrArg (fun x => x.2.1) h6).symm
  have h9 : p'.lat = p.lat :=
    Option.some.inj (F'.prep.init.hlat.symm.trans F.prep.init.hlat)
  have h10 : constit' = constit := by
    have := F'.prep.cons
    rw [hs.cnstit, F.prep.cons] at this
    exact (Except.ok.inj this).symm
  have h11 : p'.sel = p.sel := by
    have := F'.prep.hsel
    rw [hcs, h7, h8, h10, hs.rmin, F.prep.hsel] at this
    exact (Except.ok.inj this).symm
  refine ⟨ht, h7, h8, h9, h11, ?_, ?_, _, a2, a3, ?_⟩
  · rw [F.prep.nm, F'.prep.nm, h11, hs.notrend]
  · rw [F.prep.B, F'.prep.B, ht, h7, h8, h9, h11, hap, hs.notrend, hs.flags]
  · rw [b3, hus, List.map_map]; rfl

/-- The same options. -/
theorem twin' (F : Facts E t u v lat opts c opt p tn constit m W rf full o ind)
    (F' : Facts E t u' v' lat opts c' opt' p' tn' constit' m' W' rf' full' o' ind')
    (R : Ready E t u v) (R' : Ready E t u' v') (hv : v'.isSome = v.isSome)
    (f : ℝ → ℂ → ℂ) (hf : Transformed f tn u v u' v') :
    opt' = opt ∧ o' = o ∧ tn' = tn ∧ p'.infer = p.infer ∧ Twin f p p' := by
  have h1 : opt' = opt := by
    have := F'.hopt
    rw [hv, F.hopt] at this
    exact (Except.ok.inj this).symm
  subst h1
  have h2 : p'.infer = p.infer := Except.ok.inj (F'.prep.hinfer.symm.trans F.prep.hinfer)
  have h3 : o' = o := by
    have := F'.solved.order
    rw [F'.prep.hopt, ← F.prep.hopt, F.solved.order] at this
    exact (Except.ok.inj this).symm
  obtain ⟨h4, h5⟩ := twin F F' R R' ⟨rfl, rfl, rfl, rfl, rfl⟩ (by intros; rw [h2]) (by rw [h2]) f hf
  exact ⟨rfl, h3, h4, h2, h5⟩

/-- The same order of constituents. -/
theorem same_ind (S : Solved E p m W rf full o ind c) (S' : Solved E p' m' W' rf' full' o' ind' c') (ho : o' = o)
    (hsnr : o ≠ .SNR) (hname : full'.name = full.name) (hfrq : full'.frq = full.frq)
    (hpe : pe full'.ell = pe full.ell) : ind' = ind := by
  subst ho
  cases o' with
  | PE => rw [S.indPE rfl, S'.indPE rfl, hpe]
  | frequency => rw [S.indFreq rfl, S'.indFreq rfl, hfrq]
  | SNR => exact absurd rfl hsnr
  | names l =>
    have h1 := S.indNames l rfl
    have h2 := S'.indNames l rfl
    rw [hname, h1] at h2
    exact (Except.ok.inj h2).symm

theorem readOrder_SNR (x : PyVal) (o : Order) (h : readOrder x = .ok o) (hx : ¬ IsStr x "SNR") : o ≠ .SNR := by
  rintro rfl
  unfold readOrder at h
  simp only [bind_eq_ok] at h
  obtain ⟨b1, h1, h⟩ := h
  split at h
  · simp [pure_eq_ok] at h
  · simp only [bind_eq_ok] at h
    obtain ⟨b2, h2, h⟩ := h
    split at h
    · simp [pure_eq_ok] at h
    · simp only [bind_eq_ok] at h
      obtain ⟨b3, h3, h⟩ := h
      split at h
      · rename_i hb
        subst hb
        exact hx ((eqStr_iff _ _).1 h3)
      · simp only [bind_eq_ok, pure_eq_ok] at h
        obtain ⟨l, -, h⟩ := h
        cases h

/-- Names, frequencies and order of the two results. -/
theorem Twin.results {f : ℝ → ℂ → ℂ} (T : Twin f p p')
    (F : Facts E t u v lat opts c opt p tn constit m W rf full o ind)
    (F' : Facts E t u' v' lat opts' c' opt' p' tn' constit' m' W' rf' full' o' ind')
    (ho : o' = o) (hsnr : ¬ IsStr c.opt.ordercnstit "SNR") (hpe : pe full'.ell = pe full.ell)
    (hdg : opt'.nodiagn = opt.nodiagn) :
    ind' = ind ∧ c'.name = c.name ∧ c'.frq = c.frq ∧ c'.lind = c.lind ∧ c'.PE = c.PE := by
  have hs : o ≠ .SNR := by
    refine readOrder_SNR _ _ F.solved.order ?_
    rw [F.prep.hopt, ← F.copt]; exact hsnr
  have h1 := same_ind F.solved F'.solved ho hs (by rw [F.solved.name, F'.solved.name, T.sel])
    (by rw [F.solved.frq, F'.solved.frq, T.sel]) hpe
  subst h1 ho
  refine ⟨rfl, by rw [F.cname, F'.cname, T.sel], ?_, ?_, ?_⟩
  · rw [F.solved.result, F'.solved.result]
    show gather full'.frq ind' = gather full.frq ind'
    rw [F.solved.frq, F'.solved.frq, T.sel]
  · rw [F.solved.result, F'.solved.result]
    show gather full'.lind ind' = gather full.lind ind'
    rw [F.solved.lind, F'.solved.lind, T.sel]
  · have e1 : full'.PE = full.PE := by
      rw [F.solved.PE, F'.solved.PE, hpe, F.prep.hopt, F'.prep.hopt, hdg]
    rw [F.solved.result, F'.solved.result]
    show full'.PE.map (gather · ind') = full.PE.map (gather · ind')
    rw [e1]

/-- The ellipse at a position of the result. -/
theorem Facts.ellipse (F : Facts E t u v lat opts c opt p tn constit m W rf full o ind) (hnd : opts.keys.Nodup) (i : ℕ) :
    ellipseAt c.ell i = ind[i]?.bind fun j => (allAp p.sel m)[j]?.bind fun a => (allAm p.sel m)[j]?.map fun b =>
      if v.isSome then ell2 a b else ell1 a b := by
  have hq := getOpt_requests _ hnd _ _ F.hopt
  have htd : p.opt.twodim = v.isSome := by rw [F.prep.hopt]; exact hq.twodim
  have h1 : c.ell = full.ell.permute ind := by rw [F.solved.result]; rfl
  have hmlen : m.length = numCols (!opt.notrend) p.sel := by rw [F.mlen, F.prep.nm]
  obtain ⟨l1, l2⟩ := allAp_length F.prep.aligned (!opt.notrend) m hmlen
  rw [h1, F.solved.ell, htd]
  have hlt := F.lt
  generalize allAp p.sel m = ap at l1
  generalize allAm p.sel m = am at l2
  have hl : ∀ f : ℂ → ℂ → Ell, ∀ i ∈ ind, i < (List.zipWith f ap am).length := by
    intro f i hi; rw [List.length_zipWith, l1, l2, min_self]; exact hlt i hi
  have key : ∀ (f : ℂ → ℂ → Ell) (g : Ell → ℝ), (gather ((List.zipWith f ap am).map g) ind)[i]? =
      ind[i]?.bind fun j => ap[j]?.bind fun a => am[j]?.map fun b => g (f a b) := by
    intro f g
    rw [gather_map, List.getElem?_map, gather_getElem? _ _ (hl f)]
    cases ind[i]? with
    | none => rfl
    | some j =>
      simp only [Option.bind_some, List.getElem?_zipWith]
      cases ap[j]? <;> cases am[j]? <;> rfl
  unfold ellOf
  cases v with
  | none =>
    simp only [Option.isSome_none, Bool.false_eq_true, if_false, EllArr.permute, ellipseAt, key]
    cases ind[i]? with
    | none => rfl
    | some j =>
      simp only [Option.bind_some]
      cases ap[j]? with
      | none => rfl
      | some a =>
        cases am[j]? with
        | none => rfl
        | some b => simp [ell1_eq]
  | some w =>
    simp only [Option.isSome_some, if_true, EllArr.permute, ellipseAt, key]
    cases ind[i]? with
    | none => rfl
    | some j =>
      simp only [Option.bind_some]
      cases ap[j]? with
      | none => rfl
      | some a =>
        cases am[j]? with
        | none => rfl
        | some b => rfl

end

/-! ### Multiples of the coefficients -/

theorem apOf_vscale (sel : Sel) (k : ℂ) (m : List ℂ) : apOf sel (vscale k m) = vscale k (apOf sel m) := by
  simp [apOf, vscale, List.map_take, List.map_drop]

theorem amOf_vscale (sel : Sel) (k : ℂ) (m : List ℂ) : amOf sel (vscale k m) = vscale k (amOf sel m) := by
  simp [amOf, vscale, List.map_take, List.map_drop]

theorem getD_vscale (k : ℂ) (m : List ℂ) (i : ℕ) : (vscale k m).getD i 0 = k * m.getD i 0 := by
  unfold vscale
  rw [List.getD_eq_getElem?_getD, List.getD_eq_getElem?_getD, List.getElem?_map]
  cases m[i]? <;> simp

theorem inferredCoef_vscale (sel : Sel) (R : InfCon → ℂ) (k : ℂ) (a : List ℂ) :
    inferredCoef sel R (vscale k a) = vscale k (inferredCoef sel R a) := by
  unfold inferredCoef
  simp only [getD_vscale]
  unfold vscale
  rw [List.map_flatMap]
  apply List.flatMap_congr
  intro r _
  rw [List.map_map]
  exact List.map_congr_left fun q _ => by simp only [Function.comp]; ring

theorem allAp_vscale (sel : Sel) (k : ℂ) (m : List ℂ) : allAp sel (vscale k m) = vscale k (allAp sel m) := by
  unfold allAp
  rw [apOf_vscale, inferredCoef_vscale]
  simp [vscale]

theorem allAm_vscale (sel : Sel) (k : ℂ) (m : List ℂ) : allAm sel (vscale k m) = vscale k (allAm sel m) := by
  unfold allAm
  rw [amOf_vscale, inferredCoef_vscale]
  simp [vscale]

section
variable {E : Env} {t : TimeArg} {u : Series} {v : Option Series} {lat : Option ℝ} {opts : Dict PyVal}
  {c : Coef} {opt : Opt} {p : Prep} {tn : List Fl} {constit : Constit} {m : List ℂ} {W : List ℝ}
  {rf : Option RobOut} {full : Coef} {o : Order} {ind : List ℕ}
  {u' : Series} {v' : Option Series}
  {c' : Coef} {p' : Prep} {constit' : Constit} {m' : List ℂ} {W' : List ℝ}
  {rf' : Option RobOut} {full' : Coef} {ind' : List ℕ}

/-- A complex factor on the series is a factor on the coefficients. -/
theorem vscale_coef (k : ℂ) (hk : k ≠ 0) (F : Facts E t u v lat opts c opt p tn constit m W rf full o ind)
    (F' : Facts E t u' v' lat opts c' opt p' tn constit' m' W' rf' full' o ind')
    (R : Ready E t u v) (R' : Ready E t u' v') (hols : opt.method = .ols) (T : Twin (fun _ x => k * x) p p') :
    m' = vscale k m := by
  obtain ⟨us, h1, h2, h3⟩ := T.x
  have hx : xraw p'.ed = vscale k (xraw p.ed) := by rw [h3, h2, vscale, List.map_map]; rfl
  have a := F.minNorm R hols
  have b := F'.minNorm R' hols
  rw [T.nm, T.B, hx] at b
  have hh := F.prep.height R.ht R.hu R.hv
  exact IsMinNormSol.unique (by simp [hh]) b (a.scale k hk)

end

/-! ### Angles and energies -/

theorem angleDeg_mul_pos (k : ℝ) (hk : 0 < k) (z : ℂ) : angleDeg ((k : ℂ) * z) = angleDeg z := by
  unfold angleDeg; rw [Complex.arg_real_mul z hk]

theorem ell2_scale (k : ℝ) (hk : 0 < k) (a b : ℂ) : ell2 ((k : ℂ) * a) ((k : ℂ) * b) =
    ⟨k * (ell2 a b).Lsmaj, k * (ell2 a b).Lsmin, (ell2 a b).theta, (ell2 a b).g⟩ := by
  rw [ell2_eq, ell2_eq]
  simp only [norm_mul, Complex.norm_real, Real.norm_of_nonneg hk.le, angleDeg_mul_pos k hk, Ell.mk.injEq, true_and,
    and_true]
  constructor <;> ring

theorem ell1_scale (k : ℝ) (hk : 0 < k) (a b : ℂ) : ell1 ((k : ℂ) * a) ((k : ℂ) * b) =
    ⟨k * (ell1 a b).Lsmaj, 0, 0, (ell1 a b).g⟩ := by
  rw [ell1_eq, ell1_eq]
  have : (k : ℂ) * a + conj ((k : ℂ) * b) = (k : ℂ) * (a + conj b) := by
    rw [map_mul, Complex.conj_ofReal]; ring
  simp only [this, norm_mul, Complex.norm_real, Real.norm_of_nonneg hk.le, angleDeg_mul_pos k hk]

theorem zipWith_vscale {α : Type} (k : ℂ) (f : ℂ → ℂ → α) (a b : List ℂ) :
    List.zipWith f (vscale k a) (vscale k b) = List.zipWith (fun x y => f (k * x) (k * y)) a b := by
  unfold vscale
  rw [List.zipWith_map]

theorem ellOf_scale (td : Bool) (k : ℝ) (hk : 0 < k) (a b : List ℂ) :
    ellOf td (vscale k a) (vscale k b) = scaleEll k (ellOf td a b) := by
  unfold ellOf
  cases td with
  | true =>
    simp only [if_true, scaleEll, zipWith_vscale, ell2_scale k hk, List.map_zipWith]
  | false =>
    simp only [Bool.false_eq_true, if_false, scaleEll, zipWith_vscale, ell1_scale k hk, List.map_zipWith]

theorem scaleEll_permute (k : ℝ) (e : EllArr) (ind : List ℕ) :
    (scaleEll k e).permute ind = scaleEll k (e.permute ind) := by
  cases e <;> simp only [scaleEll, EllArr.permute, gather_map]

theorem meanOf_scale (td nt : Bool) (lor : ℝ) (n : ℕ) (k : ℝ) (m : List ℂ) :
    meanOf td nt lor n (vscale k m) = scaleMean k (meanOf td nt lor n m) := by
  unfold meanOf
  simp only [getD_vscale, Complex.re_ofReal_mul, Complex.im_ofReal_mul]
  cases td <;> cases nt <;> simp [scaleMean, mul_div_assoc]

theorem pe_energies {e e' : EllArr} (h : energies e' = energies e) : pe e' = pe e := by
  rw [← recPE_eq, ← recPE_eq]
  unfold recPE
  rw [h]

theorem pe_scale {e e' : EllArr} (k : ℝ) (hk : k ≠ 0) (h : energies e' = (energies e).map (k ^ 2 * ·)) :
    pe e' = pe e := by
  rw [← recPE_eq, ← recPE_eq]
  unfold recPE
  rw [h, List.map_map, List.sum_map_mul_left, List.map_id']
  apply List.map_congr_left
  intro x _
  have hk2 : 0 < k ^ 2 := by positivity
  simp only [Function.comp, Fl.div, mul_eq_zero, hk2.ne', false_or]
  by_cases hs : (energies e).sum = 0
  · simp only [hs, if_true]
    have : (0 < 100 * (k ^ 2 * x)) ↔ (0 < 100 * x) := by
      rw [show 100 * (k ^ 2 * x) = k ^ 2 * (100 * x) by ring]
      exact mul_pos_iff_of_pos_left hk2
    simp only [this]
  · simp only [hs, if_false]
    congr 1
    field_simp

theorem energies_scale (k : ℝ) (e : EllArr) : energies (scaleEll k e) = (energies e).map (k ^ 2 * ·) := by
  cases e with
  | one A g =>
    simp only [energies, scaleEll, List.map_map]
    exact List.map_congr_left fun a _ => by simp only [Function.comp]; ring
  | two a b c d =>
    simp only [energies, scaleEll, List.zipWith_map, List.map_zipWith]
    congr 1
    funext x y; ring

theorem energies_ellOf1 (a b : List ℂ) :
    energies (ellOf false a b) = List.zipWith (fun x y => ‖x + conj y‖ ^ 2) a b := by
  simp only [ellOf, Bool.false_eq_true, if_false, energies, List.map_zipWith, ell1_eq]

theorem zipWith_same2 {α β γ δ ε : Type} (f : γ → δ → ε) (g : α → β → γ) (h : α → β → δ) (a : List α) (b : List β) :
    List.zipWith f (List.zipWith g a b) (List.zipWith h a b) = List.zipWith (fun x y => f (g x y) (h x y)) a b := by
  induction a generalizing b with
  | nil => rfl
  | cons x a ih => cases b with
    | nil => rfl
    | cons y b => simp [ih]

theorem energies_ellOf2 (a b : List ℂ) :
    energies (ellOf true a b) = List.zipWith (fun x y => (‖x‖ + ‖y‖) ^ 2 + (‖x‖ - ‖y‖) ^ 2) a b := by
  simp only [ellOf, if_true, energies, List.map_zipWith, ell2_eq, zipWith_same2]

/-! ## C05 -/

/-- The series in other units: `k > 0`. -/
theorem C05_scale (E : Env) (t : TimeArg) (u u' : Series) (v v' : Option Series) (lat : Option ℝ) (opts : Dict PyVal)
    (R : Ready E t u v) (R' : Ready E t u' v') (hv : v'.isSome = v.isSome) (hnd : opts.keys.Nodup)
    (hm : ∃ x, requested opts "method" = some x ∧ IsStr x "ols")
    (c c' : Coef) (h : solve E t u v lat opts = .ok c) (h' : solve E t u' v' lat opts = .ok c')
    (tn : List Fl) (htn : normalizeTime E.dt64 t.arr c.opt.epoch = .ok tn)
    (k : ℝ) (hk : 0 < k) (hu : Transformed (fun _ x => k * x) tn u v u' v')
    (ho : ¬ IsStr c.opt.ordercnstit "SNR") :
    c'.name = c.name ∧ c'.frq = c.frq ∧ c'.lind = c.lind ∧ c'.PE = c.PE ∧ c'.ell = scaleEll k c.ell ∧
      c'.mean = scaleMean k c.mean := by
  obtain ⟨opt, p, tn0, constit, m, W, rf, full, o, ind, F⟩ := solve_facts R h
  obtain ⟨opt', p', tn', constit', m', W', rf', full', o', ind', F'⟩ := solve_facts R' h'
  have hc := F.copt
  subst hc
  cases Except.ok.inj (F.prep.init.time.symm.trans htn)
  obtain ⟨rfl, rfl, rfl, hinf, T⟩ := twin' F F' R R' hv _ hu
  have hq := getOpt_requests _ hnd _ _ F.hopt
  have hols : c.opt.method = .ols := by
    obtain ⟨x, hx, hs⟩ := hm
    exact hq.ols x hx ((eqStr_iff _ _).2 hs)
  have hmm := vscale_coef (k : ℂ) (by exact_mod_cast hk.ne') F F' R R' hols T
  have hfe : full'.ell = scaleEll k full.ell := by
    rw [F.solved.ell, F'.solved.ell, F.prep.hopt, F'.prep.hopt, T.sel, hmm, allAp_vscale, allAm_vscale,
      ellOf_scale _ k hk]
  obtain ⟨r1, r2, r3, r4, r5⟩ := T.results F F' rfl ho (by rw [hfe]; exact pe_scale k hk.ne' (energies_scale k _)) rfl
  subst r1
  refine ⟨r2, r3, r4, r5, ?_, ?_⟩
  · have e1 : c.ell = full.ell.permute ind' := by rw [F.solved.result]; rfl
    have e2 : c'.ell = full'.ell.permute ind' := by rw [F'.solved.result]; rfl
    rw [e1, e2, hfe, scaleEll_permute]
  · have e1 : c.mean = full.mean := by rw [F.solved.result]; rfl
    have e2 : c'.mean = full'.mean := by rw [F'.solved.result]; rfl
    rw [e1, e2, F.solved.head.mean, F'.solved.head.mean]
    show meanOf p'.opt.twodim p'.opt.notrend p'.ed.lor p'.nm m' = scaleMean k (meanOf p.opt.twodim p.opt.notrend p.ed.lor p.nm m)
    rw [F.prep.hopt, F'.prep.hopt, T.lor, T.nm, hmm, meanOf_scale]

/-- A scalar series with the opposite sign. -/
theorem C05_negate (E : Env) (t : TimeArg) (u u' : Series) (lat : Option ℝ) (opts : Dict PyVal)
    (R : Ready E t u none) (R' : Ready E t u' none) (hnd : opts.keys.Nodup)
    (hm : ∃ x, requested opts "method" = some x ∧ IsStr x "ols")
    (c c' : Coef) (h : solve E t u none lat opts = .ok c) (h' : solve E t u' none lat opts = .ok c')
    (tn : List Fl) (htn : normalizeTime E.dt64 t.arr c.opt.epoch = .ok tn)
    (hu : Transformed (fun _ x => -x) tn u none u' none) (ho : ¬ IsStr c.opt.ordercnstit "SNR") :
    c'.name = c.name ∧ c'.PE = c.PE ∧ c'.mean = scaleMean (-1) c.mean ∧
      ∀ i e, ellipseAt c.ell i = some e → ∃ e', ellipseAt c'.ell i = some e' ∧ e'.Lsmaj = e.Lsmaj ∧
        (0 < e.Lsmaj → ∃ z : ℤ, e'.g = e.g + 180 + 360 * z) := by
  obtain ⟨opt, p, tn0, constit, m, W, rf, full, o, ind, F⟩ := solve_facts R h
  obtain ⟨opt', p', tn', constit', m', W', rf', full', o', ind', F'⟩ := solve_facts R' h'
  have hc := F.copt
  subst hc
  cases Except.ok.inj (F.prep.init.time.symm.trans htn)
  have hu' : Transformed (fun _ x => ((-1 : ℝ) : ℂ) * x) tn u none u' none := by
    have : (fun (_ : ℝ) (x : ℂ) => ((-1 : ℝ) : ℂ) * x) = fun _ x => -x := by funext _ x; push_cast; ring
    rw [this]; exact hu
  obtain ⟨rfl, rfl, rfl, hinf, T⟩ := twin' F F' R R' rfl _ hu'
  have hq := getOpt_requests _ hnd _ _ F.hopt
  have hols : c.opt.method = .ols := by
    obtain ⟨x, hx, hs⟩ := hm
    exact hq.ols x hx ((eqStr_iff _ _).2 hs)
  have hmm := vscale_coef ((-1 : ℝ) : ℂ) (by norm_num) F F' R R' hols T
  have htd : c.opt.twodim = false := hq.twodim
  have hen : energies full'.ell = energies full.ell := by
    rw [F.solved.ell, F'.solved.ell, F.prep.hopt, F'.prep.hopt, htd, T.sel, hmm, allAp_vscale, allAm_vscale,
      energies_ellOf1, energies_ellOf1, zipWith_vscale]
    congr 1
    funext x y
    rw [map_mul, Complex.conj_ofReal, ← mul_add, norm_mul]
    norm_num
  obtain ⟨r1, r2, r3, r4, r5⟩ := T.results F F' rfl ho (pe_energies hen) rfl
  subst r1
  refine ⟨r2, r5, ?_, ?_⟩
  · have e1 : c.mean = full.mean := by rw [F.solved.result]; rfl
    have e2 : c'.mean = full'.mean := by rw [F'.solved.result]; rfl
    rw [e1, e2, F.solved.head.mean, F'.solved.head.mean]
    show meanOf p'.opt.twodim p'.opt.notrend p'.ed.lor p'.nm m' =
      scaleMean (-1) (meanOf p.opt.twodim p.opt.notrend p.ed.lor p.nm m)
    rw [F.prep.hopt, F'.prep.hopt, T.lor, T.nm, hmm, meanOf_scale]
  · intro i e he
    rw [F.ellipse hnd] at he
    rw [F'.ellipse hnd, T.sel, hmm, allAp_vscale, allAm_vscale]
    unfold vscale
    simp only [List.getElem?_map]
    generalize allAp p.sel m = ap at *
    generalize allAm p.sel m = am at *
    cases hj : ind'[i]? with
    | none => rw [hj] at he; simp at he
    | some j =>
      rw [hj] at he
      simp only [Option.bind_some] at he ⊢
      cases ha : ap[j]? with
      | none => rw [ha] at he; simp at he
      | some a =>
        cases hb : am[j]? with
        | none => rw [ha, hb] at he; simp at he
        | some b =>
          rw [ha, hb] at he
          simp only [Option.bind_some, Option.map_some, Option.isSome_none, Bool.false_eq_true, if_false,
            Option.some.injEq] at he ⊢
          subst he
          refine ⟨_, rfl, ?_⟩
          have hz : ((-1 : ℝ) : ℂ) * a + conj (((-1 : ℝ) : ℂ) * b) =
              (((ell1 a b).Lsmaj : ℝ) : ℂ) * cisd (-((ell1 a b).g + 180)) := by
            have h5 := recAp1_ell1 a b
            rw [recAp1_cisd] at h5
            have h6 : a + conj b = (((ell1 a b).Lsmaj : ℝ) : ℂ) * cisd (-(ell1 a b).g) := by
              have h7 : a + conj b = 2 * ((a + conj b) / 2) := by ring
              rw [h7, ← h5]; push_cast; ring
            rw [map_mul, Complex.conj_ofReal, ← mul_add, h6, neg_add, cisd_add]
            have : cisd (-180) = -1 := by
              unfold cisd
              rw [show Complex.I * ((-180 : ℝ) : ℂ) * ((Real.pi / 180 : ℝ) : ℂ) = -(Real.pi * Complex.I) by
                push_cast; ring, Complex.exp_neg, Complex.exp_pi_mul_I]
              norm_num
            rw [this]; push_cast; ring
          have h0 : 0 ≤ (ell1 a b).Lsmaj := by rw [ell1_eq]; positivity
          exact ell1_polar _ _ _ _ h0 hz

end

end UTide.Props
