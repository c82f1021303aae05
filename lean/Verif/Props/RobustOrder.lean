import Verif.Lemmas.RobustReorder
import Verif.Props.RobustScale
import Verif.Props.ConstitProps
import Verif.Props.RobustCi2
import Verif.Props.CasesA

/-!
# C147: a robust fit does not depend on the order of the observations or of the curves
-/

namespace UTide.Props

noncomputable section

open UTide Matrix

local notation "conj" => starRingEnd ℂ

/-- The list `l'` is the list `l` with its entries in the order of the positions `I`. -/
def Rearranged {α : Type} (I : List ℕ) (l l' : List α) : Prop := l'.map some = I.map (l[·]?)

theorem Rearranged.gather {α : Type} {I : List ℕ} {l l' : List α} (h : Rearranged I l l') : l' = gather l I := by
  have := congrArg (List.filterMap id) h
  unfold UTide.gather
  rw [List.filterMap_map, List.filterMap_map] at this
  simpa [Function.comp_def] using this

theorem rearranged_gather {α : Type} {I : List ℕ} (l : List α) (h : ∀ i ∈ I, i < l.length) :
    Rearranged I l (UTide.gather l I) := by
  unfold Rearranged UTide.gather
  induction I with
  | nil => rfl
  | cons i I ih =>
    have hi := h i (by simp)
    rw [List.filterMap_cons, List.map_cons]
    have : l[i]? = some l[i] := List.getElem?_eq_getElem hi
    rw [this]
    dsimp only
    rw [List.map_cons, ih fun j hj => h j (by simp [hj])]

/-- What a robust fit reports about the observations rather than about the coefficients. -/
structure SameQuality (o o' : RobOut) : Prop where
  iterations : o'.iterations = o.iterations
  rms : o'.rmsResid = o.rmsResid
  olsRms : o'.olsRmsResid = o.olsRmsResid

theorem robustfit_lengths (N : Num) (a : RobArgs) (ncol : ℕ) (X : List (List ℂ)) (y : List ℂ) (hy : X.length = y.length)
    (out : RobOut) (h : robustfit N a ncol X y = .ok out) : out.w.length = y.length ∧ out.leverage.length = y.length := by
  obtain ⟨wf, e, n, -, -, rfl, -, -, -, -, -, hend⟩ := robustfit_spec _ _ _ _ _ _ h
  have hw : ∃ k, e.w = passW N (robProblem N a wf ncol X y) k := by
    cases hend with
    | worse h hq hw hr hs' hi => exact ⟨_, hw⟩
    | small h hw hr hi0 hi => exact ⟨_, hw⟩
    | exhausted h hw hr hq => exact ⟨_, hw⟩
  obtain ⟨k, hk⟩ := hw
  refine ⟨?_, ?_⟩
  · show e.w.length = _
    rw [hk, passW_length _ _ _ _ _ _ hy, ← hy]
  · show (leverage N ncol X).length = _
    simp [leverage, hy]

/-- **C147.** `robustfit` on the observations in another order: the same coefficients, the weights and leverages of the
observations moved along with them, or the same error. -/
theorem C147_order (N : Num) (hN : NumOk N) (a : RobArgs) (ha : exactRcond (some a.rcond)) (ncol : ℕ)
    (X X' : List (List ℂ)) (y y' : List ℂ) (hX : ∀ r ∈ X, r.length = ncol) (hy : X.length = y.length) (I : List ℕ)
    (hI : I.Perm (List.range y.length)) (hX' : Rearranged I X X') (hy' : Rearranged I y y') :
    (∀ out, robustfit N a ncol X y = .ok out → ∃ out', robustfit N a ncol X' y' = .ok out' ∧ out'.b = out.b ∧
      out'.olsB = out.olsB ∧ Rearranged I out.w out'.w ∧ Rearranged I out.leverage out'.leverage ∧ SameQuality out out') ∧
    ∀ e, robustfit N a ncol X y = .error e → robustfit N a ncol X' y' = .error e := by
  have h := robustfit_changed hN.lstsq hN.pinv a ha ncol (Change.same hX) y hy hI
  rw [← hX'.gather, ← hy'.gather] at h
  have hlt : ∀ i ∈ I, i < y.length := fun i hi => List.mem_range.1 (hI.subset hi)
  constructor
  · intro out ho
    rw [ho] at h
    cases h' : robustfit N a ncol X' y' with
    | error e => rw [h'] at h; exact h.elim
    | ok out' =>
      rw [h'] at h
      refine ⟨out', rfl, h.b.symm, h.olsB.symm, ?_, ?_, ⟨h.iterations, h.rms, h.olsRms⟩⟩
      · rw [h.w]; exact rearranged_gather _ (by rw [(robustfit_lengths N a ncol X y hy out ho).1]; exact hlt)
      · rw [h.leverage]; exact rearranged_gather _ (by rw [(robustfit_lengths N a ncol X y hy out ho).2]; exact hlt)
  · intro e he
    rw [he] at h
    cases h' : robustfit N a ncol X' y' with
    | error e' => rw [h'] at h; exact congrArg _ (Eq.symm h)
    | ok out' => rw [h'] at h; exact h.elim

/-- The columns of `X` combined by the matrix `M`: the new curve `k` is `Σ j, M j k ·` curve `j`. -/
def mixRow {ncol : ℕ} (M : Matrix (Fin ncol) (Fin ncol) ℂ) (r : List ℂ) : List ℂ :=
  List.ofFn fun k => ∑ j : Fin ncol, r.getD j 0 * M j k

/-- The coefficients of the old curves that draw the same line as the coefficients `b` of the new ones. -/
def mixCoef {ncol : ℕ} (M : Matrix (Fin ncol) (Fin ncol) ℂ) (b : List ℂ) : List ℂ :=
  List.ofFn fun j => ∑ k : Fin ncol, M j k * b.getD k 0

theorem mixCoef_ofFn {ncol : ℕ} (M : Matrix (Fin ncol) (Fin ncol) ℂ) (f : Fin ncol → ℂ) :
    mixCoef M (List.ofFn f) = List.ofFn (M.mulVec f) := by
  unfold mixCoef Matrix.mulVec dotProduct
  simp

theorem dot_mixRow {ncol : ℕ} (M : Matrix (Fin ncol) (Fin ncol) ℂ) (r b : List ℂ) (hr : r.length = ncol)
    (hb : b.length = ncol) : dot (mixRow M r) b = dot r (mixCoef M b) := by
  obtain ⟨f, rfl⟩ := UTide.exists_ofFn ncol b hb
  rw [mixCoef_ofFn, dot_fin _ _ _ hr, dot_fin _ _ _ (by simp [mixRow])]
  simp only [mixRow, Matrix.mulVec, dotProduct, Finset.mul_sum]
  rw [show (∑ i : Fin ncol, (List.ofFn fun k => ∑ j : Fin ncol, r.getD (↑j) 0 * M j k).getD (↑i) 0 * f i) =
    ∑ i : Fin ncol, ∑ j : Fin ncol, r.getD (↑j) 0 * M j i * f i by
      refine Finset.sum_congr rfl fun i _ => ?_
      rw [← Finset.sum_mul]; simp]
  rw [Finset.sum_comm]
  exact Finset.sum_congr rfl fun i _ => Finset.sum_congr rfl fun j _ => by ring

theorem mix_change {ncol : ℕ} (M : Matrix (Fin ncol) (Fin ncol) ℂ) (hM : M.det ≠ 0) {X : List (List ℂ)}
    (hX : ∀ r ∈ X, r.length = ncol) : Change ncol X (X.map (mixRow M)) (mixCoef M) := by
  have hu : IsUnit M.det := isUnit_iff_ne_zero.2 hM
  refine ⟨hX, ?_, by simp, fun b _ => by simp [mixCoef], ?_, ?_, ?_, ?_⟩
  · intro r hr
    obtain ⟨s, -, rfl⟩ := List.mem_map.1 hr
    simp [mixRow]
  · intro i h h' b hb
    rw [List.getElem_map]
    exact dot_mixRow M _ b (hX _ (List.getElem_mem h)) hb
  · rw [← List.ofFn_const, mixCoef_ofFn]
    congr 1
    exact Matrix.mulVec_zero M
  · intro b hb
    obtain ⟨f, rfl⟩ := UTide.exists_ofFn ncol b hb
    refine ⟨List.ofFn (M⁻¹.mulVec f), by simp, ?_⟩
    rw [mixCoef_ofFn, Matrix.mulVec_mulVec, Matrix.mul_nonsing_inv _ hu, Matrix.one_mulVec]
  · intro b b' hb hb' h
    obtain ⟨f, rfl⟩ := UTide.exists_ofFn ncol b hb
    obtain ⟨g, rfl⟩ := UTide.exists_ofFn ncol b' hb'
    rw [mixCoef_ofFn, mixCoef_ofFn] at h
    have h := congrArg M⁻¹.mulVec (List.ofFn_injective h)
    rw [Matrix.mulVec_mulVec, Matrix.mulVec_mulVec, Matrix.nonsing_inv_mul _ hu, Matrix.one_mulVec, Matrix.one_mulVec] at h
    rw [h]

/-- **C147.** `robustfit` to other combinations of the same curves (another order of the columns, rotary coefficients in
place of cosines and sines, …): the same weights, leverages, number of iterations and residuals, the coefficients of the
same line, or the same error. -/
theorem C147_basis (N : Num) (hN : NumOk N) (a : RobArgs) (ha : exactRcond (some a.rcond)) (ncol : ℕ)
    (M : Matrix (Fin ncol) (Fin ncol) ℂ) (hM : M.det ≠ 0)
    (X X' : List (List ℂ)) (y : List ℂ) (hX : ∀ r ∈ X, r.length = ncol) (hy : X.length = y.length)
    (hX' : X' = X.map fun r => List.ofFn fun k => ∑ j : Fin ncol, r.getD j 0 * M j k) :
    (∀ out, robustfit N a ncol X y = .ok out → ∃ out', robustfit N a ncol X' y = .ok out' ∧
      (out.b = List.ofFn fun j => ∑ k : Fin ncol, M j k * out'.b.getD k 0) ∧
      (X'.map fun r => dot r out'.b) = (X.map fun r => dot r out.b) ∧
      out'.w = out.w ∧ out'.leverage = out.leverage ∧ SameQuality out out') ∧
    ∀ e, robustfit N a ncol X y = .error e → robustfit N a ncol X' y = .error e := by
  have C := mix_change M hM hX
  have h := robustfit_changed hN.lstsq hN.pinv a ha ncol C y hy (List.Perm.refl _)
  have e1 : X' = X.map (mixRow M) := hX'
  rw [gather_range y, show List.range y.length = List.range (X.map (mixRow M)).length by simp [hy], gather_range, ← e1] at h
  constructor
  · intro out ho
    rw [ho] at h
    cases h' : robustfit N a ncol X' y with
    | error e => rw [h'] at h; exact h.elim
    | ok out' =>
      rw [h'] at h
      have hb : out.b = mixCoef M out'.b := h.b
      refine ⟨out', rfl, hb, ?_, ?_, ?_, ⟨h.iterations, h.rms, h.olsRms⟩⟩
      · rw [e1, List.map_map]
        refine List.map_congr_left fun r hr => ?_
        show dot (mixRow M r) out'.b = _
        rw [dot_mixRow M r _ (hX r hr) h.len, hb]
      · rw [h.w, show X'.length = out.w.length by rw [(robustfit_lengths N a ncol X y hy out ho).1, e1]; simp [hy], gather_range]
      · rw [h.leverage, show X'.length = out.leverage.length by rw [(robustfit_lengths N a ncol X y hy out ho).2, e1]; simp [hy], gather_range]
  · intro e he
    rw [he] at h
    cases h' : robustfit N a ncol X' y with
    | error e' => rw [h'] at h; exact congrArg _ (Eq.symm h)
    | ok out' => rw [h'] at h; exact h.elim

/-! ## The list of constituents -/

theorem nameCoef_inj {sel : Sel} {trend : Bool} {P M P' M' : String → ℂ} {mean slope mean' slope' : ℂ}
    (h : nameCoef sel trend P M mean slope = nameCoef sel trend P' M' mean' slope') :
    (∀ n ∈ sel.nrName, P n = P' n ∧ M n = M' n) ∧ (∀ r ∈ sel.refs, P r.name = P' r.name ∧ M r.name = M' r.name) ∧
      mean = mean' ∧ (trend = true → slope = slope') := by
  unfold nameCoef at h
  have hlt : (if trend then [slope] else []).length = (if trend then [slope'] else []).length := by cases trend <;> rfl
  obtain ⟨h, h6⟩ := List.append_inj' h hlt
  obtain ⟨h, h5⟩ := List.append_inj' h rfl
  obtain ⟨h, h4⟩ := List.append_inj' h (by simp)
  obtain ⟨h, h3⟩ := List.append_inj' h (by simp)
  obtain ⟨h1, h2⟩ := List.append_inj' h (by simp)
  rw [List.map_inj_left] at h1 h2 h3 h4
  refine ⟨fun n hn => ⟨h1 n hn, h2 n hn⟩, fun r hr => ⟨h3 r hr, h4 r hr⟩, by simpa using h5, ?_⟩
  rintro rfl
  simpa using h6

theorem nameCoef_congr {sel : Sel} {trend : Bool} {P M P' M' : String → ℂ} {mean slope mean' slope' : ℂ}
    (h1 : ∀ n ∈ sel.nrName, P n = P' n ∧ M n = M' n) (h2 : ∀ r ∈ sel.refs, P r.name = P' r.name ∧ M r.name = M' r.name)
    (h3 : mean = mean') (h4 : trend = true → slope = slope') :
    nameCoef sel trend P M mean slope = nameCoef sel trend P' M' mean' slope' := by
  unfold nameCoef
  rw [List.map_congr_left fun n hn => (h1 n hn).1, List.map_congr_left fun n hn => (h1 n hn).2,
    List.map_congr_left fun r hr => (h2 r hr).1, List.map_congr_left fun r hr => (h2 r hr).2, h3]
  cases trend with
  | false => rfl
  | true => rw [h4 rfl]

theorem SameSel.symm {sel sel' : Sel} (S : SameSel sel sel') : SameSel sel' sel := ⟨S.nr.symm, S.refs.symm⟩

theorem SameSel.move {sel sel' : Sel} (S : SameSel sel sel') {trend : Bool} {P M P' M' : String → ℂ}
    {mean slope mean' slope' : ℂ} (h : nameCoef sel' trend P M mean slope = nameCoef sel' trend P' M' mean' slope') :
    nameCoef sel trend P M mean slope = nameCoef sel trend P' M' mean' slope' := by
  obtain ⟨h1, h2, h3, h4⟩ := nameCoef_inj h
  exact nameCoef_congr (fun n hn => h1 n (S.nr.symm.subset hn)) (fun r hr => h2 r (by rw [S.refs]; exact hr)) h3 h4

open Classical in
/-- The coefficients of one selection as those of the other. -/
def moveCoef (sel sel' : Sel) (trend : Bool) (b : List ℂ) : List ℂ :=
  if h : ∃ q : (String → ℂ) × (String → ℂ) × ℂ × ℂ, b = nameCoef sel' trend q.1 q.2.1 q.2.2.1 q.2.2.2 then
    nameCoef sel trend h.choose.1 h.choose.2.1 h.choose.2.2.1 h.choose.2.2.2
  else b

theorem SameSel.moved {sel sel' : Sel} (S : SameSel sel sel') (trend : Bool) (P M : String → ℂ) (mean slope : ℂ) :
    moveCoef sel sel' trend (nameCoef sel' trend P M mean slope) = nameCoef sel trend P M mean slope := by
  have h : ∃ q : (String → ℂ) × (String → ℂ) × ℂ × ℂ,
      nameCoef sel' trend P M mean slope = nameCoef sel' trend q.1 q.2.1 q.2.2.1 q.2.2.2 := ⟨(P, M, mean, slope), rfl⟩
  unfold moveCoef
  rw [dif_pos h]
  exact S.move h.choose_spec.symm

theorem SameSel.change {tref : ℝ} {sel sel' : Sel} (S : SameSel sel sel') (h : SelAligned tref sel)
    (h' : SelAligned tref sel') (hn : sel.name.Nodup) (hn' : sel'.name.Nodup) (fl : Flags) (lat lor : ℝ) (trend ap : Bool)
    (ts : List ℝ) : Change (numCols trend sel) (ts.map (modelRow fl tref lat lor trend ap sel))
      (ts.map (modelRow fl tref lat lor trend ap sel')) (moveCoef sel sel' trend) := by
  have hc : numCols trend sel' = numCols trend sel := by
    rw [← (nameCoef_blocks h trend 0 0 0 0).length, ← (nameCoef_blocks h' trend 0 0 0 0).length]
    unfold nameCoef
    rw [S.refs]
    simp [S.nr.length_eq]
  have hex : ∀ b : List ℂ, b.length = numCols trend sel → ∃ P M mean slope, b = nameCoef sel' trend P M mean slope := by
    intro b hb
    obtain ⟨P, M, mean, slope, -, -, e⟩ := exists_nameCoef h' hn' trend b (by rw [hc]; exact hb)
    exact ⟨P, M, mean, slope, e⟩
  refine ⟨?_, ?_, by simp, ?_, ?_, ?_, ?_, ?_⟩
  · intro r hr
    obtain ⟨t, -, rfl⟩ := List.mem_map.1 hr
    exact modelRow_length h ..
  · intro r hr
    obtain ⟨t, -, rfl⟩ := List.mem_map.1 hr
    rw [← hc]
    exact modelRow_length h' ..
  · intro b hb
    obtain ⟨P, M, mean, slope, rfl⟩ := hex b hb
    rw [S.moved]
    exact (nameCoef_blocks h trend P M mean slope).length
  · intro i h1 h2 b hb
    obtain ⟨P, M, mean, slope, rfl⟩ := hex b hb
    rw [S.moved, List.getElem_map, List.getElem_map]
    exact S.dot h h' ..
  · have z : ∀ {s : Sel}, SelAligned tref s → nameCoef s trend (fun _ => 0) (fun _ => 0) 0 0 = List.replicate (numCols trend s) 0 := by
      intro s hs
      rw [← (nameCoef_blocks hs trend (fun _ => 0) (fun _ => 0) 0 0).length, List.eq_replicate_iff]
      refine ⟨rfl, ?_⟩
      intro x hx
      unfold nameCoef at hx
      cases trend <;> simp at hx <;> tauto
    have e := S.moved trend (fun _ => 0) (fun _ => 0) 0 0
    rw [z h, z h', hc] at e
    exact e
  · intro b hb
    obtain ⟨P, M, mean, slope, -, -, rfl⟩ := exists_nameCoef h hn trend b hb
    exact ⟨nameCoef sel' trend P M mean slope, by rw [(nameCoef_blocks h' trend P M mean slope).length, hc], S.moved ..⟩
  · intro b b' hb hb' e
    obtain ⟨P, M, mean, slope, rfl⟩ := hex b hb
    obtain ⟨P', M', mean', slope', rfl⟩ := hex b' hb'
    rw [S.moved, S.moved] at e
    exact S.symm.move e

/-- **C147.** Two robust analyses of the same record for the same constituents, however they were listed and whatever the
order of the results: the same ellipse for each constituent, the same mean and trend, the same weights for the
observations after the same number of iterations, the same prediction. -/
theorem C147_constituents (E : Env) (hE : NumOk E.num) (t : TimeArg) (u : Series) (v : Option Series) (lat : Option ℝ)
    (opts opts' : Dict PyVal) (R : Ready E t u v) (hnd : opts.keys.Nodup) (hnd' : opts'.keys.Nodup)
    (kw : List (String × PyVal)) (hr : AsksRobust opts kw) (hr' : AsksRobust opts' kw) (hh : Harmless kw) (c c' : Coef)
    (h : solve E t u v lat opts = .ok c) (h' : solve E t u v lat opts' = .ok c') (hk : AllKept c) (hk' : AllKept c')
    (hn : c.name.Nodup) (hp : c'.name.Perm c.name)
    (hsame : ∀ k ∈ ["nodal", "phase", "epoch", "trend", "infer"], requested opts k = requested opts' k) :
    SameTide c c' ∧ c'.mean = c.mean ∧ c'.reftime = c.reftime ∧ c'.weights = c.weights ∧
    (∃ r r', c.rf = some r ∧ c'.rf = some r' ∧ SameQuality r r' ∧ r'.leverage = r.leverage) ∧
    ∀ (E' : Env) (t' : TimeArr) (a : RecArgs), RecArgs.Everything a → reconstruct E' t' c' a = reconstruct E' t' c a := by
  obtain ⟨opt, p, tn0, constit, m, W, rf, full, o, ind, F⟩ := solve_facts R h
  obtain ⟨opt', p', tn1, constit', m', W', rf', full', o', ind', F'⟩ := solve_facts R h'
  obtain ⟨e1, e2, e3, e4⟩ := getOpt_fields opts opts' hnd hnd' _ _ _ F.hopt F'.hopt
  have e1 := e1 (hsame _ (by simp)) (hsame _ (by simp))
  have e2 := e2 (hsame _ (by simp))
  have e3 := e3 (hsame _ (by simp))
  have e4 := e4 (hsame _ (by simp))
  have htn := F'.prep.init.time
  rw [e2, F.prep.init.time] at htn
  cases Except.ok.inj htn
  have hed : p'.ed = p.ed := Except.ok.inj (F'.prep.init.edit.symm.trans F.prep.init.edit)
  have hlat : p'.lat = p.lat := Option.some.inj (F'.prep.init.hlat.symm.trans F.prep.init.hlat)
  have hinf : p'.infer = p.infer := by
    have := F'.prep.hinfer
    rw [e4, F.prep.hinfer] at this
    exact (Except.ok.inj this).symm
  have href : c'.reftime = c.reftime := by rw [F.creftime, F'.creftime, hed]
  have hsel' := F'.prep.hsel
  rw [hed, hinf] at hsel'
  have S : SameSel p.sel p'.sel := by
    have hr := cnstitsel_refs F.prep.hsel hsel'
    refine ⟨?_, hr⟩
    have h1 := (F'.perm_names R hnd' hk').symm.trans (hp.trans (F.perm_names R hnd hk))
    rw [F.prep.aligned.names, F'.prep.aligned.names, hr, List.append_assoc, List.append_assoc] at h1
    exact (List.perm_append_right_iff _).1 h1
  have hal := F.prep.aligned
  have hal' := F'.prep.aligned
  rw [hed] at hal'
  have hn1 : p.sel.name.Nodup := (F.perm_names R hnd hk).nodup_iff.1 hn
  have hn2 : p'.sel.name.Nodup := (F'.perm_names R hnd' hk').nodup_iff.1 (hp.nodup_iff.2 hn)
  obtain ⟨P, M, mean, slope, hP, hM, hs, hmc⟩ := F'.exists_coef hn2 m' F'.mlen
  obtain ⟨r1, r2⟩ := F'.read hnd' P M mean slope hP hM hmc
  have C := S.change hal hal' hn1 hn2 opt.flags p.lat p.ed.lor (!opt.notrend) (approxOf p.infer) p.ed.t
  obtain ⟨A, out, hA, hfit, hb, hW, hrf⟩ := F.robust_fit (F.method_robust hnd hr)
  obtain ⟨A', out', hA', hfit', hb', hW', hrf'⟩ := F'.robust_fit (F'.method_robust hnd' hr')
  cases Except.ok.inj (hA.symm.trans hA')
  have hy := F.prep.height R.ht R.hu R.hv
  rw [F.prep.B] at hy
  have hc := robustfit_changed hE.lstsq hE.pinv A (hh.args hA) _ C (xraw p.ed) hy (List.Perm.refl _)
  rw [gather_range, show List.range (xraw p.ed).length = List.range
    (p.ed.t.map (modelRow opt.flags p.ed.tref p.lat p.ed.lor (!opt.notrend) (approxOf p.infer) p'.sel)).length by
      rw [← hy]; simp, gather_range] at hc
  have hnm' : p'.nm = numCols (!opt.notrend) p.sel := by
    rw [F'.prep.nm, e3, ← (nameCoef_blocks hal _ P M mean slope).length, ← (nameCoef_blocks hal' _ P M mean slope).length]
    unfold nameCoef
    rw [S.refs]
    simp [S.nr.length_eq]
  have hB' := F'.prep.B
  rw [hed, hlat, e1, e3, hinf] at hB'
  rw [F.prep.nm, F.prep.B] at hfit
  rw [hnm', hB', hed] at hfit'
  rw [hfit, hfit'] at hc
  have hlen := robustfit_lengths _ _ _ _ _ hy _ hfit
  have hw0 : out'.w = out.w := by
    rw [hc.w, List.length_map, show p.ed.t.length = out.w.length by rw [hlen.1, ← hy, List.length_map], gather_range]
  have hl0 : out'.leverage = out.leverage := by
    rw [hc.leverage, List.length_map, show p.ed.t.length = out.leverage.length by rw [hlen.2, ← hy, List.length_map],
      gather_range]
  have hm0 : m = nameCoef p.sel (!opt.notrend) P M mean (slope * p.ed.lor) := by
    rw [hb, hc.b, ← hb', hmc, hed, e3, S.moved]
  have hwt : c'.weights = c.weights := by rw [F.cweights, F'.cweights, hW, hW', hw0]
  have hquality : ∃ r r', c.rf = some r ∧ c'.rf = some r' ∧ SameQuality r r' ∧ r'.leverage = r.leverage :=
    ⟨out, out', by rw [F.crf, hrf], by rw [F'.crf, hrf'], ⟨hc.iterations, hc.rms, hc.olsRms⟩, hl0⟩
  have hP' : TiedBy p.sel InfCon.Rp P := fun r hr q hq => hP r (by rw [S.refs]; exact hr) q hq
  have hM' : TiedBy p.sel InfCon.Rm M := fun r hr q hq => hM r (by rw [S.refs]; exact hr) q hq
  obtain ⟨r3, r4⟩ := F.read hnd P M mean slope hP' hM' hm0
  have hmean : c'.mean = c.mean := by rw [r2, r4, e3]
  have hlev : ∀ τ, level c' τ = level c τ := by
    intro τ
    unfold level
    rw [hmean, href]
  have hell : ∀ (i j : ℕ) (n : String), c.name[i]? = some n → c'.name[j]? = some n →
      ellipseAt c'.ell j = ellipseAt c.ell i := by
    intro i j n hi hj
    rw [r1, r3, ellipseAt_map, ellipseAt_map, hi, hj]
  refine ⟨⟨hell, hlev⟩, hmean, href, hwt, hquality, ?_⟩
  intro E' t' a ha
  obtain ⟨A, B, -, -, -, -, -, hAB, -⟩ := F.components R hnd hk hn
  rw [predicted R hnd h hk A B hAB a ha E' t', predicted R hnd' h' hk' A B (by
    intro j n hj
    obtain ⟨i, hi⟩ := List.mem_iff_getElem?.1 (hp.subset (List.mem_of_getElem? hj))
    obtain ⟨e, g1, g2⟩ := hAB i n hi
    exact ⟨e, by rw [hell i j n hi hj, g1], g2⟩) a ha E' t']
  congr 1
  funext tn
  refine List.map_congr_left fun x _ => ?_
  congr 1
  funext τ
  have hh : ∀ n, harmonic c' n τ = harmonic c n τ := by
    intro n
    rw [F.harmonic_eq, F'.harmonic_eq, hed, hlat, e1]
  simp only [hlev, hh]
  rw [(hp.map _).sum_eq]

/-- `C147_order`: the last of three points moved to the front. -/
example : ∃ out out', robustfit idealNum fairArgs 1 triX triY = .ok out ∧
    robustfit idealNum fairArgs 1 triX [3, 0, 1] = .ok out' ∧ out'.b = out.b ∧
    out'.w.map some = [out.w[2]?, out.w[0]?, out.w[1]?] ∧ out'.iterations = out.iterations := by
  obtain ⟨out, h, -⟩ := fair_run idealNum idealNum_ok
  obtain ⟨out', h1, h2, -, h3, -, h4⟩ := (C147_order idealNum idealNum_ok fairArgs (.inr le_rfl) 1 triX triX triY [3, 0, 1]
    tri_rows rfl [2, 0, 1] (by show List.Perm _ [0, 1, 2]; decide) rfl rfl).1 out h
  exact ⟨out, out', h, h1, h2, h3, h4.iterations⟩

/-- `C147_basis`: the curve in other units. -/
example : ∃ out out', robustfit idealNum fairArgs 1 triX triY = .ok out ∧
    robustfit idealNum fairArgs 1 [[2], [2], [2]] triY = .ok out' ∧ out'.w = out.w ∧ out.b = [2 * out'.b.getD 0 0] := by
  obtain ⟨out, h, -⟩ := fair_run idealNum idealNum_ok
  obtain ⟨out', h1, h2, -, h3, -⟩ := (C147_basis idealNum idealNum_ok fairArgs (.inr le_rfl) 1 !![2] (by simp) triX
    [[2], [2], [2]] triY tri_rows rfl (by simp [triX])).1 out h
  exact ⟨out, out', h, h1, h3, by rw [h2]; simp⟩

/-- `C147_constituents`: a robust analysis with intervals and one without. -/
example : ∃ c c', solve idealEnv sixT (sixSeries (sixY 1 0)) none (some 45) (methodOpts "robust" sixKw) = .ok c ∧
    solve idealEnv sixT (sixSeries (sixY 1 0)) none (some 45) (robCiOpts sixKw) = .ok c' ∧
    SameTide c c' ∧ c'.weights = c.weights ∧ c'.weights = sixW := by
  obtain ⟨c, H⟩ := six_run' 1 0 one_ne_zero
  obtain ⟨c', H', -, hname⟩ := six_robust_ci
  obtain ⟨p, constit, m, rf, full, o, ind, z, F, -⟩ := six_facts (robCiOpts_read sixKw) ⟨rfl, rfl, rfl, rfl, rfl⟩ rfl
    H'.returned
  obtain ⟨h1, -, -, h2, -⟩ := C147_constituents idealEnv idealNum_ok sixT (sixSeries (sixY 1 0)) none (some 45)
    (methodOpts "robust" sixKw) (robCiOpts sixKw) (six_ready _ none (.inl rfl)) (by decide) H'.keys sixKw
    ⟨⟨"robust", by decide, rfl⟩, false, rfl⟩ ⟨⟨"robust", by decide, rfl⟩, false, rfl⟩ ⟨by decide, by simp [sixKw]⟩ c c'
    H.returned H'.returned H.kept H'.kept (by rw [H.name]; simp) (by rw [H.name, hname])
    fun k hk => robCiOpts_requested sixKw k (by revert k; decide)
  exact ⟨c, c', H.returned, H'.returned, h1, h2, F.cweights⟩

end

end UTide.Props
