import Verif.Props.OrderProps
import Verif.Props.TimeProps
import Verif.Model.Reconstruct
import Verif.Lemmas.Signal

/-!
# Reconstruction: C31, C35, C36, C23
-/

namespace UTide.Props

noncomputable section

open Classical

local notation "conj" => starRingEnd ℂ

/-! ## Specification -/

/-- What constituent number `i` of `coef` contributes at time `τ`: `A cos(...)` as a real number, or the tidal current
as a point `u + iv` of the ellipse with axes `Lsmaj`, `Lsmin` and orientation `theta`. `z` is the (nodally corrected)
harmonic turned back by the phase `g`. -/
def tide (c : Coef) (τ : ℝ) (i : ℕ) : ℂ :=
  let z := utE c.opt.flags c.reftime c.lat τ (c.frq.getD i 0) (c.lind.getD i 0)
  match c.ell with
  | .one A g => ((A.getD i 0 * (z * cisd (-(g.getD i 0))).re : ℝ) : ℂ)
  | .two M m th g => cisd (th.getD i 0) * ⟨M.getD i 0 * (z * cisd (-(g.getD i 0))).re,
      m.getD i 0 * (z * cisd (-(g.getD i 0))).im⟩

/-- Mean and trend. -/
def level (c : Coef) (τ : ℝ) : ℂ :=
  match c.mean with
  | .one m s => ((m + s.getD 0 * (τ - c.reftime) : ℝ) : ℂ)
  | .two um vm s => ⟨um + (s.getD (0, 0)).1 * (τ - c.reftime), vm + (s.getD (0, 0)).2 * (τ - c.reftime)⟩

/-- Constituent number `i` is requested. -/
def Selected (c : Coef) (a : RecArgs) (i : ℕ) : Prop :=
  match a.constit with
  | some (.names l) => ∃ s ∈ l, c.name[i]? = some s
  | some (.str w) => ∃ s, c.name[i]? = some s ∧ s.toList <:+: w.toList
  | none => (a.minSNR = 0 ∧ a.minPE = 0) ∨ c.SNR = none ∨
      ∃ S P s p, c.SNR = some S ∧ c.PE = some P ∧ S[i]? = some s ∧ P[i]? = some p ∧
        Fl.fin a.minSNR ≤ s ∧ Fl.fin a.minPE ≤ p

/-- The curve of the requested constituents. -/
def curve (c : Coef) (sel : List ℕ) (τ : ℝ) : ℂ := level c τ + (sel.map (tide c τ)).sum

/-! ## Lemmas -/

theorem gather_sum (l : List ℂ) (ind : List ℕ) (h : ∀ i ∈ ind, i < l.length) :
    (gather l ind).sum = (ind.map fun i => l.getD i 0).sum := by
  induction ind with
  | nil => rfl
  | cons i ind ih =>
    have hi := h i (by simp)
    rw [gather_cons _ _ _ hi, List.sum_cons, List.map_cons, List.sum_cons, ih fun j hj => h j (by simp [hj]),
      List.getD_eq_getElem _ _ hi]

/-- `coef` as `solve` produces it, or any with arrays of equal length and the keys its options call for. -/
structure Coherent (n : ℕ) (c : Coef) : Prop where
  len : c.Len n
  kind : (c.opt.twodim = false ∧ ∃ A g m s, c.ell = .one A g ∧ c.mean = .one m s ∧ s.isSome = !c.opt.notrend) ∨
    (c.opt.twodim = true ∧ ∃ M m th g um vm s, c.ell = .two M m th g ∧ c.mean = .two um vm s ∧
      s.isSome = !c.opt.notrend)
  ci : c.opt.nodiagn = false → ∃ x, c.ci = some x ∧ x.Len n
  lat : c.lind.any (nodalSingular c.opt.flags c.lat) = false

theorem tide_one {n : ℕ} {c : Coef} (h : c.Len n) (htd : c.opt.twodim = false) {A g : List ℝ} (he : c.ell = .one A g)
    (τ : ℝ) (i : ℕ) (hi : i < n) : ((contribs c τ).getD i 0).re = (tide c τ i).re ∧ (tide c τ i).im = 0 := by
  have hl := contribs_length h τ
  obtain ⟨h1, h2⟩ : A.length = n ∧ g.length = n := by have := h.ell; rwa [he] at this
  have hf := h.frq
  have hk := h.lind
  rw [List.getD_eq_getElem _ _ (by omega)]
  unfold contribs tide Coef.basis
  simp only [he, htd, EllArr.toEll, List.getElem_zipWith, Bool.false_eq_true, if_false]
  rw [List.getD_eq_getElem A _ (by omega), List.getD_eq_getElem g _ (by omega), List.getD_eq_getElem c.frq _ (by omega),
    List.getD_eq_getElem c.lind _ (by omega)]
  refine ⟨?_, Complex.ofReal_im _⟩
  generalize utE c.opt.flags c.reftime c.lat τ c.frq[i] c.lind[i] = z
  unfold recAm1
  rw [recAp1_cisd]
  simp only [map_mul, Complex.conj_ofReal, conj_cisd, neg_neg]
  have h3 : conj z * (((A[i] / 2 : ℝ) : ℂ) * cisd g[i]) = conj (z * (((A[i] / 2 : ℝ) : ℂ) * cisd (-g[i]))) := by
    rw [map_mul, map_mul, Complex.conj_ofReal, conj_cisd, neg_neg]
  rw [h3, Complex.add_re, Complex.conj_re, Complex.ofReal_re,
    show z * (((A[i] / 2 : ℝ) : ℂ) * cisd (-g[i])) = ((A[i] / 2 : ℝ) : ℂ) * (z * cisd (-g[i])) by ring,
    Complex.re_ofReal_mul]
  ring

theorem tide_two {n : ℕ} {c : Coef} (h : c.Len n) (htd : c.opt.twodim = true) {M m th g : List ℝ}
    (he : c.ell = .two M m th g) (τ : ℝ) (i : ℕ) (hi : i < n) : (contribs c τ).getD i 0 = tide c τ i := by
  have hl := contribs_length h τ
  obtain ⟨h1, h2, h3, h4⟩ : M.length = n ∧ m.length = n ∧ th.length = n ∧ g.length = n := by
    have := h.ell; rwa [he] at this
  have hf := h.frq
  have hk := h.lind
  rw [List.getD_eq_getElem _ _ (by omega)]
  unfold contribs tide Coef.basis
  simp only [he, htd, EllArr.toEll, List.getElem_zipWith, if_true, List.getElem_zip]
  rw [List.getD_eq_getElem M _ (by omega), List.getD_eq_getElem g _ (by omega), List.getD_eq_getElem c.frq _ (by omega),
    List.getD_eq_getElem c.lind _ (by omega), List.getD_eq_getElem m _ (by omega), List.getD_eq_getElem th _ (by omega)]
  generalize utE c.opt.flags c.reftime c.lat τ c.frq[i] c.lind[i] = z
  rw [recAp2_cisd, recAm2_cisd]
  dsimp only
  rw [sub_eq_add_neg th[i], cisd_add, cisd_add]
  have h3 : conj (z * cisd (-g[i])) = conj z * cisd g[i] := by rw [map_mul, conj_cisd, neg_neg]
  have key : ∀ w : ℂ, (⟨M[i] * w.re, m[i] * w.im⟩ : ℂ) =
      (((M[i] + m[i]) / 2 : ℝ) : ℂ) * w + (((M[i] - m[i]) / 2 : ℝ) : ℂ) * conj w := by
    intro w
    apply Complex.ext
    · simp only [Complex.add_re, Complex.re_ofReal_mul, Complex.conj_re]; ring
    · simp only [Complex.add_im, Complex.im_ofReal_mul, Complex.conj_im]; ring
  rw [key, h3]
  ring

theorem re_sum_map (l : List ℕ) (f : ℕ → ℂ) : (l.map f).sum.re = (l.map fun i => (f i).re).sum := by
  induction l with
  | nil => rfl
  | cons a l ih => simp [ih]

theorem im_sum_map (l : List ℕ) (f : ℕ → ℂ) : (l.map f).sum.im = (l.map fun i => (f i).im).sum := by
  induction l with
  | nil => rfl
  | cons a l ih => simp [ih]

/-- Value at one time. -/
theorem recValue_eq {n : ℕ} {c : Coef} (h : Coherent n c) (ind : List ℕ) (hi : ∀ i ∈ ind, i < n) (τ : ℝ) :
    recValue c (recFit c ind τ) τ = .ok (curve c ind τ) := by
  rw [recFit_eq h.len, gather_sum _ _ (by rwa [contribs_length h.len])]
  unfold curve
  rcases h.kind with ⟨htd, A, g, m, s, he, hm, hs⟩ | ⟨htd, M, mi, th, g, um, vm, s, he, hm, hs⟩
  · have hre : ((ind.map fun i => (contribs c τ).getD i 0).sum).re = ((ind.map (tide c τ)).sum).re := by
      rw [re_sum_map, re_sum_map]
      exact congrArg List.sum (List.map_congr_left fun i hh => (tide_one h.len htd he τ i (hi i hh)).1)
    have him : ((ind.map (tide c τ)).sum).im = 0 := by
      rw [im_sum_map, List.map_congr_left fun i hh => (tide_one h.len htd he τ i (hi i hh)).2]
      simp
    unfold recValue level
    rw [htd, hm]
    dsimp only
    cases hn : c.opt.notrend with
    | true =>
      rw [hn] at hs
      have : s = none := by cases s <;> simp_all
      subst this
      simp only [if_true]
      congr 1
      apply Complex.ext
      · simp only [Complex.add_re, Complex.ofReal_re, Option.getD_none, ← hre]; ring
      · simp [him]
    | false =>
      rw [hn] at hs
      obtain ⟨x, rfl⟩ : ∃ x, s = some x := by cases s <;> simp_all
      simp only [Bool.false_eq_true, if_false]
      congr 1
      apply Complex.ext
      · simp only [Complex.add_re, Complex.ofReal_re, Option.getD_some, ← hre]; ring
      · simp [him]
  · have heq : (ind.map fun i => (contribs c τ).getD i 0).sum = (ind.map (tide c τ)).sum :=
      congrArg List.sum (List.map_congr_left fun i hh => tide_two h.len htd he τ i (hi i hh))
    rw [heq]
    unfold recValue level
    rw [htd, hm]
    dsimp only
    cases hn : c.opt.notrend with
    | true =>
      rw [hn] at hs
      have : s = none := by cases s <;> simp_all
      subst this
      simp only [if_true]
      congr 1
      apply Complex.ext
      · simp only [Complex.add_re, Option.getD_none]; ring
      · simp only [Complex.add_im, Option.getD_none]; ring
    | false =>
      rw [hn] at hs
      obtain ⟨x, rfl⟩ : ∃ x, s = some x := by cases s <;> simp_all
      simp only [Bool.false_eq_true, if_false]
      congr 1
      apply Complex.ext
      · simp only [Complex.add_re, Option.getD_some]; ring
      · simp only [Complex.add_im, Option.getD_some]; ring

theorem recIndex_lt {n : ℕ} {c : Coef} (h : Coherent n c) (a : RecArgs) :
    ∃ ind, recIndex c a = .ok ind ∧ (∀ i ∈ ind, i < n) := by
  unfold recIndex
  cases a.constit with
  | some rc =>
    refine ⟨_, rfl, fun i hi => ?_⟩
    have := List.mem_of_mem_filter hi
    rwa [List.mem_range, h.len.name] at this
  | none =>
    dsimp only
    split
    · exact ⟨_, rfl, fun i hi => by rwa [List.mem_range, h.len.name] at hi⟩
    · next hc =>
      have hnd : c.opt.nodiagn = false := by
        by_contra hcon
        exact hc (.inr (by simpa using hcon))
      obtain ⟨x, hx, hxl⟩ := h.ci hnd
      have hs : snr c.ell c.ci = .ok (List.zipWith (fun x n => (Fl.fin x).div n) (energies c.ell) (noises x)) := by
        rw [hx]; rfl
      refine ⟨_, by rw [hs]; rfl, fun i hi => ?_⟩
      have := List.mem_of_mem_filter hi
      rwa [List.mem_range, List.length_zipWith, energies_length h.len.ell, noises_length hxl, min_self] at this

/-- `reconstruct` as a whole. -/
theorem reconstruct_eq {n : ℕ} {c : Coef} (h : Coherent n c) (E : Env) (t : TimeArr) (a : RecArgs) (ind : List ℕ)
    (hind : recIndex c a = .ok ind) : reconstruct E t c a =
      (normalizeTime E.dt64 t a.epoch).map fun tn => tn.map fun x => x.toReal?.map (curve c ind) := by
  obtain ⟨ind', h1, hlt⟩ := recIndex_lt h a
  have : ind' = ind := Except.ok.inj (h1.symm.trans hind)
  subst this
  unfold reconstruct
  cases normalizeTime E.dt64 t a.epoch with
  | error e => rfl
  | ok tn =>
    simp only [ok_bind]
    rw [hind]
    simp only [ok_bind]
    have hc : checkRec c ind' = .ok () := by
      unfold checkRec
      have : (gather c.lind ind').any (nodalSingular c.opt.flags c.lat) = false := by
        rw [List.any_eq_false]
        intro k hk
        have h2 := h.lat
        rw [List.any_eq_false] at h2
        exact h2 k (gather_mem _ _ _ hk)
      rw [this]
      rfl
    rw [hc]
    simp only [ok_bind]
    show tn.mapM (recAt c ind') = .ok _
    rw [mapM_ok]
    have : ∀ x : Fl, recAt c ind' x = .ok (x.toReal?.map (curve c ind')) := by
      intro x
      cases x with
      | fin τ =>
        show (recValue c (recFit c ind' τ) τ).map some = _
        rw [recValue_eq h ind' hlt]
        rfl
      | _ => rfl
    generalize tn = l
    induction l with
    | nil => exact List.Forall₂.nil
    | cons x l ih => exact List.Forall₂.cons (this x) ih

theorem recPE_eq (e : EllArr) : recPE e = pe e := by
  cases e with
  | one A g => rfl
  | two a b c d =>
    unfold recPE pe
    dsimp only
    apply List.map_congr_left
    intro x hx
    have hnn : ∀ y ∈ energies (.two a b c d), 0 ≤ y := by
      intro y hy
      obtain ⟨p, q, rfl⟩ := mem_zipWith _ _ _ _ hy
      positivity
    by_cases hs : (energies (.two a b c d)).sum = 0
    · have h1 : x ≤ 0 := hs ▸ List.single_le_sum hnn x hx
      have : x = 0 := le_antisymm h1 (hnn x hx)
      subst this
      rw [hs]
      show (Fl.fin (100 * 0)).div (.fin 0) = ((Fl.fin 100).div (.fin 0)).mul (.fin 0)
      simp [Fl.div, Fl.mul, Fl.scaleInf]
    · show (Fl.fin (100 * x)).div (.fin _) = ((Fl.fin 100).div (.fin _)).mul (.fin x)
      simp only [Fl.div, if_neg hs, Fl.mul]
      congr 1; ring

theorem recPE_permute {n : ℕ} {e : EllArr} (hl : e.Len n) (ind : List ℕ) (hp : ind.Perm (List.range n)) :
    recPE (e.permute ind) = gather (recPE e) ind := by
  have he := energies_length hl
  have hs : (gather (energies e) ind).sum = (energies e).sum := (gather_perm _ (by rwa [he])).sum_eq
  unfold recPE
  rw [energies_permute hl, hs, gather_map]

theorem noises_permute {n : ℕ} {e : CiArr} (h : e.Len n) (ind : List ℕ) :
    noises (e.permute ind) = gather (noises e) ind := by
  cases e with
  | one A g => simp only [noises, CiArr.permute, gather_map]
  | two a b c d =>
    obtain ⟨h1, h2, -, -⟩ := h
    simp only [noises, CiArr.permute]
    rw [gather_zipWith _ _ _ (by omega)]

theorem snr_permute {n : ℕ} {e : EllArr} (h : e.Len n) {ci : Option CiArr} (hci : ∀ x, ci = some x → x.Len n)
    (ind : List ℕ) : snr (e.permute ind) (ci.map (CiArr.permute ind)) = (snr e ci).map (gather · ind) := by
  cases ci with
  | none => rfl
  | some x =>
    have hx := hci x rfl
    refine congrArg Except.ok ?_
    show _ = gather (List.zipWith _ (energies e) (noises x)) ind
    rw [gather_zipWith _ (energies e) (noises x) (by rw [energies_length h, noises_length hx]), energies_permute h,
      noises_permute hx]

/-- A result of `solve` is coherent. -/
theorem Facts.coherent {E : Env} {t : TimeArg} {u : Series} {v : Option Series} {lat : Option ℝ} {opts : Dict PyVal}
    {c : Coef} {opt : Opt} {p : Prep} {tn : List Fl} {constit : Constit} {m : List ℂ} {W : List ℝ}
    {rf : Option RobOut} {full : Coef} {o : Order} {ind : List ℕ}
    (F : Facts E t u v lat opts c opt p tn constit m W rf full o ind) (hnd : opts.keys.Nodup) :
    Coherent p.sel.lind.length full := by
  have hq := getOpt_requests _ hnd _ _ F.hopt
  have ho := F.solved.head.opt
  have hpo : full.opt = opt := ho.trans F.prep.hopt
  have hmean : full.mean = meanOf p.opt.twodim p.opt.notrend p.ed.lor p.nm m := F.solved.head.mean
  refine ⟨F.len, ?_, ?_, ?_⟩
  · rw [F.solved.ell, hmean, hpo, F.prep.hopt]
    cases h1 : opt.twodim with
    | false =>
      left
      refine ⟨rfl, _, _, _, _, rfl, rfl, ?_⟩
      cases opt.notrend <;> rfl
    | true =>
      right
      refine ⟨rfl, _, _, _, _, _, _, _, rfl, rfl, ?_⟩
      cases opt.notrend <;> rfl
  · intro hn
    rw [hpo, hq.diagn] at hn
    rcases F.solved.ci with ⟨h1, -⟩ | ⟨h1, ci, -, h2⟩
    · rw [F.prep.hopt] at h1
      simp [h1] at hn
    · exact ⟨ci, h2, F.solved.ciLen F.prep F.mlen ci h2⟩
  · have hlat : full.lat = p.lat := F.solved.head.lat
    rw [F.solved.lind, hlat, hpo, F.prep.aligned.lind_eq]
    have hc := F.prep.check
    unfold checkMatrix at hc
    simp only [bind_eq_ok] at hc
    obtain ⟨_, -, _, hc, -⟩ := hc
    exact (raiseIf_ok _ _ _).1 hc

theorem Coherent.permute {n : ℕ} {c : Coef} (h : Coherent n c) (ind : List ℕ) (hi : ∀ i ∈ ind, i < n) :
    Coherent ind.length (c.permute ind) := by
  refine ⟨h.len.permute ind hi, ?_, ?_, ?_⟩
  · rcases h.kind with ⟨htd, A, g, m, s, he, hm, hs⟩ | ⟨htd, M, mi, th, g, um, vm, s, he, hm, hs⟩
    · exact .inl ⟨htd, _, _, m, s, by show c.ell.permute ind = _; rw [he]; rfl, hm, hs⟩
    · exact .inr ⟨htd, _, _, _, _, um, vm, s, by show c.ell.permute ind = _; rw [he]; rfl, hm, hs⟩
  · intro hn
    obtain ⟨x, hx, hl⟩ := h.ci hn
    refine ⟨x.permute ind, by show c.ci.map _ = _; rw [hx]; rfl, ?_⟩
    cases x with
    | one A g =>
      obtain ⟨h1, h2⟩ := hl
      exact ⟨gather_length _ _ (by rwa [h1]), gather_length _ _ (by rwa [h2])⟩
    | two a b d e =>
      obtain ⟨h1, h2, h3, h4⟩ := hl
      exact ⟨gather_length _ _ (by rwa [h1]), gather_length _ _ (by rwa [h2]), gather_length _ _ (by rwa [h3]),
        gather_length _ _ (by rwa [h4])⟩
  · have h2 := h.lat
    rw [List.any_eq_false] at h2 ⊢
    intro k hk
    exact h2 k (gather_mem _ _ _ hk)

/-! ## C36 -/

theorem positions_congr {n n' : ℕ} {p q : ℕ → Prop} (hn : n = n') (h : ∀ i < n, p i ↔ q i) :
    positions n p = positions n' q := by
  subst hn
  unfold positions
  apply List.filter_congr
  intro i hi
  rw [List.mem_range] at hi
  simp [h i hi]

/-- **C36.** `reconstruct` of a result of `solve` that keeps all constituents: at every valid time mean and trend plus
the contributions of exactly the requested constituents, nothing else; it fails only if the times cannot be read. -/
theorem C36_selected (E : Env) (t : TimeArg) (u : Series) (v : Option Series) (lat : Option ℝ) (opts : Dict PyVal)
    (R : Ready E t u v) (hnd : opts.keys.Nodup) (c : Coef) (h : solve E t u v lat opts = .ok c) (hk : AllKept c)
    (E' : Env) (t' : TimeArr) (a : RecArgs) :
    reconstruct E' t' c a = (normalizeTime E'.dt64 t' a.epoch).map fun tn => tn.map fun x => x.toReal?.map fun τ =>
      level c τ + (((List.range c.name.length).filter (Selected c a)).map (tide c τ)).sum := by
  obtain ⟨opt, p, tn, constit, m, W, rf, full, o, ind, F⟩ := solve_facts R h
  have hperm := F.kept hnd R hk
  have hco := (F.coherent hnd).permute ind F.lt
  have hq := getOpt_requests _ hnd _ _ F.hopt
  rw [← F.solved.result] at hco
  have hname := hco.len.name
  refine reconstruct_eq hco E' t' a _ ?_
  unfold recIndex
  have hsel : Selected c a = Selected c a := rfl
  unfold Selected at hsel ⊢
  cases hcon : a.constit with
  | some rc =>
    dsimp only
    cases rc with
    | names l =>
      refine congrArg Except.ok (positions_congr rfl fun i _ => ?_)
      simp only [RecConstit.has, decide_eq_true_eq]
      constructor
      · rintro ⟨s, h1, h2⟩; exact ⟨s, h2, h1⟩
      · rintro ⟨s, h1, h2⟩; exact ⟨s, h2, h1⟩
    | str w =>
      refine congrArg Except.ok (positions_congr rfl fun i _ => ?_)
      simp only [RecConstit.has, decide_eq_true_eq]
  | none =>
    dsimp only
    have hcSNR : c.SNR = full.SNR.map (gather · ind) := by rw [F.solved.result]; rfl
    have hcPE : c.PE = full.PE.map (gather · ind) := by rw [F.solved.result]; rfl
    have hopt : c.opt = p.opt := by rw [F.solved.result]; exact F.solved.head.opt
    rw [hopt]
    have hall : ∀ P : ℕ → Prop, (∀ i, P i) → List.range c.name.length = positions c.name.length P := by
      intro P hP
      unfold positions
      simp [hP]
    by_cases hthr : a.minSNR = 0 ∧ a.minPE = 0
    · rw [if_pos (.inl hthr)]
      exact congrArg Except.ok (hall _ fun i => .inl hthr)
    rcases F.solved.SNR with ⟨h1, h2, h3⟩ | ⟨h1, s, h2, h3, h4⟩
    · have hn : c.SNR = none := by rw [hcSNR, h2]; rfl
      rw [if_pos (.inr h1)]
      exact congrArg Except.ok (hall _ fun i => .inr (.inl hn))
    · rw [if_neg (by simp only [h1, Bool.false_eq_true, or_false]; exact hthr)]
      have hS : c.SNR = some (gather s ind) := by rw [hcSNR, h3]; rfl
      have hP : c.PE = some (gather (pe full.ell) ind) := by
        rw [hcPE, F.solved.PE, if_neg (by simp [h1])]; rfl
      have hell : c.ell = full.ell.permute ind := by rw [F.solved.result]; rfl
      have hcci : c.ci = full.ci.map (CiArr.permute ind) := by rw [F.solved.result]; rfl
      obtain ⟨x, hx⟩ : ∃ x, full.ci = some x := by
        cases hx : full.ci with
        | none => rw [hx] at h2; simp [snr] at h2
        | some x => exact ⟨x, rfl⟩
      have hxl := F.solved.ciLen F.prep F.mlen x hx
      have hs : snr c.ell c.ci = .ok (gather s ind) := by
        rw [hell, hcci, snr_permute F.len.ell (fun y hy => by rw [hx] at hy; rwa [← Option.some.inj hy]), h2]
        rfl
      rw [hs]
      simp only [ok_bind]
      have hpe : recPE c.ell = gather (pe full.ell) ind := by rw [hell, recPE_permute F.len.ell ind hperm, recPE_eq]
      rw [hpe]
      have hsl : (gather s ind).length = c.name.length := by
        rw [gather_length _ _ (by rw [F.solved.snrLen F.prep F.mlen s h3]; exact F.lt), hname]
      refine congrArg Except.ok (positions_congr hsl fun i _ => ?_)
      rw [hS, hP]
      constructor
      · rintro ⟨⟨s, e1, e2⟩, q, e3, e4⟩
        exact .inr (.inr ⟨_, _, s, q, rfl, rfl, e1, e3, e2, e4⟩)
      · rintro (h5 | h5 | ⟨S, P, s, q, e5, e6, e1, e3, e2, e4⟩)
        · exact absurd h5 hthr
        · simp at h5
        · rw [← Option.some.inj e5] at e1
          rw [← Option.some.inj e6] at e3
          exact ⟨⟨s, e1, e2⟩, q, e3, e4⟩

/-- **C36**: raising the thresholds never adds a constituent, unless both become 0, which switches them off. -/
theorem C36_monotone (c : Coef) (a b : RecArgs) (hc : a.constit = none) (hc' : b.constit = none)
    (h1 : a.minSNR ≤ b.minSNR) (h2 : a.minPE ≤ b.minPE) (h3 : ¬ (b.minSNR = 0 ∧ b.minPE = 0)) (i : ℕ)
    (h : Selected c b i) : Selected c a i := by
  have key : ∀ (x y : ℝ) (s : Fl), x ≤ y → Fl.fin y ≤ s → Fl.fin x ≤ s := by
    intro x y s hxy hs
    cases s with
    | fin z => exact le_trans hxy (show y ≤ z from hs)
    | nan => exact hs
    | pinf => exact hs
    | ninf => exact hs
  unfold Selected at h ⊢
  rw [hc] at ⊢
  rw [hc'] at h
  dsimp only at h ⊢
  rcases h with h | h | ⟨S, P, s, p, e1, e2, e3, e4, e5, e6⟩
  · exact absurd h h3
  · exact .inr (.inl h)
  · exact .inr (.inr ⟨S, P, s, p, e1, e2, e3, e4, key _ _ _ h1 e5, key _ _ _ h2 e6⟩)

/-- **C36**: with nothing selected the output is mean and trend. -/
theorem C36_nothing (E : Env) (t : TimeArg) (u : Series) (v : Option Series) (lat : Option ℝ) (opts : Dict PyVal)
    (R : Ready E t u v) (hnd : opts.keys.Nodup) (c : Coef) (h : solve E t u v lat opts = .ok c) (hk : AllKept c)
    (E' : Env) (t' : TimeArr) (a : RecArgs) (hno : ∀ i < c.name.length, ¬ Selected c a i) (r : List (Option ℂ))
    (hr : reconstruct E' t' c a = .ok r) :
    ∃ tn, normalizeTime E'.dt64 t' a.epoch = .ok tn ∧ r = tn.map fun x => x.toReal?.map (level c) := by
  rw [C36_selected E t u v lat opts R hnd c h hk E' t' a] at hr
  cases hn : normalizeTime E'.dt64 t' a.epoch with
  | error e => rw [hn] at hr; simp [Except.map] at hr
  | ok tn =>
    rw [hn] at hr
    refine ⟨tn, rfl, ?_⟩
    rw [← Except.ok.inj hr]
    have : (List.range c.name.length).filter (fun i => decide (Selected c a i)) = [] := by
      rw [List.filter_eq_nil_iff]
      intro i hi
      simpa using hno i (List.mem_range.1 hi)
    apply List.map_congr_left
    intro x _
    congr 1
    funext τ
    rw [this]
    simp

/-! ## C31 -/

/-- `t` is the concatenation of `t₁` and `t₂` (arrays of one dtype). -/
inductive Concat : TimeArr → TimeArr → TimeArr → Prop
  | int (a b) : Concat (.int a) (.int b) (.int (a ++ b))
  | uint (a b) : Concat (.uint a) (.uint b) (.uint (a ++ b))
  | bool (a b) : Concat (.bool a) (.bool b) (.bool (a ++ b))
  | float (a b) : Concat (.float a) (.float b) (.float (a ++ b))
  | date (a b) : Concat (.date a) (.date b) (.date (a ++ b))
  | str (a b) : Concat (.str a) (.str b) (.str (a ++ b))

theorem mapM_append_ok {α β : Type} (f : α → Except PyErr β) (a b : List α) (r : List β) :
    (a ++ b).mapM f = .ok r ↔ ∃ r₁ r₂, a.mapM f = .ok r₁ ∧ b.mapM f = .ok r₂ ∧ r = r₁ ++ r₂ := by
  rw [List.mapM_append]
  simp only [bind_eq_ok, pure_eq_ok, Except.ok.injEq]
  constructor
  · rintro ⟨r₁, h1, r₂, h2, rfl⟩; exact ⟨r₁, r₂, h1, h2, rfl⟩
  · rintro ⟨r₁, r₂, h1, h2, rfl⟩; exact ⟨r₁, h1, r₂, h2, rfl⟩

theorem astypeMs_concat (dt64 : String → Option ℤ) {t₁ t₂ t : TimeArr} (h : Concat t₁ t₂ t) (r : List (Option ℤ)) :
    astypeMs dt64 t = .ok r ↔ ∃ r₁ r₂, astypeMs dt64 t₁ = .ok r₁ ∧ astypeMs dt64 t₂ = .ok r₂ ∧ r = r₁ ++ r₂ := by
  cases h with
  | str a b => exact mapM_append_ok _ a b r
  | _ a b =>
    simp only [astypeMs, Except.ok.injEq, List.map_append, exists_and_left, exists_eq_left']
    exact eq_comm

theorem normalizeTime_concat (dt64 : String → Option ℤ) (e : PyVal) {t₁ t₂ t : TimeArr} (h : Concat t₁ t₂ t)
    (r : List Fl) : normalizeTime dt64 t e = .ok r ↔
      ∃ r₁ r₂, normalizeTime dt64 t₁ e = .ok r₁ ∧ normalizeTime dt64 t₂ e = .ok r₂ ∧ r = r₁ ++ r₂ := by
  by_cases he : e = .none
  · subst he
    show pythonGregorianDatenum dt64 t = _ ↔ ∃ r₁ r₂, pythonGregorianDatenum dt64 t₁ = _ ∧
      pythonGregorianDatenum dt64 t₂ = _ ∧ _
    unfold pythonGregorianDatenum
    simp only [bind_eq_ok, pure_eq_ok, Except.ok.injEq, astypeMs_concat dt64 h]
    constructor
    · rintro ⟨_, ⟨r₁, r₂, h1, h2, rfl⟩, rfl⟩
      exact ⟨_, _, ⟨r₁, h1, rfl⟩, ⟨r₂, h2, rfl⟩, List.map_append⟩
    · rintro ⟨_, _, ⟨r₁, h1, rfl⟩, ⟨r₂, h2, rfl⟩, rfl⟩
      exact ⟨_, ⟨r₁, r₂, h1, h2, rfl⟩, List.map_append⟩
  · simp only [normalizeTime_epoch dt64 _ e he]
    cases h with
    | int a b =>
      simp only [TimeArr.asNumbers]
      cases epochShift dt64 e with
      | error err => simp [Except.map]
      | ok f => simp [Except.map, eq_comm]
    | float a b =>
      simp only [TimeArr.asNumbers]
      cases epochShift dt64 e with
      | error err => simp [Except.map]
      | ok f => simp [Except.map, eq_comm]
    | _ a b => simp [TimeArr.asNumbers]

theorem reconstruct_ok (E : Env) (t : TimeArr) (c : Coef) (a : RecArgs) (r : List (Option ℂ)) :
    reconstruct E t c a = .ok r ↔ ∃ tn ind, normalizeTime E.dt64 t a.epoch = .ok tn ∧ recIndex c a = .ok ind ∧
      checkRec c ind = .ok () ∧ tn.mapM (recAt c ind) = .ok r := by
  unfold reconstruct
  simp only [bind_eq_ok]
  constructor
  · rintro ⟨tn, h1, ind, h2, _, h3, h4⟩; exact ⟨tn, ind, h1, h2, h3, h4⟩
  · rintro ⟨tn, ind, h1, h2, h3, h4⟩; exact ⟨tn, h1, ind, h2, (), h3, h4⟩

/-- **C31**, shape: the output has the length of `t` and is NaN exactly where the time is invalid. -/
theorem C31_shape (E : Env) (t : TimeArr) (c : Coef) (a : RecArgs) (r : List (Option ℂ))
    (h : reconstruct E t c a = .ok r) :
    r.length = t.length ∧ ∃ tn, normalizeTime E.dt64 t a.epoch = .ok tn ∧ tn.length = t.length ∧
      ∀ (i : ℕ) (x : Fl), tn[i]? = some x → (r[i]? = some none ↔ x.isFinite = false) := by
  obtain ⟨tn, ind, h1, -, -, h4⟩ := (reconstruct_ok _ _ _ _ _).1 h
  have hl := mapM_length _ _ _ h4
  have hn := normalizeTime_length _ _ _ _ h1
  refine ⟨hl.trans hn, tn, h1, hn, fun i x hx => ?_⟩
  rw [mapM_ok] at h4
  obtain ⟨hi, rfl⟩ := List.getElem?_eq_some_iff.1 hx
  have hr : i < r.length := by omega
  have h5 := (List.forall₂_iff_get.1 h4).2 i hi hr
  simp only [List.get_eq_getElem] at h5
  rw [List.getElem?_eq_getElem hr, Option.some.injEq]
  cases hx : tn[i] with
  | fin τ =>
    rw [hx] at h5
    change (recValue c (recFit c ind τ) τ).map some = _ at h5
    cases hv : recValue c (recFit c ind τ) τ with
    | error e => rw [hv] at h5; simp [Except.map] at h5
    | ok z =>
      rw [hv] at h5
      rw [← Except.ok.inj h5]
      simp [Fl.isFinite]
  | nan => rw [hx] at h5; rw [← Except.ok.inj h5]; simp [Fl.isFinite]
  | pinf => rw [hx] at h5; rw [← Except.ok.inj h5]; simp [Fl.isFinite]
  | ninf => rw [hx] at h5; rw [← Except.ok.inj h5]; simp [Fl.isFinite]

/-- **C31**, pointwise: the reconstruction of a concatenation is the concatenation of the reconstructions. -/
theorem C31_concat (E : Env) (c : Coef) (a : RecArgs) (t₁ t₂ t : TimeArr) (h : Concat t₁ t₂ t)
    (r : List (Option ℂ)) : reconstruct E t c a = .ok r ↔
      ∃ r₁ r₂, reconstruct E t₁ c a = .ok r₁ ∧ reconstruct E t₂ c a = .ok r₂ ∧ r = r₁ ++ r₂ := by
  simp only [reconstruct_ok, normalizeTime_concat _ _ h]
  constructor
  · rintro ⟨_, ind, ⟨n₁, n₂, h1, h2, rfl⟩, h3, h4, h5⟩
    obtain ⟨r₁, r₂, h6, h7, rfl⟩ := (mapM_append_ok _ _ _ _).1 h5
    exact ⟨r₁, r₂, ⟨n₁, ind, h1, h3, h4, h6⟩, ⟨n₂, ind, h2, h3, h4, h7⟩, rfl⟩
  · rintro ⟨r₁, r₂, ⟨n₁, ind, h1, h3, h4, h6⟩, ⟨n₂, ind', h2, h3', h4', h7⟩, rfl⟩
    rw [h3] at h3'
    have := Except.ok.inj h3'
    subst this
    exact ⟨_, ind, ⟨n₁, n₂, h1, h2, rfl⟩, h3, h4, (mapM_append_ok _ _ _ _).2 ⟨r₁, r₂, h6, h7, rfl⟩⟩

/-! ## C35 -/

theorem gather_positions {α : Type} (l : List α) (Q : α → Prop) :
    gather l (positions l.length fun i => ∃ k, l[i]? = some k ∧ Q k) = l.filter fun k => decide (Q k) := by
  induction l using List.reverseRecOn with
  | nil => rfl
  | append_singleton l a ih =>
    unfold positions gather at ih ⊢
    rw [List.length_append, List.length_singleton, List.range_succ, List.filter_append, List.filterMap_append,
      List.filter_append]
    congr 1
    · rw [← ih]
      have h1 : (List.range l.length).filter (fun i => decide (∃ k, (l ++ [a])[i]? = some k ∧ Q k)) =
          (List.range l.length).filter fun i => decide (∃ k, l[i]? = some k ∧ Q k) := by
        apply List.filter_congr
        intro i hi
        rw [List.getElem?_append_left (List.mem_range.1 hi)]
      rw [h1]
      apply List.filterMap_congr
      intro i hi
      rw [List.getElem?_append_left (List.mem_range.1 (List.mem_of_mem_filter hi))]
    · by_cases hq : Q a
      · simp [hq]
      · simp [hq]

theorem positions_perm {n : ℕ} {σ : List ℕ} (hσ : σ.Perm (List.range n)) (Q Q' : ℕ → Prop)
    (h : ∀ i k, σ[i]? = some k → (Q' i ↔ Q k)) : (gather σ (positions n Q')).Perm (positions n Q) := by
  have hl : σ.length = n := by rw [hσ.length_eq, List.length_range]
  have h1 : positions n Q' = positions σ.length fun i => ∃ k, σ[i]? = some k ∧ Q k := by
    refine positions_congr hl.symm fun i hi => ?_
    have hs : σ[i]? = some σ[i] := List.getElem?_eq_getElem (by omega)
    rw [h i _ hs]
    constructor
    · exact fun hq => ⟨_, hs, hq⟩
    · rintro ⟨k, hk, hq⟩
      rw [hs] at hk
      rwa [Option.some.inj hk]
  rw [h1, gather_positions]
  exact hσ.filter _

theorem recIndex_permute {n : ℕ} {c : Coef} (hlen : c.Len n) (hci : ∀ x, c.ci = some x → x.Len n) {σ : List ℕ}
    (hσ : σ.Perm (List.range n)) (a : RecArgs) :
    (∃ e, recIndex c a = .error e ∧ recIndex (c.permute σ) a = .error e) ∨
    ∃ ind ind', recIndex c a = .ok ind ∧ recIndex (c.permute σ) a = .ok ind' ∧ (gather σ ind').Perm ind ∧
      (∀ i ∈ ind, i < n) ∧ ∀ i ∈ ind', i < n := by
  have hi := perm_range_lt hσ
  have hl : σ.length = n := by rw [hσ.length_eq, List.length_range]
  have hlen' := hlen.permute σ hi
  rw [hl] at hlen'
  have hpos : ∀ (Q : ℕ → Prop), ∀ i ∈ positions n Q, i < n :=
    fun Q i h => List.mem_range.1 (List.mem_of_mem_filter h)
  unfold recIndex
  cases a.constit with
  | some rc =>
    right
    dsimp only
    rw [hlen.name, hlen'.name]
    refine ⟨_, _, rfl, rfl, positions_perm hσ _ _ ?_, hpos _, hpos _⟩
    intro i k hk
    show (∃ s, (gather c.name σ)[i]? = some s ∧ _) ↔ _
    rw [gather_getElem? _ _ (by rwa [hlen.name]), hk]
    rfl
  | none =>
    dsimp only
    rw [hlen.name, hlen'.name]
    have ho : (c.permute σ).opt.nodiagn = c.opt.nodiagn := rfl
    rw [ho]
    split
    · right
      refine ⟨_, _, rfl, rfl, ?_, fun i h => List.mem_range.1 h, fun i h => List.mem_range.1 h⟩
      rw [← hl, gather_range, hl]
      exact hσ
    · have hs : snr (c.permute σ).ell (c.permute σ).ci = (snr c.ell c.ci).map (gather · σ) := snr_permute hlen.ell hci σ
      rw [hs]
      cases hsn : snr c.ell c.ci with
      | error e => exact .inl ⟨e, rfl, rfl⟩
      | ok S =>
        right
        have hSl := snr_length hlen.ell _ hci S hsn
        have hgl : (gather S σ).length = n := by rw [gather_length _ _ (by rwa [hSl]), hl]
        have hPl : (recPE c.ell).length = n := by unfold recPE; rw [List.length_map, energies_length hlen.ell]
        refine ⟨_, _, rfl, rfl, ?_, ?_, ?_⟩
        · dsimp only
          rw [hgl, hSl]
          refine positions_perm hσ _ _ ?_
          intro i k hk
          show (∃ s, (gather S σ)[i]? = some s ∧ _) ∧ (∃ p, (recPE (c.ell.permute σ))[i]? = some p ∧ _) ↔ _
          rw [recPE_permute hlen.ell σ hσ, gather_getElem? _ _ (by rwa [hSl]), gather_getElem? _ _ (by rwa [hPl]), hk]
          rfl
        · rw [hSl]; exact hpos _
        · dsimp only
          rw [hgl]; exact hpos _

/-- **C35.** Permuting the constituents of `coef` (any `coef` with arrays of equal length) does not change the
reconstruction, whatever the selection arguments. -/
theorem C35_permutation (n : ℕ) (c : Coef) (hlen : c.Len n) (hci : ∀ x, c.ci = some x → x.Len n) (σ : List ℕ)
    (hσ : σ.Perm (List.range n)) (E : Env) (t : TimeArr) (a : RecArgs) :
    reconstruct E t (c.permute σ) a = reconstruct E t c a := by
  have hi := perm_range_lt hσ
  have hl : σ.length = n := by rw [hσ.length_eq, List.length_range]
  have hlen' := hlen.permute σ hi
  rw [hl] at hlen'
  unfold reconstruct
  rcases recIndex_permute hlen hci hσ a with ⟨e, h1, h2⟩ | ⟨ind, ind', h1, h2, hp, hlt, hlt'⟩
  · rw [h1, h2]
    rfl
  · rw [h1, h2]
    simp only [ok_bind]
    have hck : checkRec (c.permute σ) ind' = checkRec c ind := by
      unfold checkRec
      refine congrArg (fun b => raiseIf b PyErr.nonFinite) ?_
      show (gather (gather c.lind σ) ind').any _ = (gather c.lind ind).any _
      rw [gather_gather _ _ _ (by rwa [hlen.lind]), Bool.eq_iff_iff, List.any_eq_true, List.any_eq_true]
      have hp2 := gather_perm_perm c.lind hp
      exact ⟨fun ⟨x, hx, hx'⟩ => ⟨x, hp2.mem_iff.1 hx, hx'⟩, fun ⟨x, hx, hx'⟩ => ⟨x, hp2.mem_iff.2 hx, hx'⟩⟩
    have hfit : ∀ τ, recFit (c.permute σ) ind' τ = recFit c ind τ := by
      intro τ
      rw [recFit_eq hlen', recFit_eq hlen, contribs_permute hlen, gather_gather _ _ _ (by rwa [contribs_length hlen])]
      exact (gather_perm_perm _ hp).sum_eq
    have hat : recAt (c.permute σ) ind' = recAt c ind := by
      funext x
      cases x with
      | fin τ =>
        show (recValue (c.permute σ) (recFit (c.permute σ) ind' τ) τ).map some = _
        rw [hfit]
        rfl
      | _ => rfl
    rw [hck, hat]

/-- `reconstruct` looks at nothing else. -/
theorem reconstruct_congr (c c' : Coef) (h1 : c'.name = c.name) (h2 : c'.ell = c.ell) (h3 : c'.ci = c.ci)
    (h4 : c'.mean = c.mean) (h5 : c'.frq = c.frq) (h6 : c'.lind = c.lind) (h7 : c'.reftime = c.reftime)
    (h8 : c'.lat = c.lat) (x : PyVal) (h9 : c'.opt = { c.opt with ordercnstit := x }) (E : Env) (t : TimeArr)
    (a : RecArgs) : reconstruct E t c' a = reconstruct E t c a := by
  have hfit : ∀ ind τ, recFit c' ind τ = recFit c ind τ := by
    intro ind τ
    unfold recFit
    rw [h2, h5, h6, h7, h8, h9]
  have hval : ∀ z τ, recValue c' z τ = recValue c z τ := by
    intro z τ
    unfold recValue
    rw [h4, h7, h9]
  have hat : ∀ ind, recAt c' ind = recAt c ind := by
    intro ind
    funext y
    cases y with
    | fin τ =>
      show (recValue c' (recFit c' ind τ) τ).map some = _
      rw [hfit, hval]
      rfl
    | _ => rfl
  have hix : recIndex c' a = recIndex c a := by
    unfold recIndex
    rw [h1, h2, h3, h9]
  have hck : ∀ ind, checkRec c' ind = checkRec c ind := by
    intro ind
    unfold checkRec
    rw [h6, h8, h9]
  unfold reconstruct
  rw [hix]
  simp only [hat, hck]

/-- **C35** for `solve`: calls that differ in `order_constit` only, both keeping all constituents, have the same
reconstruction. -/
theorem C35_orders (E : Env) (t : TimeArg) (u : Series) (v : Option Series) (lat : Option ℝ)
    (opts opts' : Dict PyVal) (R : Ready E t u v) (hnd : opts.keys.Nodup) (hnd' : opts'.keys.Nodup)
    (heq : ∀ k, k ≠ "order_constit" → requested opts k = requested opts' k) (c c' : Coef)
    (h : solve E t u v lat opts = .ok c) (h' : solve E t u v lat opts' = .ok c') (hk : AllKept c) (hk' : AllKept c')
    (E' : Env) (t' : TimeArr) (a : RecArgs) : reconstruct E' t' c' a = reconstruct E' t' c a := by
  obtain ⟨opt, p, tn, constit, m, W, rf, full, o, ind, F⟩ := solve_facts R h
  obtain ⟨opt', p', tn', constit', m', W', rf', full', o', ind', F'⟩ := solve_facts R h'
  obtain ⟨hf, hsel, hh⟩ := sameFull F F' hnd hnd' heq
  have ho := getOpt_order opts opts' hnd hnd' _ heq opt opt' F.hopt F'.hopt
  rw [F.solved.result, F'.solved.result,
    C35_permutation _ full F.len (F.solved.ciLen F.prep F.mlen) ind (F.kept hnd R hk),
    C35_permutation _ full' F'.len (F'.solved.ciLen F'.prep F'.mlen) ind' (F'.kept hnd' R hk')]
  have hd := F.solved.head
  refine reconstruct_congr full full' hf.name hf.ell hf.ci ?_ hf.frq hf.lind ?_ ?_ opt'.ordercnstit ?_ E' t' a
  · exact (show full'.mean = _ from hh.mean).trans hd.mean.symm
  · exact (show full'.reftime = _ from hh.reftime).trans hd.reftime.symm
  · exact (show full'.lat = _ from hh.lat).trans hd.lat.symm
  · have e1 : full'.opt = opt' := F'.solved.head.opt.trans F'.prep.hopt
    have e2 : full.opt = opt := F.solved.head.opt.trans F.prep.hopt
    rw [e1, e2]
    exact ho

/-! ## C23 -/

theorem say_false (s : String) : say false s = [] := rfl
theorem say_true (s : String) : say true s = [s] := rfl

/-- **C23**, `solve`: the printing version computes the same; `verbose` false prints nothing, `verbose` true prints the
documented line on success. -/
theorem C23_solve (E : Env) (t : TimeArg) (u : Series) (v : Option Series) (lat : Option ℝ) (opts : Dict PyVal)
    (hnd : opts.keys.Nodup) (x : PyVal) (hx : requested opts "verbose" = some x) :
    (solveP E t u v lat opts).2 = solve E t u v lat opts ∧
    (x.truthy = .ok false → (solveP E t u v lat opts).1 = []) ∧
    (x.truthy = .ok true → ∀ c, solve E t u v lat opts = .ok c →
      String.join (solveP E t u v lat opts).1 = "solve: matrix prep ... solution ... done.\n") := by
  have h2 : (solveP E t u v lat opts).2 = solve E t u v lat opts := by
    unfold solveP solve stagePrep
    cases getOpt opts v.isSome with
    | error e => rfl
    | ok opt =>
      simp only [ok_bind]
      cases stageInit E opt t u v lat with
      | error e => rfl
      | ok r =>
        obtain ⟨ed, la⟩ := r
        simp only [ok_bind]
        cases stageSelect opt ed with
        | error e => rfl
        | ok r =>
          obtain ⟨constit, infer, sel⟩ := r
          simp only [ok_bind]
          cases stageMatrix opt ed la constit infer sel with
          | error e => rfl
          | ok p =>
            simp only [ok_bind]
            cases stageSolution E p with
            | error e => rfl
            | ok c => rfl
  refine ⟨h2, fun hv => ?_, fun hv c hc => ?_⟩
  · unfold solveP
    cases hopt : getOpt opts v.isSome with
    | error e => rfl
    | ok opt =>
      have hq := (getOpt_requests _ hnd _ _ hopt).verbose x hx
      have hv' : opt.verbose = false := (Except.ok.inj (hv.symm.trans hq)).symm
      simp only [hv', say_false, List.append_nil]
      cases stageInit E opt t u v lat with
      | error e => rfl
      | ok r =>
        obtain ⟨ed, la⟩ := r
        dsimp only
        cases stageSelect opt ed with
        | error e => rfl
        | ok r =>
          obtain ⟨constit, infer, sel⟩ := r
          dsimp only
          cases stageMatrix opt ed la constit infer sel with
          | error e => rfl
          | ok p =>
            dsimp only
            cases stageSolution E p with
            | error e => rfl
            | ok c => rfl
  · rw [← h2] at hc
    unfold solveP at hc ⊢
    cases hopt : getOpt opts v.isSome with
    | error e => rw [hopt] at hc; simp at hc
    | ok opt =>
      rw [hopt] at hc
      have hq := (getOpt_requests _ hnd _ _ hopt).verbose x hx
      have hv' : opt.verbose = true := (Except.ok.inj (hv.symm.trans hq)).symm
      simp only [hv', say_true] at hc ⊢
      cases hi : stageInit E opt t u v lat with
      | error e => rw [hi] at hc; simp at hc
      | ok r =>
        rw [hi] at hc
        obtain ⟨ed, la⟩ := r
        dsimp only at hc ⊢
        cases hs : stageSelect opt ed with
        | error e => rw [hs] at hc; simp at hc
        | ok r =>
          rw [hs] at hc
          obtain ⟨constit, infer, sel⟩ := r
          dsimp only at hc ⊢
          cases hm : stageMatrix opt ed la constit infer sel with
          | error e => rw [hm] at hc; simp at hc
          | ok p =>
            rw [hm] at hc
            dsimp only at hc ⊢
            cases hsol : stageSolution E p with
            | error e => rw [hsol] at hc; simp at hc
            | ok c' => exact (by decide : String.join ((["solve: "] ++ ["matrix prep ... "] ++ ["solution ... "]) ++
                ["done.\n"]) = "solve: matrix prep ... solution ... done.\n")

/-- **C23**, `reconstruct`. -/
theorem C23_reconstruct (E : Env) (t : TimeArr) (c : Coef) (a : RecArgs) :
    (reconstructP E t c a).2 = reconstruct E t c a ∧
    (a.verbose = false → (reconstructP E t c a).1 = []) ∧
    (a.verbose = true → ∀ r, reconstruct E t c a = .ok r →
      String.join (reconstructP E t c a).1 = "prep/calcs ... done.\n") := by
  have h2 : (reconstructP E t c a).2 = reconstruct E t c a := by
    unfold reconstructP
    cases hn : normalizeTime E.dt64 t a.epoch with
    | error e => unfold reconstruct; rw [hn]; rfl
    | ok tn =>
      dsimp only
      cases hi : recIndex c a with
      | error e => unfold reconstruct; rw [hn, hi]; rfl
      | ok ind =>
        dsimp only
        cases reconstruct E t c a <;> rfl
  refine ⟨h2, fun hv => ?_, fun hv r hr => ?_⟩
  · unfold reconstructP
    simp only [hv, say_false, List.append_nil]
    cases normalizeTime E.dt64 t a.epoch with
    | error e => rfl
    | ok tn =>
      dsimp only
      cases recIndex c a with
      | error e => rfl
      | ok ind =>
        dsimp only
        cases reconstruct E t c a <;> rfl
  · obtain ⟨tn, ind, h3, h4, -, -⟩ := (reconstruct_ok _ _ _ _ _).1 hr
    unfold reconstructP
    simp only [h3, h4, hr, hv, say_true]
    decide

/-! ## Examples -/

/-- All constituents, times counted as in the solution. -/
def recAll : RecArgs := ⟨.str "python", false, none, 0, 0⟩

example : ∃ c r, solve idealEnv dayT dayU none (some 45) (listOpts ["M2", "S2"] (.str "frequency")) = .ok c ∧
    reconstruct idealEnv (.float [.fin 3, .nan]) c { recAll with constit := some (.names ["S2", "K1"]) } = .ok r ∧
    r.length = 2 ∧ r[1]? = some none ∧ r[0]? ≠ some none := by
  obtain ⟨c, hc⟩ := day_list ["M2", "S2"] M2S2_known
  have h1 := C36_selected idealEnv dayT dayU none (some 45) _ dayReady (someOpts_nodup _ _) c hc
    (list_kept dayReady _ c hc) idealEnv (.float [.fin 3, .nan]) { recAll with constit := some (.names ["S2", "K1"]) }
  exact ⟨c, _, hc, h1, rfl, rfl, by simp [Fl.toReal?]⟩

example : ∃ c c', solve idealEnv dayT dayU none (some 45) (listOpts ["M2", "S2"] (.str "frequency")) = .ok c ∧
    solve idealEnv dayT dayU none (some 45) (listOpts ["M2", "S2"] (.seq .list (["S2", "M2"].map .str))) = .ok c' ∧
    ∀ t a, reconstruct idealEnv t c' a = reconstruct idealEnv t c a := by
  obtain ⟨c, hc⟩ := day_list ["M2", "S2"] M2S2_known
  obtain ⟨c', hc', hn⟩ := day_order ["M2", "S2"] ["S2", "M2"] M2S2_known (by simp)
  have hk := list_kept dayReady _ c hc
  refine ⟨c, c', hc, hc', fun t a => C35_orders idealEnv dayT dayU none (some 45) _ _ dayReady (someOpts_nodup _ _)
    (someOpts_nodup _ _) (listOpts_requested _ _ _) c c' hc hc' hk (.inr ⟨by rw [hn]; decide, ?_⟩) idealEnv t a⟩
  obtain ⟨hs, σ, h1, h2, h3, -⟩ := C33_reorders idealEnv dayT dayU none (some 45) _ _ dayReady (someOpts_nodup _ _)
    (someOpts_nodup _ _) (listOpts_requested _ _ _) c c' hc hc' hk
  obtain ⟨opt, p, tn, constit, m, W, rf, full, o, ind, F⟩ := solve_facts dayReady hc
  have h4 := F.total (someOpts_nodup _ _)
  have hl := (day_list_names _ c hc).length_eq
  have h5 : c.name.length = p.sel.lind.length := by
    have h6 := F.kept (someOpts_nodup _ _) dayReady hk
    have : c.name = gather full.name ind := by rw [F.solved.result]; rfl
    rw [this, gather_length _ _ (by rw [F.len.name]; exact F.lt), h6.length_eq, List.length_range]
  rw [hs.numbers.1, hs.numbers.2.1, hs.numbers.2.2, hn]
  have e1 : c.nNR = p.sel.nNR := by rw [F.solved.result]; exact F.solved.head.nNR
  have e2 : c.nR = p.sel.nR := by rw [F.solved.result]; exact F.solved.head.nR
  have e3 : c.nI = p.sel.nI := by rw [F.solved.result]; exact F.solved.head.nI
  rw [e1, e2, e3, ← h4, ← h5, hl]
  rfl

example : ∃ c, solve idealEnv dayT dayU none (some 45) (listOpts ["M2", "S2"] (.str "frequency")) = .ok c ∧
    String.join (solveP idealEnv dayT dayU none (some 45) (listOpts ["M2", "S2"] (.str "frequency"))).1 =
      "solve: matrix prep ... solution ... done.\n" := by
  obtain ⟨c, hc⟩ := day_list ["M2", "S2"] M2S2_known
  exact ⟨c, hc, (C23_solve idealEnv dayT dayU none (some 45) _ (someOpts_nodup _ _) _ rfl).2.2 rfl c hc⟩

end

end UTide.Props
