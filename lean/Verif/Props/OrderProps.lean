import Verif.Props.ResultProps
import Verif.Lemmas.KernelRfl

/-!
# Percent energy, the order of the results, and the diagnostics table: C32-C34, C37
-/

namespace UTide.Props

noncomputable section

open Classical

/-! ## All constituents kept -/

/-- The result lists every fitted and inferred constituent once: always the case for a sorting order, and for an
explicit order when no name is left out or repeated. -/
def AllKept (c : Coef) : Prop :=
  (IsStr c.opt.ordercnstit "PE" ∨ IsStr c.opt.ordercnstit "frequency" ∨ IsStr c.opt.ordercnstit "SNR") ∨
    (c.name.Nodup ∧ c.name.length = c.nNR + c.nR + c.nI)

theorem readOrder_isStr (x : PyVal) (o : Order) (ho : readOrder x = .ok o)
    (h : IsStr x "PE" ∨ IsStr x "frequency" ∨ IsStr x "SNR") : ∀ l, o ≠ .names l := by
  rintro l rfl
  rcases h with (rfl | rfl) | (rfl | rfl) | (rfl | rfl) <;> exact absurd (Except.ok.inj ho) (by simp)

section
variable {E : Env} {t : TimeArg} {u : Series} {v : Option Series} {lat : Option ℝ} {opts : Dict PyVal}
  {c : Coef} {opt : Opt} {p : Prep} {tn : List Fl} {constit : Constit} {m : List ℂ} {W : List ℝ}
  {rf : Option RobOut} {full : Coef} {o : Order} {ind : List ℕ}

theorem Facts.total (F : Facts E t u v lat opts c opt p tn constit m W rf full o ind) (hnd : opts.keys.Nodup) :
    p.sel.lind.length = p.sel.nNR + p.sel.nR + p.sel.nI := by
  have hq := getOpt_requests _ hnd _ _ F.hopt
  have hal := F.prep.aligned
  have hsel := F.prep.hsel
  cases hi : p.infer with
  | none =>
    rw [hi] at hsel
    obtain ⟨-, h1, h2, h3⟩ := cnstitsel_none _ _ _ _ hsel
    rw [hal.nNR, hal.nR, h3, h1, h2]
    simp
  | some sp =>
    rw [hi] at hsel
    obtain ⟨x, hx⟩ := Option.isSome_iff_exists.1 (hq.some "infer" (by simp))
    have h1 := hq.infer x hx
    have h2 := F.prep.hinfer
    rw [hi] at h2
    obtain ⟨h3, -⟩ := infer_lengths _ _ _ _ h1 h2
    exact (C12_layout _ _ _ sp h3 _ hsel).2.2.1

theorem Facts.kept (F : Facts E t u v lat opts c opt p tn constit m W rf full o ind) (hnd : opts.keys.Nodup)
    (R : Ready E t u v) (hk : AllKept c) : ind.Perm (List.range p.sel.lind.length) := by
  have hopt : c.opt = p.opt := by rw [F.solved.result]; exact F.solved.head.opt
  by_cases ho : ∀ l, o ≠ .names l
  · exact F.solved.perm F.prep F.mlen R.argsort ho
  · rcases hk with hk | ⟨h1, h2⟩
    · rw [hopt] at hk
      exact absurd (readOrder_isStr _ _ F.solved.order hk) ho
    · have e1 : c.nNR = p.sel.nNR := by rw [F.solved.result]; exact F.solved.head.nNR
      have e2 : c.nR = p.sel.nR := by rw [F.solved.result]; exact F.solved.head.nR
      have e3 : c.nI = p.sel.nI := by rw [F.solved.result]; exact F.solved.head.nI
      have e4 : c.name = gather full.name ind := by rw [F.solved.result]; rfl
      have hlen : ind.length = p.sel.lind.length := by
        rw [F.total hnd, ← e1, ← e2, ← e3, ← h2, e4, gather_length]
        rw [F.len.name]; exact F.lt
      have hnd' : ind.Nodup := by
        rw [List.nodup_iff_injective_get]
        intro a b hab
        rw [List.nodup_iff_injective_get] at h1
        have hl : c.name.length = ind.length := by
          rw [e4, gather_length]
          rw [F.len.name]; exact F.lt
        have hg : ∀ j : ℕ, c.name[j]? = ind[j]?.bind (full.name[·]?) := by
          rw [e4]; exact gather_getElem? _ _ (by rw [F.len.name]; exact F.lt)
        have ha := hg a
        have hb := hg b
        simp only [List.get_eq_getElem] at hab
        rw [List.getElem?_eq_getElem a.2, hab, ← List.getElem?_eq_getElem b.2, ← hb] at ha
        have ha1 : a.1 < c.name.length := by rw [hl]; exact a.2
        have hb1 : b.1 < c.name.length := by rw [hl]; exact b.2
        have : (⟨a.1, ha1⟩ : Fin c.name.length) = ⟨b.1, hb1⟩ := by
          apply h1
          simp only [List.get_eq_getElem]
          rw [List.getElem?_eq_getElem ha1, List.getElem?_eq_getElem hb1] at ha
          exact Option.some.inj ha
        exact Fin.ext (by simpa using this)
      have hsub : ind ⊆ List.range p.sel.lind.length := fun i hi => List.mem_range.2 (F.lt i hi)
      exact (List.subperm_of_subset hnd' hsub).perm_of_length_le (by simp [hlen])

end

/-! ## C32 -/

/-- Energy of the constituent at position `i`. -/
def energyAt : EllArr → ℕ → Option ℝ
  | .one A _, i => A[i]?.map fun a => a ^ 2
  | .two a b _ _, i => match a[i]?, b[i]? with
    | some x, some y => some (x ^ 2 + y ^ 2)
    | _, _ => none

/-- All energies. -/
def totalEnergy : EllArr → ℝ
  | .one A _ => (A.map fun a => a ^ 2).sum
  | .two a b _ _ => (a.map fun x => x ^ 2).sum + (b.map fun x => x ^ 2).sum

/-- Some amplitude is non-zero. -/
def Nonzero : EllArr → Prop
  | .one A _ => ∃ a ∈ A, a ≠ 0
  | .two a b _ _ => (∃ x ∈ a, x ≠ 0) ∨ ∃ x ∈ b, x ≠ 0

theorem sum_sq_pos (l : List ℝ) (h : ∃ a ∈ l, a ≠ 0) : 0 < (l.map fun a => a ^ 2).sum := by
  induction l with
  | nil => simp at h
  | cons b l ih =>
    have hn : 0 ≤ (l.map fun a => a ^ 2).sum := List.sum_nonneg (by
      intro x hx
      obtain ⟨a, -, rfl⟩ := List.mem_map.1 hx
      positivity)
    rw [List.map_cons, List.sum_cons]
    obtain ⟨a, ha, h0⟩ := h
    rw [List.mem_cons] at ha
    rcases ha with rfl | ha
    · have : 0 < a ^ 2 := by positivity
      linarith
    · have := ih ⟨a, ha, h0⟩
      nlinarith [sq_nonneg b]

theorem sum_sq_nonneg (l : List ℝ) : 0 ≤ (l.map fun a => a ^ 2).sum := List.sum_nonneg (by
  intro x hx
  obtain ⟨a, -, rfl⟩ := List.mem_map.1 hx
  positivity)

theorem energies_sum {n : ℕ} {e : EllArr} (h : e.Len n) : (energies e).sum = totalEnergy e := by
  cases e with
  | one A g => rfl
  | two a b c d =>
    obtain ⟨h1, h2, -, -⟩ := h
    have hl : a.length = b.length := by omega
    clear h1 h2
    simp only [energies, totalEnergy]
    induction a generalizing b with
    | nil =>
      cases b with
      | nil => simp
      | cons _ _ => simp at hl
    | cons x a ih =>
      cases b with
      | nil => simp at hl
      | cons y b =>
        simp only [List.zipWith_cons_cons, List.sum_cons, List.map_cons]
        rw [ih b (by simpa using hl)]
        ring

theorem energies_at (e : EllArr) (i : ℕ) : (energies e)[i]? = energyAt e i := by
  cases e with
  | one A g => simp [energies, energyAt]
  | two a b c d =>
    simp only [energies, energyAt, List.getElem?_zipWith]
    cases a[i]? <;> cases b[i]? <;> rfl

theorem totalEnergy_pos (e : EllArr) (h : Nonzero e) : 0 < totalEnergy e := by
  cases e with
  | one A g => exact sum_sq_pos A h
  | two a b c d =>
    rcases h with h | h
    · have := sum_sq_pos a h; have := sum_sq_nonneg b; simp only [totalEnergy]; linarith
    · have := sum_sq_pos b h; have := sum_sq_nonneg a; simp only [totalEnergy]; linarith

theorem energies_nonneg (e : EllArr) : ∀ x ∈ energies e, 0 ≤ x := by
  cases e with
  | one A g =>
    intro x hx
    obtain ⟨a, -, rfl⟩ := List.mem_map.1 hx
    positivity
  | two a b c d =>
    intro x hx
    obtain ⟨y, z, rfl⟩ := mem_zipWith _ _ _ _ hx
    positivity

theorem pe_finite {n : ℕ} {e : EllArr} (hl : e.Len n) (h : Nonzero e) :
    pe e = ((energies e).map fun x => 100 * x / totalEnergy e).map Fl.fin := by
  have hpos := totalEnergy_pos e h
  have hs := energies_sum hl
  rw [List.map_map]
  cases e with
  | one A g =>
    simp only [pe]
    apply List.map_congr_left
    intro x _
    rw [hs, fl_div_pos _ _ hpos.ne']
    rfl
  | two a b c d =>
    simp only [pe]
    apply List.map_congr_left
    intro x _
    rw [hs, fl_div_pos _ _ hpos.ne']
    show Fl.fin _ = Fl.fin _
    congr 1
    ring

/-- **C32**, the function: percent energies are the shares of the energies, lie in [0, 100] and add up to 100. -/
theorem C32_shares (n : ℕ) (e : EllArr) (hl : e.Len n) (h : Nonzero e) :
    ∃ P : List ℝ, pe e = P.map Fl.fin ∧ P.length = n ∧ (∀ x ∈ P, 0 ≤ x ∧ x ≤ 100) ∧ P.sum = 100 ∧
      ∀ i x, energyAt e i = some x → P[i]? = some (100 * x / totalEnergy e) := by
  have hpos := totalEnergy_pos e h
  have hs := energies_sum hl
  have hnn := energies_nonneg e
  refine ⟨_, pe_finite hl h, by rw [List.length_map, energies_length hl], ?_, ?_, ?_⟩
  · intro x hx
    obtain ⟨y, hy, rfl⟩ := List.mem_map.1 hx
    have h1 := hnn y hy
    have h2 : y ≤ totalEnergy e := by rw [← hs]; exact List.single_le_sum hnn y hy
    exact ⟨by positivity, by rw [div_le_iff₀ hpos]; linarith⟩
  · have : (fun x => 100 * x / totalEnergy e) = fun x => x * (100 / totalEnergy e) := by ext x; ring
    rw [this, List.sum_map_mul_right, List.map_id', hs]
    field_simp
  · intro i x hx
    rw [List.getElem?_map, energies_at, hx]
    rfl

/-- The same currents or heights in another unit. -/
def Scaled (k : ℝ) : EllArr → EllArr → Prop
  | .one A _, .one A' _ => A' = A.map (k * ·)
  | .two a b _ _, .two a' b' _ _ => a' = a.map (k * ·) ∧ b' = b.map (k * ·)
  | _, _ => False

/-- **C32**, units: percent energy does not depend on the unit. -/
theorem C32_units (n : ℕ) (e e' : EllArr) (hl : e.Len n) (hl' : e'.Len n) (h : Nonzero e) (k : ℝ) (hk : k ≠ 0)
    (hs : Scaled k e e') : pe e' = pe e := by
  have hsq : ∀ l : List ℝ, ((l.map (k * ·)).map fun a => a ^ 2).sum = k ^ 2 * (l.map fun a => a ^ 2).sum := by
    intro l
    rw [List.map_map, ← List.sum_map_mul_left]
    congr 1
    apply List.map_congr_left
    intro a _
    simp only [Function.comp]
    ring
  have hz : ∀ l : List ℝ, (∃ x ∈ l, x ≠ 0) → ∃ x ∈ l.map (k * ·), x ≠ 0 := by
    rintro l ⟨x, hx, h0⟩
    exact ⟨k * x, List.mem_map.2 ⟨x, hx, rfl⟩, mul_ne_zero hk h0⟩
  have key : Nonzero e' ∧ totalEnergy e' = k ^ 2 * totalEnergy e ∧ energies e' = (energies e).map (k ^ 2 * ·) := by
    cases e with
    | one A g =>
      cases e' with
      | one A' g' =>
        have hs' : A' = A.map (k * ·) := hs
        subst hs'
        refine ⟨hz A h, hsq A, ?_⟩
        simp only [energies, List.map_map]
        apply List.map_congr_left
        intro a _
        simp only [Function.comp]
        ring
      | two a b c d => exact hs.elim
    | two a b c d =>
      cases e' with
      | one A' g' => exact hs.elim
      | two a' b' c' d' =>
        obtain ⟨rfl, rfl⟩ := hs
        refine ⟨h.imp (hz a) (hz b), ?_, ?_⟩
        · simp only [totalEnergy, hsq]; ring
        · simp only [energies]
          rw [List.map_zipWith, List.zipWith_map]
          congr 1
          ext x y
          ring
  obtain ⟨k1, k2, k3⟩ := key
  rw [pe_finite hl h, pe_finite hl' k1, k2, k3]
  refine congrArg (List.map Fl.fin) ?_
  rw [List.map_map]
  apply List.map_congr_left
  intro x _
  simp only [Function.comp]
  have := (totalEnergy_pos e h).ne'
  field_simp

example : pe (.one [3, 4] [0, 0]) = [Fl.fin 36, Fl.fin 64] := by
  have hl : EllArr.Len 2 (.one [3, 4] [0, 0]) := ⟨rfl, rfl⟩
  have hz : Nonzero (.one [3, 4] [0, 0]) := ⟨3, by simp, by norm_num⟩
  rw [pe_finite hl hz]
  simp [energies, totalEnergy]
  norm_num

theorem energies_permute {n : ℕ} {e : EllArr} (h : e.Len n) (ind : List ℕ) :
    energies (e.permute ind) = gather (energies e) ind := by
  cases e with
  | one A g => simp only [energies, EllArr.permute, gather_map]
  | two a b c d =>
    obtain ⟨h1, h2, -, -⟩ := h
    simp only [energies, EllArr.permute]
    rw [gather_zipWith _ _ _ (by omega)]

theorem nonzero_permute (e : EllArr) (ind : List ℕ) (h : Nonzero (e.permute ind)) : Nonzero e := by
  cases e with
  | one A g => obtain ⟨a, ha, h0⟩ := h; exact ⟨a, gather_mem _ _ _ ha, h0⟩
  | two a b c d =>
    rcases h with ⟨x, hx, h0⟩ | ⟨x, hx, h0⟩
    · exact .inl ⟨x, gather_mem _ _ _ hx, h0⟩
    · exact .inr ⟨x, gather_mem _ _ _ hx, h0⟩

theorem pe_permute {n : ℕ} {e : EllArr} (hl : e.Len n) (ind : List ℕ) (hi : ind.Perm (List.range n))
    (h : Nonzero (e.permute ind)) : pe (e.permute ind) = gather (pe e) ind := by
  have hlp := permute_len hl ind (perm_range_lt hi)
  have he := energies_length hl
  have ht : totalEnergy (e.permute ind) = totalEnergy e := by
    rw [← energies_sum hl, ← energies_sum hlp, energies_permute hl]
    exact (gather_perm _ (by rwa [he])).sum_eq
  rw [pe_finite hlp h, pe_finite hl (nonzero_permute e ind h), ht, energies_permute hl, gather_map, gather_map]

/-- **C32** for results of `solve`: unless everything is zero, the percent energies of a result lie in [0, 100], add up
to 100 and are the shares of the energies of its constituents. -/
theorem C32_solve (E : Env) (t : TimeArg) (u : Series) (v : Option Series) (lat : Option ℝ) (opts : Dict PyVal)
    (R : Ready E t u v) (hnd : opts.keys.Nodup) (c : Coef) (h : solve E t u v lat opts = .ok c) (hk : AllKept c)
    (hz : Nonzero c.ell) (l : List Fl) (hPE : c.PE = some l) :
    ∃ P : List ℝ, l = P.map Fl.fin ∧ P.length = c.name.length ∧ (∀ x ∈ P, 0 ≤ x ∧ x ≤ 100) ∧ P.sum = 100 ∧
      ∀ i x, energyAt c.ell i = some x → P[i]? = some (100 * x / totalEnergy c.ell) := by
  obtain ⟨opt, p, tn, constit, m, W, rf, full, o, ind, F⟩ := solve_facts R h
  have hperm := F.kept hnd R hk
  have hell : c.ell = full.ell.permute ind := by rw [F.solved.result]; rfl
  have hl : l = pe c.ell := by
    have h1 : c.PE = full.PE.map (gather · ind) := by rw [F.solved.result]; rfl
    rw [F.solved.PE] at h1
    rw [hPE] at h1
    split at h1
    · simp at h1
    · rw [hell] at hz ⊢
      rw [pe_permute F.len.ell ind hperm hz]
      exact Option.some.inj h1
  have hlen : c.ell.Len c.name.length := by
    have := F.len.permute ind F.lt
    rw [F.solved.result, this.name]
    exact this.ell
  obtain ⟨P, h1, h2, h3, h4, h5⟩ := C32_shares _ c.ell hlen hz
  exact ⟨P, by rw [hl, h1], h2, h3, h4, h5⟩

/-! ## C33 -/

/-- The parameters, or their intervals, at one position. -/
def ellAt : EllArr → ℕ → List (Option ℝ)
  | .one A g, i => [A[i]?, g[i]?]
  | .two a b c d, i => [a[i]?, b[i]?, c[i]?, d[i]?]
def ciAt : CiArr → ℕ → List (Option Fl)
  | .one A g, i => [A[i]?, g[i]?]
  | .two a b c d, i => [a[i]?, b[i]?, c[i]?, d[i]?]

/-- Everything `c'` says at position `j` is what `c` says at position `i`. -/
structure SameAt (c' : Coef) (j : ℕ) (c : Coef) (i : ℕ) : Prop where
  name : c'.name[j]? = c.name[i]?
  frq : c'.frq[j]? = c.frq[i]?
  lind : c'.lind[j]? = c.lind[i]?
  ell : ellAt c'.ell j = ellAt c.ell i
  ci : c'.ci.map (ciAt · j) = c.ci.map (ciAt · i)
  SNR : c'.SNR.map (fun s => s[j]?) = c.SNR.map fun s => s[i]?
  PE : ∀ P P', c.PE = some P → c'.PE = some P' → P'[j]? = P[i]?

theorem ellAt_permute {n : ℕ} {e : EllArr} (h : e.Len n) (ind : List ℕ) (hi : ∀ i ∈ ind, i < n) (j k : ℕ)
    (hj : ind[j]? = some k) : ellAt (e.permute ind) j = ellAt e k := by
  have key : ∀ l : List ℝ, l.length = n → (gather l ind)[j]? = l[k]? := by
    intro l hl
    rw [gather_getElem? _ _ (by rwa [hl]), hj]; rfl
  cases e with
  | one A g => obtain ⟨h1, h2⟩ := h; simp only [ellAt, EllArr.permute, key _ h1, key _ h2]
  | two a b c d =>
    obtain ⟨h1, h2, h3, h4⟩ := h
    simp only [ellAt, EllArr.permute, key _ h1, key _ h2, key _ h3, key _ h4]

theorem ciAt_permute {n : ℕ} {e : CiArr} (h : e.Len n) (ind : List ℕ) (hi : ∀ i ∈ ind, i < n) (j k : ℕ)
    (hj : ind[j]? = some k) : ciAt (e.permute ind) j = ciAt e k := by
  have key : ∀ l : List Fl, l.length = n → (gather l ind)[j]? = l[k]? := by
    intro l hl
    rw [gather_getElem? _ _ (by rwa [hl]), hj]; rfl
  cases e with
  | one A g => obtain ⟨h1, h2⟩ := h; simp only [ciAt, CiArr.permute, key _ h1, key _ h2]
  | two a b c d =>
    obtain ⟨h1, h2, h3, h4⟩ := h
    simp only [ciAt, CiArr.permute, key _ h1, key _ h2, key _ h3, key _ h4]

/-- Two unordered results that agree, except that one may lack `PE`. -/
structure SameFull (full full' : Coef) : Prop where
  name : full'.name = full.name
  frq : full'.frq = full.frq
  lind : full'.lind = full.lind
  ell : full'.ell = full.ell
  ci : full'.ci = full.ci
  SNR : full'.SNR = full.SNR
  PE : ∀ P P', full.PE = some P → full'.PE = some P' → P' = P

theorem sameAt_permute {n : ℕ} {full full' : Coef} {ind ind' : List ℕ} (hl : full.Len n)
    (hci : ∀ x, full.ci = some x → x.Len n) (hs : ∀ s, full.SNR = some s → s.length = n)
    (hP : ∀ s, full.PE = some s → s.length = n) (hi : ∀ i ∈ ind, i < n) (hi' : ∀ i ∈ ind', i < n)
    (hf : SameFull full full') (i j k : ℕ) (h : ind[i]? = some k) (h' : ind'[j]? = some k) :
    SameAt (full'.permute ind') j (full.permute ind) i := by
  have key : ∀ {α : Type} (l : List α), l.length = n → (gather l ind')[j]? = (gather l ind)[i]? := by
    intro α l hl
    rw [gather_getElem? _ _ (by rwa [hl]), gather_getElem? _ _ (by rwa [hl]), h, h']
  refine ⟨?_, ?_, ?_, ?_, ?_, ?_, ?_⟩
  · show (gather full'.name ind')[j]? = (gather full.name ind)[i]?
    rw [hf.name]; exact key _ hl.name
  · show (gather full'.frq ind')[j]? = (gather full.frq ind)[i]?
    rw [hf.frq]; exact key _ hl.frq
  · show (gather full'.lind ind')[j]? = (gather full.lind ind)[i]?
    rw [hf.lind]; exact key _ hl.lind
  · show ellAt (full'.ell.permute ind') j = ellAt (full.ell.permute ind) i
    rw [hf.ell, ellAt_permute hl.ell ind' hi' j k h', ellAt_permute hl.ell ind hi i k h]
  · show (full'.ci.map (CiArr.permute ind')).map (ciAt · j) = (full.ci.map (CiArr.permute ind)).map (ciAt · i)
    rw [hf.ci, Option.map_map, Option.map_map]
    cases hc : full.ci with
    | none => rfl
    | some x =>
      simp only [Option.map_some, Function.comp, ciAt_permute (hci x hc) ind' hi' j k h',
        ciAt_permute (hci x hc) ind hi i k h]
  · show (full'.SNR.map (gather · ind')).map (fun s => s[j]?) = (full.SNR.map (gather · ind)).map fun s => s[i]?
    rw [hf.SNR, Option.map_map, Option.map_map]
    cases hc : full.SNR with
    | none => rfl
    | some x => simp only [Option.map_some, Function.comp, key _ (hs x hc)]
  · intro P P' h1 h2
    have h3 : full.PE.map (gather · ind) = some P := h1
    have h4 : full'.PE.map (gather · ind') = some P' := h2
    rw [Option.map_eq_some_iff] at h3 h4
    obtain ⟨Q, hQ, rfl⟩ := h3
    obtain ⟨Q', hQ', rfl⟩ := h4
    rw [hf.PE Q Q' hQ hQ']
    exact key _ (hP Q hQ)

theorem peLen {E : Env} {t : TimeArg} {u : Series} {v : Option Series} {lat : Option ℝ} {opts : Dict PyVal}
    {c : Coef} {opt : Opt} {p : Prep} {tn : List Fl} {constit : Constit} {m : List ℂ} {W : List ℝ}
    {rf : Option RobOut} {full : Coef} {o : Order} {ind : List ℕ}
    (F : Facts E t u v lat opts c opt p tn constit m W rf full o ind) :
    ∀ s, full.PE = some s → s.length = p.sel.lind.length := by
  intro s hs
  rw [F.solved.PE] at hs
  split at hs
  · simp at hs
  · rw [← Option.some.inj hs]
    exact pe_length F.len.ell

/-- Calls that differ in `order_constit` only have the same unordered result. -/
theorem sameFull {E : Env} {t : TimeArg} {u : Series} {v : Option Series} {lat : Option ℝ} {opts opts' : Dict PyVal}
    {c c' : Coef} {opt opt' : Opt} {p p' : Prep} {tn tn' : List Fl} {constit constit' : Constit} {m m' : List ℂ}
    {W W' : List ℝ} {rf rf' : Option RobOut} {full full' : Coef} {o o' : Order} {ind ind' : List ℕ}
    (F : Facts E t u v lat opts c opt p tn constit m W rf full o ind)
    (F' : Facts E t u v lat opts' c' opt' p' tn' constit' m' W' rf' full' o' ind')
    (hnd : opts.keys.Nodup) (hnd' : opts'.keys.Nodup)
    (heq : ∀ k, k ≠ "order_constit" → requested opts k = requested opts' k) :
    SameFull full full' ∧ p'.sel = p.sel ∧ SameHead (rawCoef p m W rf) { full' with opt := p.opt } := by
  have ho := getOpt_order opts opts' hnd hnd' _ heq opt opt' F.hopt F'.hopt
  have hp' := F'.prep
  rw [ho] at hp'
  have hpp := F.prep.order hp'
  have hopt := F.prep.hopt
  have hfit : stageFit E p' = stageFit E p := by rw [hpp]; unfold stageFit; rw [hopt]
  have h1 := F'.solved.fit
  rw [hfit, F.solved.fit] at h1
  have h2 := Except.ok.inj h1
  simp only [Prod.mk.injEq] at h2
  obtain ⟨rfl, rfl, rfl⟩ := h2
  have hsel : p'.sel = p.sel := by rw [hpp]
  have htd : p'.opt.twodim = p.opt.twodim := by rw [hpp, hopt]
  have hci : p'.opt.confInt = p.opt.confInt := by rw [hpp, hopt]
  have hnodi : p'.opt.nodiagn = p.opt.nodiagn := by rw [hpp, hopt]
  have hconf : confIn p' m W = confIn p m W := by rw [hpp]; unfold confIn; rw [hopt]
  have eell : full'.ell = full.ell := by rw [F'.solved.ell, F.solved.ell, hsel, htd]
  have eci : full'.ci = full.ci := by
    have a := F.solved.ci
    have b := F'.solved.ci
    rw [hci, hconf] at b
    rcases a with ⟨a1, a2⟩ | ⟨a1, ci, a2, a3⟩
    · rcases b with ⟨b1, b2⟩ | ⟨b1, ci', b2, b3⟩
      · rw [a2, b2]
      · rw [a1] at b1; simp at b1
    · rcases b with ⟨b1, b2⟩ | ⟨b1, ci', b2, b3⟩
      · rw [a1] at b1; simp at b1
      · rw [a2] at b2
        rw [a3, b3, Except.ok.inj b2]
  refine ⟨⟨?_, ?_, ?_, eell, eci, ?_, ?_⟩, hsel, ?_⟩
  · rw [F'.solved.name, F.solved.name, hsel]
  · rw [F'.solved.frq, F.solved.frq, hsel]
  · rw [F'.solved.lind, F.solved.lind, hsel]
  · have a := F.solved.SNR
    have b := F'.solved.SNR
    rw [hnodi, eell, eci] at b
    rcases a with ⟨a1, a2, -⟩ | ⟨a1, s, a2, a3, -⟩
    · rcases b with ⟨b1, b2, -⟩ | ⟨b1, s', b2, b3, -⟩
      · rw [a2, b2]
      · rw [a1] at b1; simp at b1
    · rcases b with ⟨b1, b2, -⟩ | ⟨b1, s', b2, b3, -⟩
      · rw [a1] at b1; simp at b1
      · rw [a2] at b2
        rw [a3, b3, Except.ok.inj b2]
  · intro P P' hP hP'
    rw [F.solved.PE] at hP
    rw [F'.solved.PE, eell] at hP'
    split at hP
    · simp at hP
    · split at hP'
      · simp at hP'
      · rw [← Option.some.inj hP, ← Option.some.inj hP']
  · have a := F'.solved.head
    have b : SameHead (rawCoef p m W rf) { rawCoef p' m W rf with opt := p.opt } := by
      rw [hpp]
      refine ⟨?_, rfl, rfl, rfl, rfl, rfl, rfl, rfl, rfl⟩
      simp only [rawCoef, hopt]
    refine b.trans ⟨a.mean, a.reftime, a.lat, rfl, a.nR, a.nNR, a.nI, a.weights, a.rf⟩

/-- The quantities that are not per constituent. -/
structure SameRest (c c' : Coef) : Prop where
  mean : c'.mean = c.mean
  reftime : c'.reftime = c.reftime
  lat : c'.lat = c.lat
  weights : c'.weights = c.weights
  numbers : c'.nR = c.nR ∧ c'.nNR = c.nNR ∧ c'.nI = c.nI

/-- **C33.** `order_constit` re-orders: of two calls that differ in nothing else, every position of the second result
holds, in all arrays, what the first result holds at one position (the same for all arrays), and when the second
result keeps all constituents the positions are a permutation. `c` is a result that keeps all constituents. -/
theorem C33_reorders (E : Env) (t : TimeArg) (u : Series) (v : Option Series) (lat : Option ℝ)
    (opts opts' : Dict PyVal) (R : Ready E t u v) (hnd : opts.keys.Nodup) (hnd' : opts'.keys.Nodup)
    (heq : ∀ k, k ≠ "order_constit" → requested opts k = requested opts' k) (c c' : Coef)
    (h : solve E t u v lat opts = .ok c) (h' : solve E t u v lat opts' = .ok c') (hk : AllKept c) :
    SameRest c c' ∧ ∃ σ : List ℕ, σ.length = c'.name.length ∧ (∀ i ∈ σ, i < c.name.length) ∧
      (∀ (j i : ℕ), σ[j]? = some i → SameAt c' j c i) ∧
      (AllKept c' → σ.Perm (List.range c.name.length)) := by
  obtain ⟨opt, p, tn, constit, m, W, rf, full, o, ind, F⟩ := solve_facts R h
  obtain ⟨opt', p', tn', constit', m', W', rf', full', o', ind', F'⟩ := solve_facts R h'
  obtain ⟨hf, hsel, hh⟩ := sameFull F F' hnd hnd' heq
  have hperm := F.kept hnd R hk
  set n := p.sel.lind.length with hn
  have hlt' : ∀ i ∈ ind', i < n := by rw [hn, ← hsel]; exact F'.lt
  have hcn : c.name.length = n := by
    have : c.name = gather full.name ind := by rw [F.solved.result]; rfl
    rw [this, gather_length _ _ (by rw [F.len.name]; exact F.lt), hperm.length_eq, List.length_range]
  have hcn' : c'.name.length = ind'.length := by
    have : c'.name = gather full'.name ind' := by rw [F'.solved.result]; rfl
    rw [this, gather_length _ _ (by rw [F'.len.name]; exact F'.lt)]
  have hmem : ∀ k < n, k ∈ ind := fun k hk => hperm.mem_iff.2 (List.mem_range.2 hk)
  have hidx : ∀ k ∈ ind', ind[ind.idxOf k]? = some k := by
    intro k hk
    have := List.idxOf_lt_length_of_mem (hmem k (hlt' k hk))
    rw [List.getElem?_eq_getElem this, List.getElem_idxOf]
  constructor
  · have a := F.solved.head
    rw [F.solved.result, F'.solved.result]
    exact ⟨hh.mean.trans a.mean.symm, hh.reftime.trans a.reftime.symm, hh.lat.trans a.lat.symm,
      hh.weights.trans a.weights.symm, hh.nR.trans a.nR.symm, hh.nNR.trans a.nNR.symm, hh.nI.trans a.nI.symm⟩
  · refine ⟨ind'.map (ind.idxOf ·), by rw [List.length_map, hcn'], ?_, ?_, ?_⟩
    · intro i hi
      obtain ⟨k, hk, rfl⟩ := List.mem_map.1 hi
      rw [hcn]
      have := List.idxOf_lt_length_of_mem (hmem k (hlt' k hk))
      rwa [hperm.length_eq, List.length_range] at this
    · intro j i hji
      rw [List.getElem?_map, Option.map_eq_some_iff] at hji
      obtain ⟨k, hk, rfl⟩ := hji
      rw [F.solved.result, F'.solved.result]
      exact sameAt_permute F.len (F.solved.ciLen F.prep F.mlen) (F.solved.snrLen F.prep F.mlen) (peLen F) F.lt hlt' hf
        _ j k (hidx k (List.mem_of_getElem? hk)) hk
    · intro hk'
      have hperm' := F'.kept hnd' R hk'
      rw [hsel, ← hn] at hperm'
      rw [hcn]
      refine (hperm'.map _).trans ?_
      have h1 : (ind.map (ind.idxOf ·)).Perm ((List.range n).map (ind.idxOf ·)) := hperm.map _
      refine h1.symm.trans ?_
      have h2 : ind.map (ind.idxOf ·) = List.range n := by
        apply List.ext_getElem
        · rw [List.length_map, hperm.length_eq]
        · intro i h1 h2
          have hnd2 : ind.Nodup := hperm.nodup_iff.2 List.nodup_range
          rw [List.getElem_map, List.getElem_range, hnd2.idxOf_getElem]
      rw [h2]

theorem argsort_sorted {argsort : List Fl → List ℕ} (ha : ArgsortOk argsort) (l : List Fl) :
    (gather l (argsort l)).Pairwise Fl.sortLE ∧ (gather l (argsort l).reverse).Pairwise fun a b => Fl.sortLE b a := by
  have h := (ha l).2
  refine ⟨h, ?_⟩
  unfold gather
  rw [List.filterMap_reverse, List.pairwise_reverse]
  exact h

/-- **C33**, sorting: `PE` (the default) and `SNR` give decreasing values, `frequency` increasing frequencies; in
numpy's order NaN counts as largest. -/
theorem C33_sorted (E : Env) (t : TimeArg) (u : Series) (v : Option Series) (lat : Option ℝ)
    (opts : Dict PyVal) (R : Ready E t u v) (hnd : opts.keys.Nodup) (oc : PyVal)
    (hoc : requested opts "order_constit" = some oc) (c : Coef) (h : solve E t u v lat opts = .ok c) :
    (oc = .none ∨ oc = .str "PE" → ∃ P, c.PE = some P ∧ P.Pairwise fun a b => Fl.sortLE b a) ∧
    (oc = .str "frequency" → c.frq.Pairwise (· ≤ ·)) ∧
    (oc = .str "SNR" → ∃ S, c.SNR = some S ∧ S.Pairwise fun a b => Fl.sortLE b a) := by
  obtain ⟨opt, p, tn, constit, m, W, rf, full, o, ind, F⟩ := solve_facts R h
  have hq := getOpt_requests _ hnd _ _ F.hopt
  have hord := F.solved.order
  rw [F.prep.hopt] at hord
  have hv := hq.order oc hoc
  refine ⟨fun hPE => ?_, ?_, ?_⟩
  · have hx : opt.ordercnstit = .str "PE" := by
      rcases hPE with rfl | rfl
      · exact (Except.ok.inj hv).symm
      · unfold validateOrderConstit at hv
        dsimp only at hv
        rw [if_pos (by simp)] at hv
        exact (Except.ok.inj hv).symm
    rw [hx] at hord
    have ho : o = .PE := (Except.ok.inj hord).symm
    have h1 : full.PE = some (pe full.ell) := by rw [F.solved.PE, if_neg (by simp [ho])]
    refine ⟨gather (pe full.ell) ind, ?_, ?_⟩
    · rw [F.solved.result]
      show full.PE.map (gather · ind) = _
      rw [h1]; rfl
    · rw [F.solved.indPE ho]
      exact (argsort_sorted R.argsort _).2
  · rintro rfl
    unfold validateOrderConstit at hv
    dsimp only at hv
    rw [if_pos (by simp)] at hv
    rw [← Except.ok.inj hv] at hord
    have ho : o = .frequency := (Except.ok.inj hord).symm
    have h1 : c.frq = gather full.frq ind := by rw [F.solved.result]; rfl
    have h2 := (argsort_sorted R.argsort (full.frq.map Fl.fin)).1
    rw [← F.solved.indFreq ho, gather_map, List.pairwise_map] at h2
    rw [h1]
    exact h2
  · rintro rfl
    have ho : o = .SNR := by
      unfold validateOrderConstit at hv
      dsimp only at hv
      split at hv
      · rw [← Except.ok.inj hv] at hord
        exact (Except.ok.inj hord).symm
      · simp at hv
    obtain ⟨S, h1, h2⟩ := F.solved.indSNR ho
    refine ⟨gather S ind, ?_, ?_⟩
    · rw [F.solved.result]
      show full.SNR.map (gather · ind) = _
      rw [h1]; rfl
    · rw [h2]
      exact (argsort_sorted R.argsort _).2

/-- **C33**, explicit order: the result follows the sequence, and a name that is not in the solution raises
ValueError. `c` is the result of the same call with another order, keeping all constituents. -/
theorem C33_explicit (E : Env) (t : TimeArg) (u : Series) (v : Option Series) (lat : Option ℝ)
    (opts opts' : Dict PyVal) (R : Ready E t u v) (hnd : opts.keys.Nodup) (hnd' : opts'.keys.Nodup)
    (heq : ∀ k, k ≠ "order_constit" → requested opts k = requested opts' k) (k : SeqKind) (hk : k ≠ .ndarray)
    (ns : List String) (hoc : requested opts' "order_constit" = some (.seq k (ns.map .str)))
    (hopt' : ∃ q, getOpt opts' v.isSome = .ok q) (c : Coef)
    (h : solve E t u v lat opts = .ok c) (hkept : AllKept c) :
    ((∀ n ∈ ns, n ∈ c.name) → ∃ c', solve E t u v lat opts' = .ok c' ∧ c'.name = ns) ∧
    ((∃ n ∈ ns, n ∉ c.name) → solve E t u v lat opts' = .error .valueError) := by
  obtain ⟨opt, p, tn, constit, m, W, rf, full, o, ind, F⟩ := solve_facts R h
  obtain ⟨opt₂, p₂, tn₂, constit₂, m₂, W₂, rf₂, c1, c2, o₂, hopt₂, hp₂, hs⟩ := (solve_ok _ _ _ _ _ _ _).1 h
  obtain ⟨opt', hopt'⟩ := hopt'
  have hoo : opt₂ = opt := Except.ok.inj (hopt₂.symm.trans F.hopt)
  subst hoo
  have hpp : p₂ = p := by
    have e1 := (stagePrep_ok E opt₂ t u v lat _).2 ⟨_, _, hp₂⟩
    have e2 := (stagePrep_ok E opt₂ t u v lat _).2 ⟨_, _, F.prep⟩
    exact Except.ok.inj (e1.symm.trans e2)
  subst hpp
  have ho := getOpt_order opts opts' hnd hnd' _ heq opt₂ opt' hopt₂ hopt'
  have hv := (getOpt_requests _ hnd' _ _ hopt').order _ hoc
  have hx : opt'.ordercnstit = .seq k (ns.map .str) := (Except.ok.inj hv).symm
  rw [hx] at ho
  have hperm := F.kept hnd R hkept
  have hc2name : c2.name = p₂.sel.name := by
    obtain ⟨h1, h2⟩ := stageConf_ok _ _ _ _ _ _ hs.conf
    rcases stageDiagn_ok _ _ _ _ hs.diagn with ⟨-, rfl⟩ | ⟨-, s, -, rfl⟩ <;> rw [h1] <;> rfl
  have hcname : c.name.Perm c2.name := by
    have : c.name = gather full.name ind := by rw [F.solved.result]; rfl
    rw [this, hc2name, ← F.solved.name]
    apply gather_perm
    rwa [F.len.name]
  have h1 : PrepOk E opt' t u v lat tn₂ constit₂ { p₂ with opt := opt' } := by
    rw [ho]
    exact
    { init := ⟨hp₂.init.hlat, hp₂.init.shapes, hp₂.init.time, hp₂.init.edit⟩
      cons := hp₂.cons, hinfer := hp₂.hinfer, hsel := hp₂.hsel, check := hp₂.check, hopt := rfl, nm := hp₂.nm, B := hp₂.B }
  have hprep := (stagePrep_ok E opt' t u v lat _).2 ⟨_, _, h1⟩
  have hpo : p₂.opt = opt₂ := hp₂.hopt
  have hfit : stageFit E { p₂ with opt := opt' } = .ok (m₂, W₂, rf₂) := by
    rw [← hs.fit]; unfold stageFit; dsimp only; rw [ho, hpo]
  have hraw : rawCoef { p₂ with opt := opt' } m₂ W₂ rf₂ = { rawCoef p₂ m₂ W₂ rf₂ with opt := opt' } := by
    unfold rawCoef; dsimp only; rw [ho, hpo]
  have hconf : stageConf E { p₂ with opt := opt' } m₂ W₂ (rawCoef { p₂ with opt := opt' } m₂ W₂ rf₂) =
      .ok { c1 with opt := opt' } := by
    have h2 := hs.conf
    have e : confIn { p₂ with opt := opt' } m₂ W₂ = confIn p₂ m₂ W₂ := by unfold confIn; dsimp only; rw [ho, hpo]
    have e2 : opt'.confInt = p₂.opt.confInt := by rw [ho, hpo]
    unfold stageConf at h2 ⊢
    rw [hraw, e]
    dsimp only
    rw [e2]
    split at h2
    · next hc =>
      rw [if_pos hc]
      simp only [bind_eq_ok, pure_eq_ok, Except.ok.injEq] at h2 ⊢
      obtain ⟨ci, hci, rfl⟩ := h2
      exact ⟨ci, hci, rfl⟩
    · next hc =>
      rw [if_neg hc]
      rw [Except.ok.inj h2]
  have hdi : stageDiagn E { p₂ with opt := opt' } { c1 with opt := opt' } = .ok { c2 with opt := opt' } := by
    have h2 := hs.diagn
    have e2 : opt'.nodiagn = p₂.opt.nodiagn := by rw [ho, hpo]
    unfold stageDiagn at h2 ⊢
    dsimp only
    rw [e2]
    split at h2
    · next hc => rw [if_pos hc, Except.ok.inj h2]
    · next hc =>
      rw [if_neg hc]
      unfold addDiagn at h2 ⊢
      simp only [bind_eq_ok, pure_eq_ok, Except.ok.injEq] at h2 ⊢
      obtain ⟨s, hsn, rfl⟩ := h2
      exact ⟨s, hsn, rfl⟩
  have hrd : readOrder opt'.ordercnstit = .ok (.names ns) := by rw [hx, readOrder_list k hk]
  have hmain : solve E t u v lat opts' = reorder E { c2 with opt := opt' } (.names ns) := by
    unfold solve
    rw [hopt']
    simp only [ok_bind]
    rw [hprep]
    simp only [ok_bind]
    unfold stageSolution
    rw [hfit]
    simp only [ok_bind]
    rw [hconf]
    simp only [ok_bind]
    rw [hdi]
    simp only [ok_bind]
    rw [hrd]
    rfl
  constructor
  · intro hall
    obtain ⟨l, hl⟩ := mapM_total (listIndex c2.name) ns (fun n hn =>
      ⟨_, (listIndex_ok _ _ _).2 ⟨hcname.mem_iff.1 (hall n hn), rfl⟩⟩)
    have : ∃ c', solve E t u v lat opts' = .ok c' := by
      rw [hmain]
      unfold reorder orderIndex
      simp only [hl, ok_bind]
      exact ⟨_, rfl⟩
    obtain ⟨c', hc'⟩ := this
    refine ⟨c', hc', ?_⟩
    obtain ⟨opt3, p3, tn3, constit3, m3, W3, rf3, full3, o3, ind3, F3⟩ := solve_facts R hc'
    have := F3.solved.order
    rw [F3.prep.hopt, ← Except.ok.inj (hopt'.symm.trans F3.hopt), hrd] at this
    exact F3.solved.names ns (Except.ok.inj this).symm
  · rintro ⟨n, hn, hnot⟩
    rw [hmain]
    have : ns.mapM (listIndex c2.name) = .error .valueError := by
      cases hm : ns.mapM (listIndex c2.name) with
      | ok l =>
        exfalso
        obtain ⟨b, -, hb⟩ := mapM_mem _ _ _ hm n hn
        exact hnot (hcname.mem_iff.2 ((listIndex_ok _ _ _).1 hb).1)
      | error e =>
        obtain ⟨a, -, ha⟩ := mapM_error _ _ _ hm
        rw [((listIndex_error _ _ _).1 ha).2]
    unfold reorder orderIndex
    simp only [this, error_bind]

/-! ## Examples: a solution for a list of constituents -/

/-- Options with the given constituents and order: no confidence intervals, trend or nodal corrections. -/
def someOpts (x oc : PyVal) : Dict PyVal :=
  [("constit", x), ("conf_int", .str "none"), ("trend", .bool false), ("nodal", .bool false),
   ("phase", .str "raw"), ("order_constit", oc), ("epoch", .str "python")]

abbrev listOpts (ns : List String) (oc : PyVal) : Dict PyVal := someOpts (.seq .list (ns.map .str)) oc

def someOpt (twodim : Bool) (x oc : PyVal) : Opt := { exOpt twodim with cnstit := x, ordercnstit := oc }

abbrev listOpt (twodim : Bool) (ns : List String) (oc : PyVal) : Opt := someOpt twodim (.seq .list (ns.map .str)) oc

theorem someOpts_nodup (x oc : PyVal) : (someOpts x oc).keys.Nodup :=
  (by decide : ["constit", "conf_int", "trend", "nodal", "phase", "order_constit", "epoch"].Nodup)

theorem someOpt_frequency (twodim : Bool) (x : PyVal) :
    getOpt (someOpts x (.str "frequency")) twodim = .ok (someOpt twodim x (.str "frequency")) := by
  cases twodim <;> kernel_rfl

theorem someOpt_list (twodim : Bool) (x : PyVal) (l : List PyVal) :
    getOpt (someOpts x (.seq .list l)) twodim = .ok (someOpt twodim x (.seq .list l)) := by
  cases twodim <;> kernel_rfl

theorem listOpt_frequency (twodim : Bool) (ns : List String) :
    getOpt (listOpts ns (.str "frequency")) twodim = .ok (listOpt twodim ns (.str "frequency")) :=
  someOpt_frequency twodim _

theorem listOpt_list (twodim : Bool) (ns l : List String) :
    getOpt (listOpts ns (.seq .list (l.map .str))) twodim = .ok (listOpt twodim ns (.seq .list (l.map .str))) :=
  someOpt_list twodim _ _

theorem list_returns (E : Env) (xs : List Fl) (mask : List Bool) (u : List Cell) (hl : xs.length = u.length)
    (ns : List String) (hns : ∀ n ∈ ns, n ∈ constitNames)
    (hne : usable xs u none ≠ []) : ∃ c, solve E ⟨[xs.length], .float xs, mask⟩ ⟨[u.length], u⟩ none (some 45)
      (listOpts ns (.str "frequency")) = .ok c := by
  refine solve_total E _ _ none 45 _ (listOpt false ns (.str "frequency")) xs (.names ns) .frequency
    (listOpt_frequency false ns) rfl rfl rfl rfl (readConstit_list .list (by simp) ns)
    ⟨hns, .inr ⟨rfl, rfl⟩⟩ rfl (.inr rfl) ⟨by simp [hl], rfl, by simp⟩ ?_ ?_ (by simp) ?_ hne
    (fun k => by simp [nodalSingular, someOpt, exOpt]) (fun h => by simp [someOpt, exOpt] at h)
  · simp [TimeArg.WF, TimeArr.length]
  · simp [Series.WF]
  · show (Except.ok (xs.map _) : Except PyErr (List Fl)) = _
    congr 1
    exact List.map_id xs

theorem list_kept {E : Env} {t : TimeArg} {u : Series} {v : Option Series} {lat : Option ℝ} (R : Ready E t u v)
    (ns : List String) (c : Coef) (h : solve E t u v lat (listOpts ns (.str "frequency")) = .ok c) : AllKept c := by
  obtain ⟨opt, p, tn, constit, m, W, rf, full, o, ind, F⟩ := solve_facts R h
  left; right; left; left
  have h1 : c.opt = p.opt := by rw [F.solved.result]; exact F.solved.head.opt
  have h2 := F.hopt
  rw [listOpt_frequency] at h2
  rw [h1, F.prep.hopt, ← Except.ok.inj h2]
  rfl

theorem listOpts_requested (ns : List String) (oc oc' : PyVal) (k : String) (hk : k ≠ "order_constit") :
    requested (listOpts ns oc) k = requested (listOpts ns oc') k := by
  unfold requested listOpts someOpts
  have : ("order_constit" == k) = false := by simpa using fun h => hk h.symm
  simp only [List.find?_cons, this]

theorem day_list (ns : List String) (hns : ∀ n ∈ ns, n ∈ constitNames) :
    ∃ c, solve idealEnv dayT dayU none (some 45) (listOpts ns (.str "frequency")) = .ok c :=
  list_returns idealEnv [.fin 0, .fin 0.5, .fin 1] [] dayU.data rfl ns hns
    (by simp [usable, goodSamples, Fl.toReal?, Cell.value?, dayU])

theorem day_list_names (ns : List String) (c : Coef)
    (h : solve idealEnv dayT dayU none (some 45) (listOpts ns (.str "frequency")) = .ok c) : c.name.Perm ns :=
  (C17_honoured idealEnv dayT dayU none (some 45) _ dayReady (someOpts_nodup _ _) .list (by simp) ns rfl rfl _ rfl c h).1
    (.inr ⟨_, rfl⟩)

/-- With an explicit order of M2 and S2, the solution follows it, if it names fitted constituents only. -/
theorem day_order (ns l : List String) (hns : ∀ n ∈ ns, n ∈ constitNames) (hl : ∀ n ∈ l, n ∈ ns) :
    ∃ c, solve idealEnv dayT dayU none (some 45) (listOpts ns (.seq .list (l.map .str))) = .ok c ∧ c.name = l := by
  obtain ⟨c, hc⟩ := day_list ns hns
  refine (C33_explicit idealEnv dayT dayU none (some 45) _ (listOpts ns (.seq .list (l.map .str))) dayReady (someOpts_nodup _ _)
    (someOpts_nodup _ _) (listOpts_requested ns _ _) .list (by simp) l rfl ⟨_, listOpt_list _ ns l⟩ c hc
    (list_kept dayReady ns c hc)).1 fun n hn => ?_
  exact (day_list_names ns c hc).mem_iff.2 (hl n hn)

theorem M2S2_known : ∀ n ∈ ["M2", "S2"], n ∈ constitNames := by decide +kernel

example : ∃ c, solve idealEnv dayT dayU none (some 45)
    (listOpts ["M2", "S2"] (.seq .list [.str "S2", .str "M2"])) = .ok c ∧ c.name = ["S2", "M2"] :=
  day_order ["M2", "S2"] ["S2", "M2"] M2S2_known (by simp)

example : solve idealEnv dayT dayU none (some 45) (listOpts ["M2", "S2"] (.seq .list [.str "K1"])) =
    .error .valueError := by
  obtain ⟨c, hc⟩ := day_list ["M2", "S2"] M2S2_known
  refine (C33_explicit idealEnv dayT dayU none (some 45) _ (listOpts ["M2", "S2"] (.seq .list [.str "K1"])) dayReady
    (someOpts_nodup _ _) (someOpts_nodup _ _) (listOpts_requested _ _ _) .list (by simp) ["K1"] rfl ⟨_, listOpt_list _ _ ["K1"]⟩ c hc
    (list_kept dayReady _ c hc)).2 ⟨"K1", by simp, ?_⟩
  rw [(day_list_names _ c hc).mem_iff]
  decide

example : ∃ c, solve idealEnv dayT dayU none (some 45) (listOpts ["M2", "S2"] (.str "frequency")) = .ok c ∧
    c.frq.Pairwise (· ≤ ·) := by
  obtain ⟨c, hc⟩ := day_list ["M2", "S2"] M2S2_known
  exact ⟨c, hc, (C33_sorted idealEnv dayT dayU none (some 45) _ dayReady (someOpts_nodup _ _) _ rfl c hc).2.1 rfl⟩

/-! ## C34 -/

/-- C34 as stated: of two calls that differ in nothing but `order_constit`, the second with a sequence of names, the
first keeping all constituents, both report the same constituents. -/
def C34_full : Prop := ∀ (E : Env) (t : TimeArg) (u : Series) (v : Option Series) (lat : Option ℝ)
    (opts opts' : Dict PyVal), Ready E t u v → opts.keys.Nodup → opts'.keys.Nodup →
    (∀ k, k ≠ "order_constit" → requested opts k = requested opts' k) →
    ∀ c c', solve E t u v lat opts = .ok c → solve E t u v lat opts' = .ok c' → AllKept c → c'.name.Perm c.name

/-- C34 is false: `constit=['M2', 'S2']` with `order_constit=['M2']` loses S2. -/
theorem C34_false : ¬ C34_full := by
  intro hfull
  obtain ⟨c, hc⟩ := day_list ["M2", "S2"] M2S2_known
  obtain ⟨c', hc', hn⟩ := day_order ["M2", "S2"] ["M2"] M2S2_known (by simp)
  have h1 := hfull idealEnv dayT dayU none (some 45) _ (listOpts ["M2", "S2"] (.seq .list (["M2"].map .str))) dayReady
    (someOpts_nodup _ _) (someOpts_nodup _ _) (listOpts_requested _ _ _) c c' hc hc' (list_kept dayReady _ c hc)
  have h2 := (day_list_names _ c hc).length_eq
  rw [← h1.length_eq, hn] at h2
  simp at h2

/-- A repeated name is reported twice. -/
theorem C34_duplicates : ∃ c, solve idealEnv dayT dayU none (some 45)
    (listOpts ["M2", "S2"] (.seq .list [.str "M2", .str "M2", .str "S2"])) = .ok c ∧ c.name = ["M2", "M2", "S2"] :=
  day_order ["M2", "S2"] ["M2", "M2", "S2"] M2S2_known (by simp)

/-- The part of C34 that holds: a sequence without repetitions that has as many names as constituents were fitted loses
and duplicates nothing. -/
theorem C34_partial (E : Env) (t : TimeArg) (u : Series) (v : Option Series) (lat : Option ℝ)
    (opts opts' : Dict PyVal) (R : Ready E t u v) (hnd : opts.keys.Nodup) (hnd' : opts'.keys.Nodup)
    (heq : ∀ k, k ≠ "order_constit" → requested opts k = requested opts' k) (k : SeqKind) (hk : k ≠ .ndarray)
    (ns : List String) (hoc : requested opts' "order_constit" = some (.seq k (ns.map .str))) (c c' : Coef)
    (h : solve E t u v lat opts = .ok c) (hkept : AllKept c) (h' : solve E t u v lat opts' = .ok c')
    (h1 : ns.Nodup) (h2 : ns.length = c.name.length) : c'.name = ns ∧ c'.name.Perm c.name := by
  have hopt' : ∃ q, getOpt opts' v.isSome = .ok q := by
    obtain ⟨opt, p, tn, constit, m, W, rf, full, o, ind, F⟩ := solve_facts R h'
    exact ⟨_, F.hopt⟩
  obtain ⟨ha, hb⟩ := C33_explicit E t u v lat opts opts' R hnd hnd' heq k hk ns hoc hopt' c h hkept
  have hall : ∀ n ∈ ns, n ∈ c.name := by
    intro n hn
    by_contra hc
    rw [hb ⟨n, hn, hc⟩] at h'
    simp at h'
  obtain ⟨c'', e1, e2⟩ := ha hall
  have : c'' = c' := Except.ok.inj (e1.symm.trans h')
  subst this
  refine ⟨e2, ?_⟩
  rw [e2]
  exact (List.subperm_of_subset h1 hall).perm_of_length_le h2.ge

/-! ## C37 -/

/-- **C37.** The diagnostics table: it is absent exactly with `conf_int='none'`; otherwise it lists the constituents by
decreasing PE, and, when the solution keeps all constituents, its (name, PE, SNR) rows are those of the solution. -/
theorem C37_table (E : Env) (t : TimeArg) (u : Series) (v : Option Series) (lat : Option ℝ)
    (opts : Dict PyVal) (R : Ready E t u v) (hnd : opts.keys.Nodup) (ci : PyVal)
    (hci : requested opts "conf_int" = some ci) (c : Coef) (h : solve E t u v lat opts = .ok c) :
    (c.diagn = none ↔ IsStr ci "none") ∧
    ∀ d, c.diagn = some d → (d.PE.Pairwise fun a b => Fl.sortLE b a) ∧ d.PE.length = d.name.length ∧
      d.SNR.length = d.name.length ∧ ∃ P S, c.PE = some P ∧ c.SNR = some S ∧
        (AllKept c → (d.name.zip (d.PE.zip d.SNR)).Perm (c.name.zip (P.zip S))) := by
  obtain ⟨opt, p, tn, constit, m, W, rf, full, o, ind, F⟩ := solve_facts R h
  have hq := getOpt_requests _ hnd _ _ F.hopt
  have hdi : c.diagn = full.diagn := by rw [F.solved.result]; rfl
  have hcc := hq.conf _ hci
  have hd := hq.diagn
  have hn : p.opt.nodiagn = true ↔ IsStr ci "none" := by
    rw [F.prep.hopt, hd]
    revert hcc
    generalize opt.confInt = a
    generalize opt.linci = b
    intro hcc
    cases hcc with
    | linear h1 =>
      rw [eqStr_iff] at h1
      simp only [Bool.not_true, Bool.false_eq_true, false_iff]
      rintro (rfl | rfl) <;> rcases h1 with h1 | h1 <;> simp at h1
    | mc _ h1 =>
      rw [eqStr_iff] at h1
      simp only [Bool.not_true, Bool.false_eq_true, false_iff]
      rintro (rfl | rfl) <;> rcases h1 with h1 | h1 <;> simp at h1
    | none _ _ h1 =>
      rw [eqStr_iff] at h1
      simpa using h1
  rcases F.solved.SNR with ⟨h1, h2, h3⟩ | ⟨h1, s, h2, h3, h4⟩
  · refine ⟨?_, ?_⟩
    · rw [hdi, h3, ← hn, h1]; simp
    · intro d hd
      rw [hdi, h3] at hd
      simp at hd
  · refine ⟨?_, ?_⟩
    · rw [hdi, h4, ← hn, h1]; simp
    · intro d hd
      rw [hdi, h4] at hd
      have hd := (Option.some.inj hd).symm
      subst hd
      have hpl : (pe full.ell).length = p.sel.lind.length := by
        have := F.solved.PE
        rw [if_neg (by simp [h1])] at this
        exact peLen F _ this
      have hsl : s.length = p.sel.lind.length := F.solved.snrLen F.prep F.mlen s h3
      have hord := (R.argsort (pe full.ell)).1
      have hord' : (E.num.argsort (pe full.ell)).reverse.Perm (List.range p.sel.lind.length) := by
        rw [← hpl]; exact (List.reverse_perm _).trans hord
      have hlt : ∀ i ∈ (E.num.argsort (pe full.ell)).reverse, i < p.sel.lind.length :=
        fun i hi => List.mem_range.1 (hord'.mem_iff.1 hi)
      have e1 := gather_length full.name _ (by rw [F.len.name]; exact hlt)
      have e2 := gather_length (pe full.ell) _ (by rw [hpl]; exact hlt)
      have e3 := gather_length s _ (by rw [hsl]; exact hlt)
      refine ⟨(argsort_sorted R.argsort _).2, e2.trans e1.symm, e3.trans e1.symm, gather (pe full.ell) ind,
        gather s ind, ?_, ?_, fun hk => ?_⟩
      · rw [F.solved.result]
        show full.PE.map (gather · ind) = _
        rw [F.solved.PE, if_neg (by simp [h1])]; rfl
      · rw [F.solved.result]
        show full.SNR.map (gather · ind) = _
        rw [h3]; rfl
      · have hperm := F.kept hnd R hk
        have hname : c.name = gather full.name ind := by rw [F.solved.result]; rfl
        have rows : ∀ l, (gather full.name l).zip ((gather (pe full.ell) l).zip (gather s l)) =
            gather (full.name.zip ((pe full.ell).zip s)) l := by
          intro l
          have hl : ((pe full.ell).zip s).length = p.sel.lind.length := by simp [hpl, hsl]
          unfold List.zip at hl ⊢
          rw [gather_zipWith _ _ _ (by rw [F.len.name, hl]), gather_zipWith _ _ _ (by rw [hpl, hsl])]
        rw [hname]
        show ((gather full.name _).zip ((gather (pe full.ell) _).zip (gather s _))).Perm _
        rw [rows, rows]
        exact gather_perm_perm _ (hord'.trans hperm.symm)

example : ∃ c, solve idealEnv dayT dayU none (some 45) (listOpts ["M2", "S2"] (.str "frequency")) = .ok c ∧
    c.diagn = none := by
  obtain ⟨c, hc⟩ := day_list ["M2", "S2"] M2S2_known
  exact ⟨c, hc, (C37_table idealEnv dayT dayU none (some 45) _ dayReady (someOpts_nodup _ _) _ rfl c hc).1.2 (.inl rfl)⟩

end

end UTide.Props
