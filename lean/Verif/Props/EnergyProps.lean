import Verif.Lemmas.MeanSquare
import Verif.Props.NyquistProps
import Verif.Props.SplitProps
import Verif.Props.ComponentProps

/-!
# Percent energy as a share of the energy of the predicted tide: C128
-/

namespace UTide.Props

noncomputable section

open Classical Filter Topology

local notation "conj" => starRingEnd ℂ

/-! ## Specification -/

/-- `e` is the mean, over `m` regular times starting at `t₀` with spacing `Δ` (days), of the squared modulus of what
`reconstruct` with arguments `a` returns, less mean and trend. -/
def MeanEnergy (E : Env) (c : Coef) (a : RecArgs) (t₀ Δ : ℝ) (m : ℕ) (e : ℝ) : Prop :=
  ∃ (t : TimeArr) (r : List (Option ℂ)) (z : ℕ → ℂ),
    normalizeTime E.dt64 t a.epoch = .ok ((List.range m).map fun j : ℕ => Fl.fin (t₀ + (j : ℝ) * Δ)) ∧
    reconstruct E t c a = .ok r ∧ (∀ j, j < m → r[j]? = some (some (z j))) ∧
    e = (∑ j ∈ Finset.range m, ‖z j - level c (t₀ + (j : ℝ) * Δ)‖ ^ 2) / (m : ℝ)

/-- Squared semi-axes of constituent number `i`, added. -/
def energyOf (c : Coef) (i : ℕ) : ℝ := (energyAt c.ell i).getD 0

/-! ## Lemmas -/

theorem rotary_energy (e : Ell) : ‖ccw e‖ ^ 2 + ‖cw e‖ ^ 2 = (e.Lsmaj ^ 2 + e.Lsmin ^ 2) / 2 := by
  unfold ccw cw
  rw [norm_mul, norm_mul, norm_cisd, norm_cisd, mul_one, mul_one, Complex.norm_real, Complex.norm_real, Real.norm_eq_abs,
    Real.norm_eq_abs, sq_abs, sq_abs]
  ring

theorem ellipse_energy (ell : EllArr) (n i : ℕ) (hl : ell.Len n) (hi : i < n) :
    ∃ e, ellipseAt ell i = some e ∧ energyAt ell i = some (e.Lsmaj ^ 2 + e.Lsmin ^ 2) := by
  cases ell with
  | one A g =>
    obtain ⟨h1, h2⟩ := hl
    refine ⟨⟨A[i], 0, 0, g[i]⟩, ?_, ?_⟩
    · simp [ellipseAt, h1, h2, hi]
    · simp [energyAt, h1, hi]
  | two M m th g =>
    obtain ⟨h1, h2, h3, h4⟩ := hl
    refine ⟨⟨M[i], m[i], th[i], g[i]⟩, ?_, ?_⟩
    · simp [ellipseAt, h1, h2, h3, h4, hi]
    · simp [energyAt, h1, h2, hi]

theorem norm_cyc (x : ℝ) : ‖cyc x‖ = 1 := by
  unfold cyc
  rw [mul_comm, Complex.norm_exp_ofReal_mul_I]

section

variable {E : Env} {t : TimeArg} {u : Series} {v : Option Series} {lat : Option ℝ} {opts : Dict PyVal} {c : Coef}

theorem ell_len (R : Ready E t u v) (h : solve E t u v lat opts = .ok c) : c.ell.Len c.name.length ∧ c.frq.length = c.name.length := by
  obtain ⟨opt, p, tn, constit, m, W, rf, full, o, ind, F⟩ := solve_facts R h
  have := F.len.permute ind F.lt
  rw [F.solved.result, this.name]
  exact ⟨this.ell, this.frq⟩

/-- Steady harmonics turn by their frequency at each step. -/
theorem steady_turn (R : Ready E t u v) (hnd : opts.keys.Nodup) (h : solve E t u v lat opts = .ok c) (hst : Steady opts)
    (Δ t₀ : ℝ) (i : ℕ) (n : String) (f : ℝ) (hn : c.name[i]? = some n) (hf : c.frq[i]? = some f) (j : ℕ) :
    harmonic c n (t₀ + (j : ℝ) * Δ) = harmonic c n t₀ * cyc (24 * Δ * f) ^ j := by
  obtain ⟨e1, e2, e3⟩ := permute_aligned h
  obtain ⟨opt, p, tn, constit, m, W, rf, full, o, ind, F⟩ := solve_facts R h
  have hco := F.copt
  subst hco
  obtain ⟨f1, f2, -⟩ := steady_flags hnd F.hopt hst
  rw [e1, List.getElem?_map, Option.map_eq_some_iff] at hn
  obtain ⟨k, hk, rfl⟩ := hn
  rw [e2, List.getElem?_map, hk, Option.map_some, Option.some.injEq] at hf
  subst hf
  have hk' := e3 k (List.mem_of_getElem? hk)
  unfold harmonic
  rw [nameBasis_nameAt _ _ _ _ hk', nameBasis_nameAt _ _ _ _ hk', utE_step _ f1 f2, cyc_pow]
  unfold cyc
  congr 4
  ring

/-! ## C128 -/

/-- **C128.** Harmonics of constant amplitude with different frequencies, predicted at regular times (more than two per
period): the mean energy of the predicted tide tends to half the sum, over the constituents asked for, of the squared
semi-axes (amplitudes), each times the squared nodal factor. For every method, and whatever the selection. -/
theorem C128_mean (R : Ready E t u v) (hnd : opts.keys.Nodup) (h : solve E t u v lat opts = .ok c) (hk : AllKept c)
    (hst : Steady opts) (hf : c.frq.Nodup) (hpos : ∀ f ∈ c.frq, 0 < f) (t₀ Δ : ℝ) (hΔ : 0 < Δ)
    (hny : ∀ f ∈ c.frq, 2 * f < 1 / (24 * Δ)) (E' : Env) (a : RecArgs) (e : ℕ → ℝ)
    (he : ∀ m, MeanEnergy E' c a t₀ Δ m (e m)) :
    Tendsto e atTop (𝓝 ((((List.range c.name.length).filter (Selected c a)).map fun i =>
      ‖harmonic c (c.name.getD i "") t₀‖ ^ 2 * (energyOf c i / 2)).sum)) := by
  obtain ⟨hl, hlf⟩ := ell_len R h
  obtain ⟨s, hs⟩ : ∃ s, s = ((List.range c.name.length).filter (Selected c a)).toFinset := ⟨_, rfl⟩
  have hsum : ∀ {β : Type} [AddCommMonoid β] (f : ℕ → β),
      (((List.range c.name.length).filter (Selected c a)).map f).sum = ∑ i ∈ s, f i := by
    intro β _ f
    rw [hs, List.sum_toFinset _ (List.nodup_range.filter _)]
  have hmem : ∀ i ∈ s, i < c.name.length := fun i hi => by
    rw [hs, List.mem_toFinset, List.mem_filter, List.mem_range] at hi; exact hi.1
  have : Nonempty Ell := ⟨⟨0, 0, 0, 0⟩⟩
  choose! el hel using fun i (hi : i < c.name.length) => ellipse_energy c.ell _ i hl hi
  obtain ⟨x, hxd⟩ : ∃ x : ℕ → ℝ, x = fun i => 24 * Δ * c.frq.getD i 0 := ⟨_, rfl⟩
  have hfr : ∀ i, i < c.name.length → c.frq[i]? = some (c.frq.getD i 0) := fun i hi => by
    simp [List.getD_eq_getElem?_getD, hlf, hi]
  have hx : ∀ i, i < c.name.length → 0 < x i ∧ x i < 1 / 2 := by
    intro i hi
    have hm := List.mem_of_getElem? (hfr i hi)
    have h1 := hpos _ hm
    have h2 := hny _ hm
    rw [lt_div_iff₀ (by positivity)] at h2
    rw [hxd]
    exact ⟨by positivity, by dsimp only; linarith⟩
  have hxi : ∀ i k, i < c.name.length → k < c.name.length → x i = x k → i = k := by
    intro i k hi hk' hik
    rw [hxd] at hik
    have h1 := mul_left_cancel₀ (by positivity) hik
    exact (List.getElem?_inj (by rw [hlf]; exact hi) hf).1 ((hfr i hi).trans (by rw [h1, hfr k hk']))
  obtain ⟨H, hH⟩ : ∃ H : ℕ → ℂ, H = fun i => harmonic c (c.name.getD i "") t₀ := ⟨_, rfl⟩
  have htide : ∀ i ∈ s, ∀ j : ℕ, tide c (t₀ + (j : ℝ) * Δ) i =
      H i * ccw (el i) * cyc (x i) ^ j + conj (H i) * cw (el i) * cyc (-x i) ^ j := by
    intro i hi j
    have hi' := hmem i hi
    have hn : c.name[i]? = some (c.name.getD i "") := by simp [List.getD_eq_getElem?_getD, hi']
    rw [tide_rotary h _ i _ (el i) hn (hel i hi').1, steady_turn R hnd h hst Δ t₀ i _ _ hn (hfr i hi') j, map_mul, map_pow, conj_cyc, hH,
      hxd]
    dsimp only
    ring
  have key := mean_square_turns (s.disjSum s)
    (Sum.elim (fun i => H i * ccw (el i)) fun i => conj (H i) * cw (el i))
    (Sum.elim (fun i => cyc (x i)) fun i => cyc (-x i)) ?_ ?_
  · rw [hsum]
    rw [Finset.sum_disjSum] at key
    simp only [Finset.sum_disjSum, Sum.elim_inl, Sum.elim_inr] at key
    have elim : ∑ i ∈ s, ‖H i * ccw (el i)‖ ^ 2 + ∑ i ∈ s, ‖conj (H i) * cw (el i)‖ ^ 2 =
        ∑ i ∈ s, ‖harmonic c (c.name.getD i "") t₀‖ ^ 2 * (energyOf c i / 2) := by
      rw [← Finset.sum_add_distrib]
      refine Finset.sum_congr rfl fun i hi => ?_
      have : energyOf c i = (el i).Lsmaj ^ 2 + (el i).Lsmin ^ 2 := by
        unfold energyOf; rw [(hel i (hmem i hi)).2]; rfl
      rw [this, ← rotary_energy, norm_mul, norm_mul, RCLike.norm_conj, mul_pow, mul_pow, hH]
      ring
    rw [elim] at key
    refine key.congr fun m => ?_
    obtain ⟨t', r, z, htn, hr, hz, hem⟩ := he m
    rw [hem]
    congr 1
    refine Finset.sum_congr rfl fun j hj => ?_
    have hj := Finset.mem_range.1 hj
    rw [C36_selected E t u v lat opts R hnd c h hk, htn] at hr
    have hr := Except.ok.inj hr
    have := hz j hj
    rw [← hr, List.getElem?_map, List.getElem?_map, List.getElem?_range hj] at this
    have := Option.some.inj (Option.some.inj this)
    rw [← this, add_sub_cancel_left, hsum, Finset.sum_congr rfl fun i hi => htide i hi j, Finset.sum_add_distrib]
  · rintro (i | i) - <;> simp only [Sum.elim_inl, Sum.elim_inr, norm_cyc]
  · have habs : ∀ i, i < c.name.length → |x i| < 1 / 2 ∧ |-x i| < 1 / 2 := by
      intro i hi
      obtain ⟨h1, h2⟩ := hx i hi
      rw [abs_neg, abs_of_pos h1]
      exact ⟨h2, h2⟩
    rintro (i | i) hi (k | k) hk' hik <;> simp only [Sum.elim_inl, Sum.elim_inr] at hik <;>
      simp only [Finset.mem_coe, Finset.inl_mem_disjSum, Finset.inr_mem_disjSum] at hi hk' <;>
      have a1 := hmem _ hi <;> have a2 := hmem _ hk'
    · exact congrArg Sum.inl (hxi _ _ a1 a2 (cyc_inj (habs i a1).1 (habs k a2).1 hik))
    · have := cyc_inj (habs i a1).1 (habs k a2).2 hik
      linarith [(hx i a1).1, (hx k a2).1]
    · have := cyc_inj (habs i a1).2 (habs k a2).1 hik
      linarith [(hx i a1).1, (hx k a2).1]
    · exact congrArg Sum.inr (hxi _ _ a1 a2 (neg_inj.1 (cyc_inj (habs i a1).2 (habs k a2).2 hik)))

/-- Without nodal corrections harmonics have modulus one. -/
theorem norm_harmonic_off (hnd : opts.keys.Nodup) (h : solve E t u v lat opts = .ok c) (R : Ready E t u v)
    (hoff : (requested opts "nodal").bind nodalMode = some .off) (n : String) (hn : n ∈ c.name) (τ : ℝ) :
    ‖harmonic c n τ‖ = 1 := by
  obtain ⟨e1, e2, e3⟩ := permute_aligned h
  obtain ⟨opt, p, tn, constit, m, W, rf, full, o, ind, F⟩ := solve_facts R h
  have hco := F.copt
  subst hco
  have hfl : c.opt.flags.nodsatnone = true := by
    have := (C20_modes opts hnd _ _ F.hopt).1 _ hoff
    cases ha : c.opt.flags.nodsatlint <;> cases hb : c.opt.flags.nodsatnone <;> simp [ha, hb, flagMode] at this ⊢
  rw [e1] at hn
  obtain ⟨k, hk, rfl⟩ := List.mem_map.1 hn
  unfold harmonic
  rw [nameBasis_nameAt _ _ _ _ (e3 k hk)]
  unfold utE
  have hF : nodF c.opt.flags c.reftime c.lat τ k = 1 := by unfold nodF; simp [hfl]
  have hx : ∀ y : ℝ, ‖Complex.exp (Complex.I * (y : ℂ) * 2 * (Real.pi : ℂ))‖ = 1 := by
    intro y
    rw [Complex.norm_exp]; simp
  split
  · rw [norm_mul, hx]; simp
  · rw [norm_mul, hx, hF]; simp

/-- **C128**, percent energy: without nodal corrections, `PE` is the share of a constituent in the mean energy of the
predicted tide. -/
theorem C128_share (R : Ready E t u v) (hnd : opts.keys.Nodup) (h : solve E t u v lat opts = .ok c) (hk : AllKept c)
    (hst : Steady opts) (hoff : (requested opts "nodal").bind nodalMode = some .off) (hf : c.frq.Nodup)
    (hpos : ∀ f ∈ c.frq, 0 < f) (t₀ Δ : ℝ) (hΔ : 0 < Δ) (hny : ∀ f ∈ c.frq, 2 * f < 1 / (24 * Δ))
    (hz : Nonzero c.ell) (l : List Fl) (hPE : c.PE = some l) (i : ℕ) (n : String) (p : ℝ) (hn : c.name[i]? = some n)
    (hp : l[i]? = some (.fin p)) (E' E'' : Env) (a b : RecArgs) (ha : RecArgs.Everything a) (hb : b.constit = some (.names [n]))
    (all one : ℕ → ℝ) (hall : ∀ m, MeanEnergy E' c a t₀ Δ m (all m))
    (hone : ∀ m, MeanEnergy E'' c b t₀ Δ m (one m)) :
    Tendsto (fun m => 100 * one m / all m) atTop (𝓝 p) := by
  obtain ⟨hl, hlf⟩ := ell_len R h
  have hnames : c.name.Nodup := by
    obtain ⟨e1, e2, e3⟩ := permute_aligned h
    rw [e1]
    rw [e2] at hf
    exact (List.nodup_map_iff_inj_on (List.Nodup.of_map _ hf)).2 fun a ha b hb hab => by
      have := congrArg (constitNames.idxOf ·) hab
      simpa only [idxOf_nameAt (e3 a ha), idxOf_nameAt (e3 b hb)] using this
  have hi : i < c.name.length := (List.getElem?_eq_some_iff.1 hn).1
  have hone' := C128_mean R hnd h hk hst hf hpos t₀ Δ hΔ hny E'' b one hone
  have hall' := C128_mean R hnd h hk hst hf hpos t₀ Δ hΔ hny E' a all hall
  have hw : ∀ j, j < c.name.length → ‖harmonic c (c.name.getD j "") t₀‖ ^ 2 * (energyOf c j / 2) = energyOf c j / 2 := by
    intro j hj
    rw [norm_harmonic_off hnd h R hoff _ (by rw [List.getD_eq_getElem _ _ hj]; exact List.getElem_mem hj)]
    ring
  have f1 : (List.range c.name.length).filter (Selected c b) = [i] := by
    have hsel : ∀ j, Selected c b j ↔ c.name[j]? = some n := by
      intro j
      unfold Selected
      rw [hb]
      simp
    have : ∀ j ∈ List.range c.name.length, decide (Selected c b j) = decide (j = i) := by
      intro j hj
      have hiff : Selected c b j ↔ j = i := by
        rw [hsel]
        exact ⟨fun hj' => (List.getElem?_inj (List.mem_range.1 hj) hnames).1 (hj'.trans hn.symm), fun hj' => hj' ▸ hn⟩
      simp only [hiff]
    rw [List.filter_congr this]
    have := List.filter_eq (l := List.range c.name.length) i
    simp only [List.count_eq_one_of_mem List.nodup_range (List.mem_range.2 hi), List.replicate_one] at this
    rw [← this]
  have f2 : (List.range c.name.length).filter (Selected c a) = List.range c.name.length := by
    obtain ⟨h1, h2, h3⟩ := ha
    refine List.filter_eq_self.2 fun j _ => ?_
    simp only [Selected, h1, h2, h3, true_and, true_or, decide_true]
  rw [f1, List.map_cons, List.map_nil, List.sum_cons, List.sum_nil, add_zero, hw i hi] at hone'
  have htot : ((List.range c.name.length).map fun j => energyOf c j / 2).sum = totalEnergy c.ell / 2 := by
    rw [← energies_sum hl]
    have : (List.range c.name.length).map (energyOf c) = energies c.ell := by
      refine List.ext_getElem? fun j => ?_
      rw [energies_at, List.getElem?_map]
      by_cases hj : j < c.name.length
      · obtain ⟨el, -, he⟩ := ellipse_energy c.ell _ j hl hj
        rw [List.getElem?_range hj, he]
        simp only [Option.map_some, energyOf, he, Option.getD_some]
      · have h1 : (energies c.ell)[j]? = none := by
          rw [List.getElem?_eq_none_iff, energies_length hl]; omega
        rw [← energies_at, h1, List.getElem?_eq_none_iff.2 (by rw [List.length_range]; omega)]
        rfl
    rw [← this]
    simp only [div_eq_mul_inv]
    rw [List.sum_map_mul_right]
  rw [f2, List.map_congr_left fun j hj => hw j (List.mem_range.1 hj), htot] at hall'
  have hT := totalEnergy_pos c.ell hz
  have := (hone'.const_mul 100).div hall' (by positivity)
  obtain ⟨el, -, he⟩ := ellipse_energy c.ell _ i hl hi
  obtain ⟨P, h1, -, -, -, h5⟩ := C32_solve E t u v lat opts R hnd c h hk hz l hPE
  have hP := h5 i _ he
  rw [h1, List.getElem?_map, hP] at hp
  have hp := Fl.fin.inj (Option.some.inj hp)
  have e : energyOf c i = el.Lsmaj ^ 2 + el.Lsmin ^ 2 := by unfold energyOf; rw [he]; rfl
  rw [← hp, ← e]
  have e2 : 100 * (energyOf c i / 2) / (totalEnergy c.ell / 2) = 100 * energyOf c i / totalEnergy c.ell := by
    field_simp
  rw [← e2]
  exact this

end

end

end UTide.Props
