import Verif.Lemmas.Pencil
import Verif.Props.NodalProps
import Verif.Props.AvailProps

/-!
# Regular stretches determine the constituents: C101
-/

namespace UTide.Props

noncomputable section

open Classical

local notation "conj" => starRingEnd ℂ

/-! ## Specification -/

/-- The harmonics of the result are sinusoids of constant amplitude: nodal corrections and Greenwich phases either off
or evaluated at the reference time. -/
def Steady (opts : Dict PyVal) : Prop :=
  ((requested opts "nodal").bind nodalMode = some .off ∨ (requested opts "nodal").bind nodalMode = some .atReference) ∧
  ((requested opts "phase").bind phaseMode = some .off ∨ (requested opts "phase").bind phaseMode = some .atReference)

/-- The nodal corrections do not make a constituent vanish (C92). -/
def NotVanishing (opts : Dict PyVal) (c : Coef) : Prop :=
  (requested opts "nodal").bind nodalMode = some .off ∨ (GoodLat c.lat ∧ ∀ n ∈ c.name, n ∉ strongSatellites)

/-- Among the sample times there are as many consecutive ones with spacing `Δ` (days) as there are unknowns: two for
each constituent, the mean, and the slope if there is one. -/
def RegularStretch (c : Coef) (times : ℝ → Prop) (Δ : ℝ) : Prop :=
  ∃ t₀, ∀ j : ℕ, j < 2 * c.name.length + 1 + (if c.opt.notrend then 0 else 1) → times (t₀ + j * Δ)

/-! ## Lemmas -/

section

variable {E : Env} {t : TimeArg} {u : Series} {v : Option Series} {lat : Option ℝ} {opts : Dict PyVal} {c : Coef}

theorem steady_flags (hnd : opts.keys.Nodup) {is2D : Bool} {q : Opt} (h : getOpt opts is2D = .ok q) (hs : Steady opts) :
    (q.flags.nodsatnone = true ∨ q.flags.nodsatlint = true) ∧ (q.flags.gwchnone = true ∨ q.flags.gwchlint = true) ∧
    ((requested opts "nodal").bind nodalMode = some .off → q.flags.nodsatnone = true) := by
  obtain ⟨h1, h2⟩ := C20_modes opts hnd is2D q h
  refine ⟨?_, ?_, fun hn => ?_⟩
  · rcases hs.1 with hn | hn <;> have := h1 _ hn <;>
      cases ha : q.flags.nodsatlint <;> cases hb : q.flags.nodsatnone <;> simp [ha, hb, flagMode] at this ⊢
  · rcases hs.2 with hn | hn <;> have := h2 _ hn <;>
      cases ha : q.flags.gwchlint <;> cases hb : q.flags.gwchnone <;> simp [ha, hb, flagMode] at this ⊢
  · have := h1 _ hn
    cases ha : q.flags.nodsatlint <;> cases hb : q.flags.nodsatnone <;> simp [ha, hb, flagMode] at this ⊢

/-- A step of `s` days turns a steady harmonic by its frequency. -/
theorem utE_step (fl : Flags) (h1 : fl.nodsatnone = true ∨ fl.nodsatlint = true)
    (h2 : fl.gwchnone = true ∨ fl.gwchlint = true) (tref lat τ s : ℝ) (k : ℕ) :
    utE fl tref lat (τ + s) (linFreqs tref k) k =
      utE fl tref lat τ (linFreqs tref k) k * Complex.exp (Complex.I * ((2 * Real.pi * (24 * s * linFreqs tref k) : ℝ) : ℂ)) := by
  have hF : nodF fl tref lat (τ + s) k = nodF fl tref lat τ k := by
    unfold nodF
    rcases h1 with h | h <;> simp [h]
  have hU : nodU fl tref lat (τ + s) k = nodU fl tref lat τ k := by
    unfold nodU
    rcases h1 with h | h <;> simp [h]
  have hV : gwV fl tref (τ + s) k = gwV fl tref τ k + 24 * s * linFreqs tref k := by
    unfold gwV
    by_cases hg : fl.gwchnone = true
    · simp only [hg, if_true]; ring
    · simp only [hg, h2.resolve_left hg, if_true, Bool.false_eq_true, if_false]; ring
  unfold utE
  split
  · rw [mul_assoc ((1 : ℝ) : ℂ), ← Complex.exp_add]
    congr 2
    push_cast
    ring
  · rw [hF, hU, hV, mul_assoc (nodF fl tref lat τ k : ℂ), ← Complex.exp_add]
    congr 2
    push_cast
    ring

theorem utE_steady_ne (fl : Flags) (tref lat τ f : ℝ) (k : ℕ) (h : fl.nodsatnone = true ∨ (GoodLat lat ∧
    k < 146 ∧ nameAt k ∉ strongSatellites)) : utE fl tref lat τ f k ≠ 0 := by
  rcases h with h | ⟨h1, h2, h3⟩
  · unfold utE
    split
    · simp [Complex.exp_ne_zero]
    · have : nodF fl tref lat τ k = 1 := by unfold nodF; simp [h]
      rw [this]
      simp [Complex.exp_ne_zero]
  · exact (C92_never_zero fl tref lat τ f h1 k h2 h3).2

/-- The step factors of both directions of rotation. -/
def cyc (x : ℝ) : ℂ := Complex.exp (Complex.I * ((2 * Real.pi * x : ℝ) : ℂ))

theorem conj_cyc (x : ℝ) : conj (cyc x) = cyc (-x) := by
  unfold cyc
  rw [← Complex.exp_conj]
  congr 1
  simp [map_ofNat]

theorem cyc_inj {x y : ℝ} (hx : |x| < 1 / 2) (hy : |y| < 1 / 2) (h : cyc x = cyc y) : x = y := by
  have hp := Real.pi_pos
  obtain ⟨x1, x2⟩ := abs_lt.1 hx
  obtain ⟨y1, y2⟩ := abs_lt.1 hy
  unfold cyc at h
  have him : ∀ z : ℝ, (Complex.I * ((2 * Real.pi * z : ℝ) : ℂ)).im = 2 * Real.pi * z := fun z => by simp
  have := Complex.exp_inj_of_neg_pi_lt_of_le_pi (by rw [him]; nlinarith) (by rw [him]; nlinarith)
    (by rw [him]; nlinarith) (by rw [him]; nlinarith) h
  have h2 := congrArg Complex.im this
  rw [him, him] at h2
  exact mul_left_cancel₀ (by positivity) h2

theorem cyc_zero : cyc 0 = 1 := by simp [cyc]

theorem cyc_pow (x : ℝ) (j : ℕ) : cyc x ^ j = cyc (j * x) := by
  unfold cyc
  rw [← Complex.exp_nat_mul]
  congr 1
  push_cast
  ring

theorem sum_names (l : List String) (f : String → ℂ) : (l.map f).sum = ∑ i : Fin l.length, f l[i] := by
  rw [← List.sum_ofFn]
  congr 1
  exact (List.ofFn_getElem_eq_map l f).symm

/-! ## C101 -/

/-- **C101.** A stretch of regular samples, one for every unknown, dense enough for the highest frequency (more than two
samples per period), determines all coefficients, whatever other samples there are. The frequencies must be different. -/
theorem C101_separated (R : Ready E t u v) (hnd : opts.keys.Nodup) (h : solve E t u v lat opts = .ok c)
    (hst : Steady opts) (hnv : NotVanishing opts c) (hf : c.frq.Nodup) (hpos : ∀ f ∈ c.frq, 0 < f) (Δ : ℝ) (hΔ : 0 < Δ)
    (hny : ∀ f ∈ c.frq, 2 * f < 1 / (24 * Δ)) (times : ℝ → Prop) (hreg : RegularStretch c times Δ)
    (sp : Option InferSpec) (td : Bool) : Separated c sp td times := by
  obtain ⟨e1, e2, e3⟩ := permute_aligned h
  obtain ⟨opt, p, tn, constit, m, W, rf, full, o, ind, F⟩ := solve_facts R h
  have hco := F.copt
  subst hco
  obtain ⟨f1, f2, f3⟩ := steady_flags hnd F.hopt hst
  have hnames : c.name.Nodup := by
    rw [e1]
    rw [e2] at hf
    exact (List.nodup_map_iff_inj_on (List.Nodup.of_map _ hf)).2 fun a ha b hb hab => by
      have := congrArg (constitNames.idxOf ·) hab
      simpa only [idxOf_nameAt (e3 a ha), idxOf_nameAt (e3 b hb)] using this
  have hlen : c.lind.length = c.name.length := by rw [e1, List.length_map]
  -- frequency of a name
  let k : Fin c.name.length → ℕ := fun i => c.lind[i]'(by rw [hlen]; exact i.2)
  have hkm : ∀ i, k i ∈ c.lind := fun i => List.getElem_mem _
  have hkn : ∀ i : Fin c.name.length, c.name[i] = nameAt (k i) := fun i => by
    simp only [Fin.getElem_fin, k, List.getElem_of_eq e1, List.getElem_map]
  have hkinj : Function.Injective fun i => linFreqs c.reftime (k i) := by
    intro i j hij
    rw [e2] at hf
    have := (List.nodup_iff_injective_get.1 hf) (a₁ := ⟨i, by simp [hlen]⟩) (a₂ := ⟨j, by simp [hlen]⟩) (by simpa [k] using hij)
    exact Fin.ext (by simpa using this)
  have hfm : ∀ i, linFreqs c.reftime (k i) ∈ c.frq := fun i => by rw [e2]; exact List.mem_map_of_mem (hkm i)
  have hx : ∀ i, 0 < 24 * Δ * linFreqs c.reftime (k i) ∧ 24 * Δ * linFreqs c.reftime (k i) < 1 / 2 := by
    intro i
    have h1 := hpos _ (hfm i)
    have h2 := hny _ (hfm i)
    rw [lt_div_iff₀ (by positivity)] at h2
    exact ⟨by positivity, by linarith⟩
  have hbasis : ∀ (i : Fin c.name.length) (τ : ℝ), harmonic c (c.name[i]) τ = utE c.opt.flags c.reftime c.lat τ (linFreqs c.reftime (k i)) (k i) := by
    intro i τ
    unfold harmonic
    rw [hkn i, nameBasis_nameAt _ _ _ _ (e3 _ (hkm i))]
  have hne : ∀ (i : Fin c.name.length) (τ : ℝ), harmonic c (c.name[i]) τ ≠ 0 := by
    intro i τ
    rw [hbasis]
    refine utE_steady_ne _ _ _ _ _ _ ?_
    rcases hnv with hn | ⟨g1, g2⟩
    · exact .inl (f3 hn)
    · exact .inr ⟨g1, e3 _ (hkm i), by rw [← hkn i]; exact g2 _ (List.getElem_mem _)⟩
  have hstep : ∀ (i : Fin c.name.length) (t₀ : ℝ) (j : ℕ), harmonic c (c.name[i]) (t₀ + j * Δ) =
      harmonic c (c.name[i]) t₀ * cyc (24 * Δ * linFreqs c.reftime (k i)) ^ j := by
    intro i t₀ j
    rw [hbasis, hbasis, utE_step _ f1 f2, cyc_pow]
    unfold cyc
    congr 4
    ring
  refine ⟨hnames, fun P M mean slope _ hs hzero => ?_⟩
  obtain ⟨t₀, hreg⟩ := hreg
  have key := pencil (ι := Fin c.name.length ⊕ Fin c.name.length)
    (Sum.elim (fun i => cyc (24 * Δ * linFreqs c.reftime (k i))) fun i => cyc (-(24 * Δ * linFreqs c.reftime (k i))))
    (Sum.elim (fun i => harmonic c (c.name[i]) t₀ * P (c.name[i])) fun i => conj (harmonic c (c.name[i]) t₀) * M (c.name[i]))
    (mean + slope * ((t₀ - c.reftime : ℝ) : ℂ)) (slope * (Δ : ℂ))
    (2 * c.name.length + 1 + (if c.opt.notrend then 0 else 1)) ?_ ?_ ?_ ?_
  · obtain ⟨k1, k2, k3⟩ := key
    have hsl : slope = 0 := (mul_eq_zero.1 k3).resolve_right (by exact_mod_cast hΔ.ne')
    refine ⟨by simpa [hsl] using k2, hsl, fun n hn => ?_⟩
    obtain ⟨i, hi, rfl⟩ := List.getElem_of_mem hn
    have h1 := k1 (.inl ⟨i, hi⟩)
    have h2 := k1 (.inr ⟨i, hi⟩)
    simp only [Sum.elim_inl, Sum.elim_inr] at h1 h2
    exact ⟨(mul_eq_zero.1 h1).resolve_left (hne ⟨i, hi⟩ _),
      (mul_eq_zero.1 h2).resolve_left ((map_ne_zero _).2 (hne ⟨i, hi⟩ _))⟩
  · have habs : ∀ i, |24 * Δ * linFreqs c.reftime (k i)| < 1 / 2 ∧ |-(24 * Δ * linFreqs c.reftime (k i))| < 1 / 2 := by
      intro i
      obtain ⟨h1, h2⟩ := hx i
      rw [abs_neg, abs_of_pos h1]
      exact ⟨h2, h2⟩
    have hcancel : ∀ i j, 24 * Δ * linFreqs c.reftime (k i) = 24 * Δ * linFreqs c.reftime (k j) → i = j := fun i j hij =>
      hkinj (mul_left_cancel₀ (by positivity) hij)
    rintro (i | i) (j | j) hij <;> simp only [Sum.elim_inl, Sum.elim_inr] at hij
    · exact congrArg Sum.inl (hcancel i j (cyc_inj (habs i).1 (habs j).1 hij))
    · have := cyc_inj (habs i).1 (habs j).2 hij
      linarith [(hx i).1, (hx j).1]
    · have := cyc_inj (habs i).2 (habs j).1 hij
      linarith [(hx i).1, (hx j).1]
    · exact congrArg Sum.inr (hcancel i j (neg_inj.1 (cyc_inj (habs i).2 (habs j).2 hij)))
  · have h0 : |(0 : ℝ)| < 1 / 2 := by norm_num
    rintro (i | i) hi <;> simp only [Sum.elim_inl, Sum.elim_inr] at hi <;> rw [← cyc_zero] at hi <;>
      have hxi := hx i
    · have := cyc_inj (by rw [abs_of_pos hxi.1]; exact hxi.2) h0 hi
      linarith
    · have := cyc_inj (by rw [abs_neg, abs_of_pos hxi.1]; exact hxi.2) h0 hi
      linarith
  · simp only [Fintype.card_sum, Fintype.card_fin]
    cases hnt : c.opt.notrend with
    | true => right; simp only [if_true]; exact ⟨by rw [hs hnt, zero_mul], by omega⟩
    | false => left; simp only [Bool.false_eq_true, if_false]; omega
  · intro j hj
    have := hzero _ (hreg j hj)
    unfold rotaryCurve at this
    rw [sum_names] at this
    rw [Fintype.sum_sum_type]
    simp only [Sum.elim_inl, Sum.elim_inr]
    rw [← this, ← Finset.sum_add_distrib]
    have hcj : ∀ i : Fin c.name.length, cyc (-(24 * Δ * linFreqs c.reftime (k i))) =
        conj (cyc (24 * Δ * linFreqs c.reftime (k i))) := fun i => (conj_cyc _).symm
    simp only [hstep, hcj, map_mul, map_pow]
    push_cast
    have e : ∑ i : Fin c.name.length, (harmonic c c.name[i] t₀ * P c.name[i] * cyc (24 * Δ * linFreqs c.reftime (k i)) ^ j +
        conj (harmonic c c.name[i] t₀) * M c.name[i] * conj (cyc (24 * Δ * linFreqs c.reftime (k i))) ^ j) =
        ∑ i : Fin c.name.length, (harmonic c c.name[i] t₀ * cyc (24 * Δ * linFreqs c.reftime (k i)) ^ j * P c.name[i] +
        conj (harmonic c c.name[i] t₀) * conj (cyc (24 * Δ * linFreqs c.reftime (k i))) ^ j * M c.name[i]) :=
      Finset.sum_congr rfl fun i _ => by ring
    rw [e]
    ring

/-- A tidal elevation with a regular stretch: amplitudes and phases, mean and slope come back. -/
theorem C101_scalar (R : Ready E t u none) (hnd : opts.keys.Nodup)
    (hm : ∃ x, requested opts "method" = some x ∧ IsStr x "ols") (h : solve E t u none lat opts = .ok c) (hk : AllKept c)
    (hi : readInfer c.opt.infer = .ok none) (tn : List Fl) (htn : normalizeTime E.dt64 t.arr c.opt.epoch = .ok tn)
    (hst : Steady opts) (hnv : NotVanishing opts c) (hf : c.frq.Nodup) (hpos : ∀ f ∈ c.frq, 0 < f) (Δ : ℝ) (hΔ : 0 < Δ)
    (hny : ∀ f ∈ c.frq, 2 * f < 1 / (24 * Δ)) (hreg : RegularStretch c (SampleTime tn u.data none) Δ)
    (A g : String → ℝ) (mean slope : ℝ) (hA : ∀ n ∈ c.name, 0 ≤ A n) (hs : c.opt.notrend = true → slope = 0)
    (hu : ∀ (i : ℕ) (x τ : ℝ), (u.data[i]?.bind Cell.value?) = some x → tn[i]? = some (.fin τ) →
      x = scalarCurve c A g mean slope τ) :
    (∀ (i : ℕ) (n : String), c.name[i]? = some n → ∃ e, ellipseAt c.ell i = some e ∧ e.Lsmaj = A n ∧
      e.Lsmin = 0 ∧ e.theta = 0 ∧ (0 < A n → ∃ k : ℤ, e.g = g n + 360 * k)) ∧
    c.mean = .one mean (if c.opt.notrend then none else some slope) :=
  C04_scalar E t u lat opts R hnd hm c h hk none hi (fun _ hs => by cases hs) tn htn
    (C101_separated R hnd h hst hnv hf hpos Δ hΔ hny _ hreg none false) A g mean slope hA (fun _ h => by cases h) hs hu

theorem C101_vector {w : Series} (R : Ready E t u (some w)) (hnd : opts.keys.Nodup)
    (hm : ∃ x, requested opts "method" = some x ∧ IsStr x "ols") (h : solve E t u (some w) lat opts = .ok c) (hk : AllKept c)
    (hi : readInfer c.opt.infer = .ok none) (tn : List Fl) (htn : normalizeTime E.dt64 t.arr c.opt.epoch = .ok tn)
    (hst : Steady opts) (hnv : NotVanishing opts c) (hf : c.frq.Nodup) (hpos : ∀ f ∈ c.frq, 0 < f) (Δ : ℝ) (hΔ : 0 < Δ)
    (hny : ∀ f ∈ c.frq, 2 * f < 1 / (24 * Δ)) (hreg : RegularStretch c (SampleTime tn u.data (some w.data)) Δ)
    (e : String → Ell) (mean slope : ℂ) (he : ∀ n ∈ c.name, |(e n).Lsmin| ≤ (e n).Lsmaj)
    (hs : c.opt.notrend = true → slope = 0)
    (hu : ∀ (i : ℕ) (x y τ : ℝ), (u.data[i]?.bind Cell.value?) = some x → (w.data[i]?.bind Cell.value?) = some y →
      tn[i]? = some (.fin τ) → (⟨x, y⟩ : ℂ) = vectorCurve c e mean slope τ) :
    (∀ (i : ℕ) (n : String), c.name[i]? = some n → ∃ e', ellipseAt c.ell i = some e' ∧ e'.Lsmaj = (e n).Lsmaj ∧
      e'.Lsmin = (e n).Lsmin ∧
      (|(e n).Lsmin| < (e n).Lsmaj → ∃ a b : ℤ, e'.theta = (e n).theta + 180 * a ∧ e'.g = (e n).g + 180 * b ∧
        Even (a - b))) ∧
    c.mean = .two mean.re mean.im (if c.opt.notrend then none else some (slope.re, slope.im)) := by
  obtain ⟨h1, h2⟩ := C04_vector E t u w lat opts R hnd hm c h hk none hi (fun _ hs => by cases hs) tn htn
    (C101_separated R hnd h hst hnv hf hpos Δ hΔ hny _ hreg none true) e mean slope he (fun _ h => by cases h) hs hu
  refine ⟨fun i n hn => ?_, h2⟩
  obtain ⟨e', e1, e2, e3, -, -, e4⟩ := h1 i n hn
  exact ⟨e', e1, e2, e3, e4⟩

/-- With a stretch longer than needed by one sample, intervals can be had. -/
theorem C101_intervals {opts' : Dict PyVal} (R : Ready E t u v) (hI : InvOk E.num.inv) (hM : MvnOk E.num.mvn)
    (hnd : opts.keys.Nodup) (hnd' : opts'.keys.Nodup)
    (heq : ∀ k, k ∉ intervalKeys → requested opts k = requested opts' k)
    (hm : ∃ x, requested opts "method" = some x ∧ IsStr x "ols")
    (h : solve E t u v lat opts = .ok c) (hinf : readInfer c.opt.infer = .ok none) (hk : AllKept c)
    (tn : List Fl) (htn : normalizeTime E.dt64 t.arr c.opt.epoch = .ok tn)
    (hst : Steady opts) (hnv : NotVanishing opts c) (hf : c.frq.Nodup) (hpos : ∀ f ∈ c.frq, 0 < f) (Δ : ℝ) (hΔ : 0 < Δ)
    (hny : ∀ f ∈ c.frq, 2 * f < 1 / (24 * Δ)) (hreg : RegularStretch c (SampleTime tn u.data (v.map Series.data)) Δ)
    (hmore : numPar c < (sampleTimes tn u v).length)
    (q' : Opt) (hq' : getOpt opts' v.isSome = .ok q') (hci : q'.confInt = true) (hw : q'.white = true) :
    ∃ c', solve E t u v lat opts' = .ok c' :=
  C72_available R hI hM hnd hnd' heq hm h hinf hk htn
    ⟨C101_separated R hnd h hst hnv hf hpos Δ hΔ hny _ hreg none _, hmore⟩ q' hq' hci (.inl hw)

/-! ## Aliases -/

theorem sum_single {l : List String} (h : l.Nodup) {n : String} (hn : n ∈ l) (f : String → ℂ) :
    (l.map fun m => if m = n then f m else 0).sum = f n := by
  rw [List.sum_map_eq_nsmul_single n]
  · rw [List.count_eq_one_of_mem h hn]; simp
  · intro m hm _; rw [if_neg hm]

theorem cyc_int (m : ℤ) : cyc m = 1 := by
  unfold cyc
  rw [Complex.exp_eq_one_iff]
  exact ⟨m, by push_cast; ring⟩

/-- The harmonics of two constituents cannot be told apart at a spacing of `Δ` days: their frequencies differ by, or add
up to, a multiple of the sampling frequency. -/
def Aliased (Δ f f' : ℝ) : Prop := ∃ m : ℤ, 24 * Δ * (f - f') = m ∨ 24 * Δ * (f + f') = m

/-- **C101**, conversely: if all samples lie on a grid on which two constituents are aliases of each other, the
coefficients are not determined, and no intervals are ever returned. -/
theorem C101_aliased (R : Ready E t u v) (hI : InvOk E.num.inv) (hnd : opts.keys.Nodup)
    (hm : ∃ x, requested opts "method" = some x ∧ IsStr x "ols") (h : solve E t u v lat opts = .ok c)
    (hinf : readInfer c.opt.infer = .ok none) (hk : AllKept c) (tn : List Fl)
    (htn : normalizeTime E.dt64 t.arr c.opt.epoch = .ok tn) (hst : Steady opts) (hnv : NotVanishing opts c)
    (Δ t₀ : ℝ) (hgrid : ∀ τ, SampleTime tn u.data (v.map Series.data) τ → ∃ j : ℤ, τ = t₀ + j * Δ)
    (i i' : ℕ) (n n' : String) (f f' : ℝ) (hi : c.name[i]? = some n) (hi' : c.name[i']? = some n') (hne : n ≠ n')
    (hfi : c.frq[i]? = some f) (hfi' : c.frq[i']? = some f') (hal : Aliased Δ f f') :
    ¬ Separated c none v.isSome (SampleTime tn u.data (v.map Series.data)) ∧ c.ci = none := by
  have key : ¬ Separated c none v.isSome (SampleTime tn u.data (v.map Series.data)) := by
    intro hsep
    obtain ⟨e1, e2, e3⟩ := permute_aligned h
    obtain ⟨opt, p, tn', constit, m, W, rf, full, o, ind, F⟩ := solve_facts R h
    have hco := F.copt
    subst hco
    obtain ⟨f1, f2, f3⟩ := steady_flags hnd F.hopt hst
    have hstep : ∀ (i : ℕ) (n : String) (f : ℝ), c.name[i]? = some n → c.frq[i]? = some f →
        harmonic c n t₀ ≠ 0 ∧ ∀ j : ℤ, harmonic c n (t₀ + j * Δ) = harmonic c n t₀ * cyc (j * (24 * Δ * f)) := by
      intro i n f hi hf
      rw [e1, List.getElem?_map, Option.map_eq_some_iff] at hi
      obtain ⟨k, hk, rfl⟩ := hi
      rw [e2, List.getElem?_map, hk, Option.map_some, Option.some.injEq] at hf
      subst hf
      have hk' : k < 146 := e3 _ (List.mem_of_getElem? hk)
      unfold harmonic
      simp only [nameBasis_nameAt _ _ _ _ hk']
      refine ⟨utE_steady_ne _ _ _ _ _ _ ?_, fun j => ?_⟩
      · rcases hnv with hn | ⟨g1, g2⟩
        · exact .inl (f3 hn)
        · refine .inr ⟨g1, hk', g2 _ ?_⟩
          rw [e1]; exact List.mem_map_of_mem (List.mem_of_getElem? hk)
      · rw [utE_step _ f1 f2]
        unfold cyc
        congr 4
        ring
    obtain ⟨z1, s1⟩ := hstep i n f hi hfi
    obtain ⟨z2, s2⟩ := hstep i' n' f' hi' hfi'
    have hn := List.mem_of_getElem? hi
    have hn' := List.mem_of_getElem? hi'
    have hadd : ∀ x y, cyc (x + y) = cyc x * cyc y := fun x y => by
      unfold cyc; rw [← Complex.exp_add]; congr 1; push_cast; ring
    obtain ⟨m, hal | hal⟩ := hal
    · obtain ⟨-, -, h3⟩ := hsep.indep (fun m => (if m = n then 1 / harmonic c m t₀ else 0) + if m = n' then -1 / harmonic c m t₀ else 0)
        (fun _ => 0) 0 0 ⟨(fun _ h => by cases h), (fun _ h => by cases h)⟩ (fun _ => rfl) (by
          intro τ hτ
          obtain ⟨j, rfl⟩ := hgrid τ hτ
          unfold rotaryCurve
          have : ∀ m, harmonic c m (t₀ + j * Δ) * ((if m = n then 1 / harmonic c m t₀ else 0) +
              if m = n' then -1 / harmonic c m t₀ else 0) + conj (harmonic c m (t₀ + j * Δ)) * 0 =
              (if m = n then harmonic c m (t₀ + j * Δ) / harmonic c m t₀ else 0) +
              if m = n' then -(harmonic c m (t₀ + j * Δ) / harmonic c m t₀) else 0 := by
            intro m; split <;> split <;> ring
          simp only [this]
          rw [List.sum_map_add, sum_single hsep.names hn, sum_single hsep.names hn', s1, s2, mul_div_cancel_left₀ _ z1,
            mul_div_cancel_left₀ _ z2, show (j : ℝ) * (24 * Δ * f) = ((j * m : ℤ) : ℝ) + j * (24 * Δ * f') by
              push_cast; rw [← hal]; ring, hadd, cyc_int]
          ring)
      have := (h3 n hn).1
      simp only [if_true, if_neg hne, add_zero] at this
      exact z1 (by simpa using this)
    · obtain ⟨-, -, h3⟩ := hsep.indep (fun m => if m = n then 1 / harmonic c m t₀ else 0)
        (fun m => if m = n' then -1 / conj (harmonic c m t₀) else 0) 0 0 ⟨(fun _ h => by cases h), (fun _ h => by cases h)⟩ (fun _ => rfl) (by
          intro τ hτ
          obtain ⟨j, rfl⟩ := hgrid τ hτ
          unfold rotaryCurve
          have : ∀ m, harmonic c m (t₀ + j * Δ) * (if m = n then 1 / harmonic c m t₀ else 0) +
              conj (harmonic c m (t₀ + j * Δ)) * (if m = n' then -1 / conj (harmonic c m t₀) else 0) =
              (if m = n then harmonic c m (t₀ + j * Δ) / harmonic c m t₀ else 0) +
              if m = n' then -conj (harmonic c m (t₀ + j * Δ) / harmonic c m t₀) else 0 := by
            intro m; rw [map_div₀]; split <;> split <;> ring
          simp only [this]
          rw [List.sum_map_add, sum_single hsep.names hn, sum_single hsep.names hn', s1, s2, mul_div_cancel_left₀ _ z1,
            mul_div_cancel_left₀ _ z2, conj_cyc, show (j : ℝ) * (24 * Δ * f) = ((j * m : ℤ) : ℝ) + -(j * (24 * Δ * f')) by
              push_cast; rw [← hal]; ring, hadd, cyc_int]
          ring)
      have := (h3 n hn).1
      simp only [if_true] at this
      exact z1 (by simpa using this)
  refine ⟨key, ?_⟩
  by_contra hci
  exact key (C72_needed R hI hnd hm h hinf hk htn hci).separated

end

end

end UTide.Props
