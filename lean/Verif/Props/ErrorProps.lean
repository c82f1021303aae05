import Verif.Props.WithheldProps
import Verif.Props.JoinProps
import Verif.Props.SuperProps
import Verif.Props.FourierExample

/-!
# Where the noise of a record goes: C141
-/

namespace UTide.Props

noncomputable section

open Classical

local notation "conj" => starRingEnd ℂ

/-! ## Specification -/

/-- The sum of `g τ x z` over the samples `x` of a record, taken at time `τ`, with the reconstruction `z` there. -/
def overSamples (tn : List Fl) (u : Series) (v : Option Series) (r : List (Option ℂ)) (g : ℝ → ℂ → ℂ → ℝ) : ℝ :=
  sampleSum tn (sampleValues u.data (v.map Series.data)) r g

/-! ## Lemmas -/

section
variable {E : Env} {lat : Option ℝ} {opts : Dict PyVal} {sp : Option InferSpec} {t : TimeArg} {u : Series}
  {v : Option Series} {tn : List Fl} {c : Coef}

/-- The reconstruction is a curve of the model, with the coefficients of the result. -/
theorem OlsRun.curve (H : OlsRun E lat opts sp t u v tn c) (a : RecArgs) (hae : a.epoch = c.opt.epoch)
    (hall : RecArgs.Everything a) (r : List (Option ℂ)) (hr : reconstruct E t.arr c a = .ok r) :
    ∃ (P M : String → ℂ) (mean slope : ℂ), TiedRotary sp v.isSome P M ∧ (c.opt.notrend = true → slope = 0) ∧
      (∀ i n, c.name[i]? = some n → ∃ e, ellipseAt c.ell i = some e ∧ ccw e = P n ∧ cw e = M n) ∧
      (∀ τ, level c τ = mean + slope * ((τ - c.reftime : ℝ) : ℂ)) ∧
      r = tn.map fun x => x.toReal?.map (rotaryCurve c P M mean slope) := by
  obtain ⟨P, M, mean, slope, h1, h2, -, h4, h5, -⟩ := H.best
  refine ⟨P, M, mean, slope, h1, h2, h4, h5, ?_⟩
  rw [predicted H.ready H.keys H.returned H.kept P M h4 a hall E t.arr, hae, H.time] at hr
  refine (Except.ok.inj hr).symm.trans ?_
  refine congrArg (fun f : ℝ → ℂ => tn.map fun x => x.toReal?.map f) (funext fun τ => ?_)
  rw [h5]
  unfold rotaryCurve
  ring

/-! ## C141 -/

/-- **C141**: take any curve `K` of the model as the true tide. The squared differences of the samples to it (the
noise) are those of the samples to the reconstruction (the residual) plus those of the reconstruction to it (the error
of the analysis). -/
theorem C141_split (H : OlsRun E lat opts sp t u v tn c) (a : RecArgs) (hae : a.epoch = c.opt.epoch)
    (hall : RecArgs.Everything a) (r : List (Option ℂ)) (hr : reconstruct E t.arr c a = .ok r)
    (P M : String → ℂ) (mean slope : ℂ) (hT : TiedRotary sp v.isSome P M) (hs : c.opt.notrend = true → slope = 0) :
    overSamples tn u v r (fun τ x _ => ‖x - rotaryCurve c P M mean slope τ‖ ^ 2) =
      overSamples tn u v r (fun _ x z => ‖x - z‖ ^ 2) +
      overSamples tn u v r (fun τ _ z => ‖z - rotaryCurve c P M mean slope τ‖ ^ 2) := by
  obtain ⟨P₀, M₀, m₀, s₀, h1, h2, -, -, rfl⟩ := H.curve a hae hall r hr
  have key := C78_orthogonal E t u v lat opts H.ready H.keys H.ols c H.returned H.kept sp H.infer H.exact tn H.time a hae
    hall _ hr _ _ (m₀ - mean) (s₀ - slope) (h1.diff hT) (fun h => by rw [h2 h, hs h, sub_zero])
  unfold overSamples
  rw [sampleSum_samples] at key ⊢
  rw [sampleSum_samples, sampleSum_samples]
  simp only [← rotaryCurve_sub] at key
  generalize samples tn (sampleValues u.data (v.map Series.data)) = us at key ⊢
  have k2 : (us.map fun s => 2 * (conj (rotaryCurve c P₀ M₀ m₀ s₀ s.1 - rotaryCurve c P M mean slope s.1) *
      (s.2 - rotaryCurve c P₀ M₀ m₀ s₀ s.1)).re).sum = 0 := by
    have := congrArg Complex.re key
    rw [List.sum_map_mul_left]
    rw [Complex.zero_re] at this
    rw [← mul_zero (2 : ℝ), ← this]
    congr 1
    clear key this
    induction us with
    | nil => simp
    | cons s us ih =>
      simp only [List.map_cons, List.sum_cons, Complex.add_re]
      rw [ih]
  rw [← add_zero ((us.map _).sum + _), ← k2, ← List.sum_map_add, ← List.sum_map_add]
  refine congrArg List.sum (List.map_congr_left fun s _ => ?_)
  generalize rotaryCurve c P₀ M₀ m₀ s₀ s.1 = z
  generalize rotaryCurve c P M mean slope s.1 = k
  rw [← Complex.normSq_eq_norm_sq, ← Complex.normSq_eq_norm_sq, ← Complex.normSq_eq_norm_sq, Complex.normSq_apply,
    Complex.normSq_apply, Complex.normSq_apply]
  simp only [Complex.sub_re, Complex.sub_im, Complex.mul_re, Complex.conj_re, Complex.conj_im]
  ring

theorem overSamples_nonneg (r : List (Option ℂ)) (g : ℝ → ℂ → ℂ → ℝ) (hg : ∀ τ x z, 0 ≤ g τ x z) :
    0 ≤ overSamples tn u v r g := by
  unfold overSamples sampleSum
  refine List.sum_nonneg fun y hy => ?_
  rw [List.mem_iff_getElem?] at hy
  obtain ⟨i, hi⟩ := hy
  rw [List.getElem?_zipWith] at hi
  split at hi
  · cases hi
    split
    · exact hg _ _ _
    · exact le_rfl
  · cases hi

/-- **C141**, elevations: the noise is what an elevation record has beyond a tide of the constituents analysed (with
mean and trend as fitted). The fitted tide is nearer to the true one than the data are, and the residual is smaller
than the noise, by exactly as much. -/
theorem C141_scalar {E : Env} {lat : Option ℝ} {opts : Dict PyVal} {sp : Option InferSpec} {t : TimeArg} {u : Series}
    {tn : List Fl} {c : Coef} (H : OlsRun E lat opts sp t u none tn c) (a : RecArgs) (hae : a.epoch = c.opt.epoch)
    (hall : RecArgs.Everything a) (r : List (Option ℂ)) (hr : reconstruct E t.arr c a = .ok r)
    (A g : String → ℝ) (mean slope : ℝ) (hT : TiedScalar sp A g) (hs : c.opt.notrend = true → slope = 0) :
    overSamples tn u none r (fun τ _ z => ‖z - scalarCurve c A g mean slope τ‖ ^ 2) =
      overSamples tn u none r (fun τ x _ => ‖x - scalarCurve c A g mean slope τ‖ ^ 2) -
      overSamples tn u none r (fun _ x z => ‖x - z‖ ^ 2) ∧
    overSamples tn u none r (fun τ _ z => ‖z - scalarCurve c A g mean slope τ‖ ^ 2) ≤
      overSamples tn u none r (fun τ x _ => ‖x - scalarCurve c A g mean slope τ‖ ^ 2) := by
  have h := C141_split H a hae hall r hr _ _ mean slope (tiedScalar_rotary hT) (fun h => by rw [hs h]; simp)
  simp only [← scalar_curve_rotary] at h
  have := overSamples_nonneg (tn := tn) (u := u) (v := none) r (fun _ x z => ‖x - z‖ ^ 2) fun _ _ _ => sq_nonneg _
  constructor <;> linarith

/-- **C141**, currents. -/
theorem C141_vector {E : Env} {lat : Option ℝ} {opts : Dict PyVal} {sp : Option InferSpec} {t : TimeArg} {u w : Series}
    {tn : List Fl} {c : Coef} (H : OlsRun E lat opts sp t u (some w) tn c) (a : RecArgs) (hae : a.epoch = c.opt.epoch)
    (hall : RecArgs.Everything a) (r : List (Option ℂ)) (hr : reconstruct E t.arr c a = .ok r)
    (e : String → Ell) (mean slope : ℂ) (hT : TiedRotary sp true (fun n => ccw (e n)) (fun n => cw (e n)))
    (hs : c.opt.notrend = true → slope = 0) :
    overSamples tn u (some w) r (fun τ _ z => ‖z - vectorCurve c e mean slope τ‖ ^ 2) =
      overSamples tn u (some w) r (fun τ x _ => ‖x - vectorCurve c e mean slope τ‖ ^ 2) -
      overSamples tn u (some w) r (fun _ x z => ‖x - z‖ ^ 2) ∧
    overSamples tn u (some w) r (fun τ _ z => ‖z - vectorCurve c e mean slope τ‖ ^ 2) ≤
      overSamples tn u (some w) r (fun τ x _ => ‖x - vectorCurve c e mean slope τ‖ ^ 2) := by
  have h := C141_split H a hae hall r hr _ _ mean slope hT hs
  simp only [← vector_curve_rotary] at h
  have := overSamples_nonneg (tn := tn) (u := u) (v := some w) r (fun _ x z => ‖x - z‖ ^ 2) fun _ _ _ => sq_nonneg _
  constructor <;> linarith

/-- **C141**, single constituents: if over the samples every curve of the model has at least `κ` times the energy of its
part at constituent `n`, the error of the ellipse found for `n` is at most the energy of the noise over `κ`. -/
theorem C141_constituent (H : OlsRun E lat opts sp t u v tn c) (n : String) (i : ℕ) (hi : c.name[i]? = some n) (κ : ℝ)
    (hκ : ∀ (P M : String → ℂ) (mean slope : ℂ), TiedRotary sp v.isSome P M → (c.opt.notrend = true → slope = 0) →
      κ * (‖P n‖ ^ 2 + ‖M n‖ ^ 2) ≤
        ((samples tn (sampleValues u.data (v.map Series.data))).map fun s => ‖rotaryCurve c P M mean slope s.1‖ ^ 2).sum)
    (P M : String → ℂ) (mean slope : ℂ) (hT : TiedRotary sp v.isSome P M) (hs : c.opt.notrend = true → slope = 0) :
    ∃ e, ellipseAt c.ell i = some e ∧ κ * (‖ccw e - P n‖ ^ 2 + ‖cw e - M n‖ ^ 2) ≤
      ((samples tn (sampleValues u.data (v.map Series.data))).map fun s =>
        ‖s.2 - rotaryCurve c P M mean slope s.1‖ ^ 2).sum := by
  have hpred : ∃ r, reconstruct E t.arr c ⟨c.opt.epoch, false, none, 0, 0⟩ = .ok r := by
    obtain ⟨P₀, M₀, -, -, -, -, -, h4, -⟩ := H.best
    rw [predicted H.ready H.keys H.returned H.kept P₀ M₀ h4 _ ⟨rfl, rfl, rfl⟩ E t.arr]
    dsimp only
    rw [H.time]
    exact ⟨_, rfl⟩
  obtain ⟨r, hr⟩ := hpred
  obtain ⟨P₀, M₀, m₀, s₀, h1, h2, h3, -, hr'⟩ := H.curve _ rfl ⟨rfl, rfl, rfl⟩ r hr
  obtain ⟨e, he, e1, e2⟩ := h3 i n hi
  refine ⟨e, he, ?_⟩
  have hsplit := C141_split H _ rfl ⟨rfl, rfl, rfl⟩ r hr P M mean slope hT hs
  have hnn := overSamples_nonneg (tn := tn) (u := u) (v := v) r (fun _ x z => ‖x - z‖ ^ 2) fun _ _ _ => sq_nonneg _
  have hb := hκ _ _ (m₀ - mean) (s₀ - slope) (h1.diff hT) (fun h => by rw [h2 h, hs h, sub_zero])
  simp only [← rotaryCurve_sub] at hb
  subst hr'
  unfold overSamples at hsplit hnn
  rw [sampleSum_samples, sampleSum_samples, sampleSum_samples] at hsplit
  rw [sampleSum_samples] at hnn
  rw [e1, e2]
  linarith

/-- Where a harmonic averages out against the rest of the model, its part has its full energy in every curve. -/
theorem AveragesOut.bessel {n : String} {N : ℝ} (A : AveragesOut c tn u v n N) (hd : c.name.Nodup) (hn : n ∈ c.name)
    (P M : String → ℂ) (mean slope : ℂ) (hs : c.opt.notrend = true → slope = 0) :
    N * (‖P n‖ ^ 2 + ‖M n‖ ^ 2) ≤ ((sampleTimes tn u v).map fun τ => ‖rotaryCurve c P M mean slope τ‖ ^ 2).sum := by
  have inner : ∀ (P' M' : String → ℂ) (mean' slope' : ℂ), (c.opt.notrend = true → slope' = 0) → P' n = P n → M' n = M n →
      ((sampleTimes tn u v).map fun τ => (conj (harmonic c n τ * P n + conj (harmonic c n τ) * M n) *
        rotaryCurve c P' M' mean' slope' τ).re).sum = N * (‖P n‖ ^ 2 + ‖M n‖ ^ 2) := by
    intro P' M' mean' slope' hs' hP hM
    obtain ⟨h1, h2⟩ := A.curve hd hn P' M' mean' slope' hs'
    have e : ((sampleTimes tn u v).map fun τ => conj (harmonic c n τ * P n + conj (harmonic c n τ) * M n) *
        rotaryCurve c P' M' mean' slope' τ).sum = ((N * (‖P n‖ ^ 2 + ‖M n‖ ^ 2) : ℝ) : ℂ) := by
      have e1 : (fun τ => conj (harmonic c n τ * P n + conj (harmonic c n τ) * M n) * rotaryCurve c P' M' mean' slope' τ) =
          fun τ => conj (P n) * (conj (harmonic c n τ) * rotaryCurve c P' M' mean' slope' τ) +
            conj (M n) * (harmonic c n τ * rotaryCurve c P' M' mean' slope' τ) := by
        funext τ
        rw [map_add, map_mul, map_mul, Complex.conj_conj]
        ring
      rw [e1, list_sum_add, list_sum_mul, list_sum_mul, h1, h2, hP, hM]
      push_cast
      rw [← Complex.mul_conj', ← Complex.mul_conj']
      ring
    have := congrArg Complex.re e
    rw [Complex.ofReal_re] at this
    rw [← this]
    clear this e h1 h2
    generalize sampleTimes tn u v = L
    induction L with
    | nil => simp
    | cons a l ih => simp only [List.map_cons, List.sum_cons, Complex.add_re, ih]
  have own : ∀ τ, harmonic c n τ * P n + conj (harmonic c n τ) * M n =
      rotaryCurve c (fun k => if k = n then P n else 0) (fun k => if k = n then M n else 0) 0 0 τ := by
    intro τ
    have z : ∀ (f : String → ℂ) (x : ℂ), (c.name.map fun k => f k * (if k = n then 0 else if k = n then x else 0)) =
        c.name.map fun _ => 0 := by
      intro f x
      refine List.map_congr_left fun k _ => ?_
      by_cases h : k = n <;> simp [h]
    rw [rotaryCurve_single c hd hn]
    unfold rotaryCurve
    rw [list_sum_add, z, z]
    simp
  have i1 := inner P M mean slope hs rfl rfl
  have i2 := inner (fun k => if k = n then P n else 0) (fun k => if k = n then M n else 0) 0 0 (fun _ => rfl) (by simp) (by simp)
  simp only [← own] at i2
  have hnn : 0 ≤ ((sampleTimes tn u v).map fun τ => ‖rotaryCurve c P M mean slope τ -
      (harmonic c n τ * P n + conj (harmonic c n τ) * M n)‖ ^ 2).sum := by
    refine List.sum_nonneg fun y hy => ?_
    obtain ⟨τ, -, rfl⟩ := List.mem_map.1 hy
    positivity
  have hexp : ((sampleTimes tn u v).map fun τ => ‖rotaryCurve c P M mean slope τ -
      (harmonic c n τ * P n + conj (harmonic c n τ) * M n)‖ ^ 2).sum =
      ((sampleTimes tn u v).map fun τ => ‖rotaryCurve c P M mean slope τ‖ ^ 2).sum -
      2 * ((sampleTimes tn u v).map fun τ => (conj (harmonic c n τ * P n + conj (harmonic c n τ) * M n) *
        rotaryCurve c P M mean slope τ).re).sum +
      ((sampleTimes tn u v).map fun τ => (conj (harmonic c n τ * P n + conj (harmonic c n τ) * M n) *
        (harmonic c n τ * P n + conj (harmonic c n τ) * M n)).re).sum := by
    clear i1 i2 hnn own inner
    generalize sampleTimes tn u v = L
    induction L with
    | nil => simp
    | cons τ l ih =>
      simp only [List.map_cons, List.sum_cons, ih]
      generalize harmonic c n τ * P n + conj (harmonic c n τ) * M n = z
      generalize rotaryCurve c P M mean slope τ = k
      rw [← Complex.normSq_eq_norm_sq, ← Complex.normSq_eq_norm_sq, Complex.normSq_apply, Complex.normSq_apply]
      simp only [Complex.sub_re, Complex.sub_im, Complex.mul_re, Complex.conj_re, Complex.conj_im]
      ring
  rw [i1, i2] at hexp
  linarith

/-- **C141**, in an orthogonal design: the squared error of the two rotary parts of an ellipse is at most the energy of
the noise over the number of samples (the sum of squares of the harmonic), whatever the noise is. -/
theorem C141_orthogonal {E : Env} {lat : Option ℝ} {opts : Dict PyVal} {t : TimeArg} {u : Series} {v : Option Series}
    {tn : List Fl} {c : Coef} (H : OlsRun E lat opts none t u v tn c) {n : String} {i : ℕ} {N : ℝ}
    (hi : c.name[i]? = some n) (A : AveragesOut c tn u v n N) (P M : String → ℂ) (mean slope : ℂ)
    (hT : TiedRotary none v.isSome P M) (hs : c.opt.notrend = true → slope = 0) :
    ∃ e, ellipseAt c.ell i = some e ∧ ‖ccw e - P n‖ ^ 2 + ‖cw e - M n‖ ^ 2 ≤
      ((samples tn (sampleValues u.data (v.map Series.data))).map fun s =>
        ‖s.2 - rotaryCurve c P M mean slope s.1‖ ^ 2).sum / N := by
  have hus : samples tn (sampleValues u.data (v.map Series.data)) = usable tn u.data (v.map Series.data) := by
    obtain ⟨p, constit, m, W, rf, full, o, ind, F, -⟩ := run_facts H.ready H.keys H.ols H.returned none
      H.infer H.exact tn H.time
    exact (usable_samples _ _ _ (F.samples H.ready).1).symm
  obtain ⟨e, he, hb⟩ := C141_constituent H n i hi N (fun P M mean slope _ hs => by
    have := A.bessel H.distinct (List.mem_of_getElem? hi) P M mean slope hs
    unfold sampleTimes at this
    rw [List.map_map] at this
    rw [hus]
    exact this) P M mean slope hT hs
  refine ⟨e, he, ?_⟩
  rw [le_div_iff₀ A.pos, mul_comm]
  exact hb

/-- **C141**, in an orthogonal design: no noise can put an amplitude wrong by more than √2 times its root mean square. -/
theorem C141_amplitude {E : Env} {lat : Option ℝ} {opts : Dict PyVal} {t : TimeArg} {u : Series}
    {tn : List Fl} {c : Coef} (H : OlsRun E lat opts none t u none tn c) {n : String} {i : ℕ} {N : ℝ}
    (hi : c.name[i]? = some n) (A : AveragesOut c tn u none n N) (a g : String → ℝ) (mean slope : ℝ)
    (hs : c.opt.notrend = true → slope = 0) (ha : 0 ≤ a n) :
    ∃ e, ellipseAt c.ell i = some e ∧ (e.Lsmaj - a n) ^ 2 ≤
      2 * ((samples tn (sampleValues u.data none)).map fun s =>
        ‖s.2 - ((scalarCurve c a g mean slope s.1 : ℝ) : ℂ)‖ ^ 2).sum / N := by
  obtain ⟨e, he, hb⟩ := C141_orthogonal H hi A _ _ mean slope (tiedScalar_rotary (A := a) (g := g) (by simp [TiedScalar]))
    (fun h => by rw [hs h]; simp)
  simp only [← scalar_curve_rotary, Option.map_none] at hb
  refine ⟨e, he, ?_⟩
  have hnorm := H.normal.1 i n e hi he
  simp only [Option.isSome_none, Bool.false_eq_true, if_false] at hnorm
  have hmin : e.Lsmin = 0 := by rw [hnorm, ell1_eq]
  have hmaj : 0 ≤ e.Lsmaj := by
    rw [hnorm, ell1_eq]
    positivity
  have n1 : ‖ccw e‖ = e.Lsmaj / 2 := by
    unfold ccw
    rw [norm_mul, norm_cisd, Complex.norm_real, hmin]
    simp [abs_of_nonneg hmaj]
  have n2 : ‖cw e‖ = e.Lsmaj / 2 := by
    unfold cw
    rw [norm_mul, norm_cisd, Complex.norm_real, hmin]
    simp [abs_of_nonneg hmaj]
  have n3 : ‖((a n / 2 : ℝ) : ℂ) * cisd (-(g n))‖ = a n / 2 := by
    rw [norm_mul, norm_cisd, Complex.norm_real]
    simp [abs_of_nonneg ha]
  have b1 := abs_norm_sub_norm_le (ccw e) (((a n / 2 : ℝ) : ℂ) * cisd (-(g n)))
  have b2 := abs_norm_sub_norm_le (cw e) (conj (((a n / 2 : ℝ) : ℂ) * cisd (-(g n))))
  rw [RCLike.norm_conj] at b2
  rw [n1, n3] at b1
  rw [n2, n3] at b2
  have q1 := sq_le_sq' (by linarith [abs_nonneg (e.Lsmaj / 2 - a n / 2)]) b1
  have q2 := sq_le_sq' (by linarith [abs_nonneg (e.Lsmaj / 2 - a n / 2)]) b2
  rw [sq_abs] at q1 q2
  rw [mul_div_assoc]
  nlinarith

end

/-! ## Examples -/

/-- An M2 analysis of four samples, taken for a tide of 2 cm with noise. -/
example : ∃ c r, OlsRun idealEnv (some 45) gwOpts none ⟨[4], .float [.fin 0, .fin 0.25, .fin 0.5, .fin 1], []⟩
      ⟨[4], [⟨.fin 1, false⟩, ⟨.fin 5, false⟩, ⟨.fin 3, false⟩, ⟨.fin 2, false⟩]⟩ none
      [.fin 0, .fin 0.25, .fin 0.5, .fin 1] c ∧
    overSamples [.fin 0, .fin 0.25, .fin 0.5, .fin 1]
        ⟨[4], [⟨.fin 1, false⟩, ⟨.fin 5, false⟩, ⟨.fin 3, false⟩, ⟨.fin 2, false⟩]⟩ none r
        (fun τ _ z => ‖z - scalarCurve c (fun _ => 2) (fun _ => 30) 3 0 τ‖ ^ 2) ≤
      overSamples [.fin 0, .fin 0.25, .fin 0.5, .fin 1]
        ⟨[4], [⟨.fin 1, false⟩, ⟨.fin 5, false⟩, ⟨.fin 3, false⟩, ⟨.fin 2, false⟩]⟩ none r
        (fun τ x _ => ‖x - scalarCurve c (fun _ => 2) (fun _ => 30) 3 0 τ‖ ^ 2) := by
  obtain ⟨c, H, -, -⟩ := gw_olsRun [.fin 0, .fin 0.25, .fin 0.5, .fin 1]
    [⟨.fin 1, false⟩, ⟨.fin 5, false⟩, ⟨.fin 3, false⟩, ⟨.fin 2, false⟩] rfl
    (by simp [usable, goodSamples, Fl.toReal?, Cell.value?])
  have hpred : ∃ r, reconstruct idealEnv (.float [.fin 0, .fin 0.25, .fin 0.5, .fin 1]) c ⟨c.opt.epoch, false, none, 0, 0⟩
      = .ok r := by
    obtain ⟨P₀, M₀, -, -, -, -, -, h4, -⟩ := H.best
    rw [predicted H.ready H.keys H.returned H.kept P₀ M₀ h4 _ ⟨rfl, rfl, rfl⟩ idealEnv _]
    dsimp only
    rw [H.time]
    exact ⟨_, rfl⟩
  obtain ⟨r, hr⟩ := hpred
  exact ⟨c, r, H, (C141_scalar H _ rfl ⟨rfl, rfl, rfl⟩ r hr (fun _ => 2) (fun _ => 30) 3 0 (by simp [TiedScalar])
    fun _ => rfl).2⟩

/-- Any eight values 1.5 hours apart, any supposed tide of S2 and S4: how far the amplitude found for S4 can be off. -/
example (ys : Fin 8 → ℝ) (a g : String → ℝ) (mean : ℝ) (ha : 0 ≤ a "S4") : ∃ c i e,
    OlsRun idealEnv (some 45) (listOpts ["S2", "S4"] (.str "frequency")) none octT (octSeries ys) none octTn c ∧
    c.name[i]? = some "S4" ∧ ellipseAt c.ell i = some e ∧
    (e.Lsmaj - a "S4") ^ 2 ≤ 2 * ((samples octTn (sampleValues (octSeries ys).data none)).map fun s =>
      ‖s.2 - ((scalarCurve c a g mean 0 s.1 : ℝ) : ℂ)‖ ^ 2).sum / 8 := by
  obtain ⟨c, hc⟩ := octS_returns ys
  obtain ⟨ho, hn, hr⟩ := octS_opt hc
  have H : OlsRun idealEnv (some 45) (listOpts ["S2", "S4"] (.str "frequency")) none octT (octSeries ys) none octTn c :=
    ⟨octS_ready ys, someOpts_nodup _ _, ⟨_, rfl, .inl rfl⟩, hc, list_kept (octS_ready ys) _ c hc, by rw [ho]; rfl, by simp,
      by rw [ho]; exact oct_times, hn.nodup_iff.2 (by simp)⟩
  have hm : "S4" ∈ c.name := hn.mem_iff.2 (by simp)
  have A := octS_averages ys hn hr (by rw [ho]; exact ⟨rfl, rfl⟩) (by rw [ho]; rfl) hm
  obtain ⟨i, hi⟩ := List.getElem?_of_mem hm
  obtain ⟨e, he, h1⟩ := C141_amplitude H hi A a g mean 0 (fun _ => rfl) ha
  exact ⟨c, i, e, H, hi, he, h1⟩

end

end UTide.Props
