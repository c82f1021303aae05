import Verif.Props.JoinProps

/-!
# Constituents that are orthogonal over the samples do not influence each other: C126
-/

namespace UTide.Props

noncomputable section

open Classical

local notation "conj" => starRingEnd ℂ

/-! ## Specification -/

/-- Over the usable samples of a record the harmonic `n` is orthogonal to constants, to the trend if one is fitted, and
to the harmonics of the constituents `ns`, turning in both directions. -/
structure OrthogonalOver (c : Coef) (tn : List Fl) (u : Series) (v : Option Series) (ns : List String) (n : String) : Prop where
  constant : ((sampleTimes tn u v).map fun τ => harmonic c n τ).sum = 0
  trend : c.opt.notrend = false → ((sampleTimes tn u v).map fun τ : ℝ => (τ : ℂ) * harmonic c n τ).sum = 0
  same : ∀ k ∈ ns, ((sampleTimes tn u v).map fun τ => conj (harmonic c k τ) * harmonic c n τ).sum = 0
  opposite : ∀ k ∈ ns, ((sampleTimes tn u v).map fun τ => harmonic c k τ * harmonic c n τ).sum = 0

/-! ## Lemmas -/

/-- Orthogonality of two functions over a list of times. -/
def Perp (L : List ℝ) (f g : ℝ → ℂ) : Prop := (L.map fun τ => conj (f τ) * g τ).sum = 0

theorem list_sum_add {α : Type} (l : List α) (f g : α → ℂ) :
    (l.map fun x => f x + g x).sum = (l.map f).sum + (l.map g).sum := by
  induction l with
  | nil => simp
  | cons a l ih => simp only [List.map_cons, List.sum_cons, ih]; ring

theorem list_sum_mul {α : Type} (l : List α) (k : ℂ) (f : α → ℂ) : (l.map fun x => k * f x).sum = k * (l.map f).sum := by
  induction l with
  | nil => simp
  | cons a l ih => simp only [List.map_cons, List.sum_cons, ih]; ring

theorem list_sum_conj {α : Type} (l : List α) (f : α → ℂ) : conj (l.map f).sum = (l.map fun x => conj (f x)).sum := by
  induction l with
  | nil => simp
  | cons a l ih => simp only [List.map_cons, List.sum_cons, map_add, ih]

theorem Perp.symm {L : List ℝ} {f g : ℝ → ℂ} (h : Perp L f g) : Perp L g f := by
  unfold Perp at h ⊢
  have := congrArg conj h
  rw [list_sum_conj, map_zero] at this
  rw [← this]
  congr 1
  refine List.map_congr_left fun τ _ => ?_
  rw [map_mul, Complex.conj_conj, mul_comm]

theorem Perp.add {L : List ℝ} {f g g' : ℝ → ℂ} (h : Perp L f g) (h' : Perp L f g') : Perp L f fun τ => g τ + g' τ := by
  unfold Perp at h h' ⊢
  simp only [mul_add]
  rw [list_sum_add, h, h', add_zero]

theorem Perp.mul {L : List ℝ} {f g : ℝ → ℂ} (h : Perp L f g) (k : ℂ) : Perp L f fun τ => g τ * k := by
  unfold Perp at h ⊢
  have : (fun τ => conj (f τ) * (g τ * k)) = fun τ => k * (conj (f τ) * g τ) := by funext τ; ring
  rw [this, list_sum_mul, h, mul_zero]

theorem Perp.sum {L : List ℝ} {f : ℝ → ℂ} {α : Type} (l : List α) (g : α → ℝ → ℂ) (h : ∀ x ∈ l, Perp L f (g x)) :
    Perp L f fun τ => (l.map fun x => g x τ).sum := by
  induction l with
  | nil => unfold Perp; simp
  | cons a l ih =>
    simp only [List.map_cons, List.sum_cons]
    exact (h a (by simp)).add (ih fun x hx => h x (by simp [hx]))

/-- A curve is orthogonal to whatever its parts are orthogonal to. -/
theorem perp_rotaryCurve {L : List ℝ} {f : ℝ → ℂ} (c : Coef) (P M : String → ℂ) (mean slope : ℂ)
    (h1 : Perp L f fun _ => 1) (h2 : slope ≠ 0 → Perp L f fun τ => (τ : ℂ))
    (h3 : ∀ n ∈ c.name, Perp L f (harmonic c n) ∨ P n = 0) (h4 : ∀ n ∈ c.name, Perp L f (fun τ => conj (harmonic c n τ)) ∨ M n = 0) :
    Perp L f (rotaryCurve c P M mean slope) := by
  have zero : ∀ g : ℝ → ℂ, Perp L f fun τ => g τ * 0 := by intro g; unfold Perp; simp
  have e : rotaryCurve c P M mean slope = fun τ : ℝ => ((1 * (mean - slope * (c.reftime : ℂ)) + (τ : ℂ) * slope) +
      (c.name.map fun n => harmonic c n τ * P n + conj (harmonic c n τ) * M n).sum) := by
    funext τ
    unfold rotaryCurve
    push_cast
    ring
  rw [e]
  refine Perp.add (Perp.add (h1.mul _) ?_) (Perp.sum c.name (fun n τ => harmonic c n τ * P n + conj (harmonic c n τ) * M n)
    fun n hn => Perp.add ?_ ?_)
  · by_cases hs : slope = 0
    · rw [hs]; exact zero _
    · exact (h2 hs).mul _
  · rcases h3 n hn with h | h
    · exact h.mul _
    · rw [h]; exact zero _
  · rcases h4 n hn with h | h
    · exact h.mul _
    · rw [h]; exact zero _

theorem conj_rotaryCurve (c : Coef) (P M : String → ℂ) (mean slope : ℂ) (τ : ℝ) :
    conj (rotaryCurve c P M mean slope τ) =
      rotaryCurve c (fun n => conj (M n)) (fun n => conj (P n)) (conj mean) (conj slope) τ := by
  unfold rotaryCurve
  rw [map_add, map_add, map_mul, Complex.conj_ofReal, list_sum_conj]
  congr 3
  refine List.map_congr_left fun n _ => ?_
  rw [map_add, map_mul, map_mul, Complex.conj_conj, add_comm]

theorem OrthogonalOver.perp {c : Coef} {tn : List Fl} {u : Series} {v : Option Series} {n : String} (c' : Coef)
    (hc : c'.opt.notrend = c.opt.notrend) (hh : ∀ n τ, harmonic c' n τ = harmonic c n τ)
    (h : OrthogonalOver c tn u v c'.name n) (Q N : String → ℂ) (a b : ℂ) (hb : c'.opt.notrend = true → b = 0) :
    Perp (sampleTimes tn u v) (rotaryCurve c' Q N a b) (harmonic c n) := by
  refine (perp_rotaryCurve c' Q N a b ?_ ?_ ?_ ?_).symm
  · refine Perp.symm ?_
    unfold Perp
    simpa using h.constant
  · intro hs
    have h0 : c.opt.notrend = false := by
      rw [← hc]; exact Bool.eq_false_iff.2 fun e => hs (hb e)
    refine Perp.symm ?_
    unfold Perp
    simpa using h.trend h0
  · intro k hk
    refine .inl (Perp.symm ?_)
    unfold Perp
    simpa [hh] using h.same k hk
  · intro k hk
    refine .inl (Perp.symm ?_)
    unfold Perp
    simpa [hh] using h.opposite k hk

/-- A curve of the kept constituents is orthogonal to one of the others. -/
theorem perp_split {c : Coef} {tn : List Fl} {u : Series} {v : Option Series} (c' : Coef)
    (hc : c'.opt.notrend = c.opt.notrend) (hh : ∀ n τ, harmonic c' n τ = harmonic c n τ)
    (h : ∀ n ∈ c.name, n ∉ c'.name → OrthogonalOver c tn u v c'.name n) (Q N : String → ℂ) (a b : ℂ)
    (hb : c'.opt.notrend = true → b = 0) (P M : String → ℂ) (hP : ∀ n ∈ c'.name, P n = 0 ∧ M n = 0) :
    Perp (sampleTimes tn u v) (rotaryCurve c' Q N a b) fun τ =>
      (c.name.map fun n => harmonic c n τ * P n + conj (harmonic c n τ) * M n).sum := by
  refine Perp.sum c.name (fun n τ => harmonic c n τ * P n + conj (harmonic c n τ) * M n) fun n hn => ?_
  by_cases hn' : n ∈ c'.name
  · unfold Perp; simp [(hP n hn').1, (hP n hn').2]
  have k1 := (h n hn hn').perp c' hc hh Q N a b hb
  have k2 := (h n hn hn').perp c' hc hh (fun n => conj (N n)) (fun n => conj (Q n)) (conj a) (conj b)
    (fun e => by rw [hb e, map_zero])
  refine (k1.mul _).add (Perp.mul ?_ _)
  unfold Perp at k2 ⊢
  simp only [← conj_rotaryCurve, Complex.conj_conj] at k2
  have := congrArg conj k2
  rw [list_sum_conj, map_zero] at this
  simpa using this

theorem away_split {L : List (ℝ × ℂ)} (K D A : ℝ → ℂ) (h : Perp (L.map Prod.fst) (fun τ => K τ - A τ) D) :
    (L.map fun s => ‖s.2 - K s.1‖ ^ 2).sum - (L.map fun s => ‖s.2 - A s.1‖ ^ 2).sum =
      (L.map fun s => ‖s.2 - (K s.1 + D s.1)‖ ^ 2).sum - (L.map fun s => ‖s.2 - (A s.1 + D s.1)‖ ^ 2).sum := by
  have key : ∀ M : List (ℝ × ℂ), (M.map fun s => ‖s.2 - K s.1‖ ^ 2).sum - (M.map fun s => ‖s.2 - A s.1‖ ^ 2).sum -
      ((M.map fun s => ‖s.2 - (K s.1 + D s.1)‖ ^ 2).sum - (M.map fun s => ‖s.2 - (A s.1 + D s.1)‖ ^ 2).sum) =
      -2 * (((M.map Prod.fst).map fun τ => conj (K τ - A τ) * D τ).sum).re := by
    intro M
    induction M with
    | nil => simp
    | cons s M ih =>
      simp only [List.map_cons, List.sum_cons, Complex.add_re]
      have e : ‖s.2 - K s.1‖ ^ 2 - ‖s.2 - A s.1‖ ^ 2 - (‖s.2 - (K s.1 + D s.1)‖ ^ 2 - ‖s.2 - (A s.1 + D s.1)‖ ^ 2) =
          -2 * (conj (K s.1 - A s.1) * D s.1).re := by
        simp only [← Complex.normSq_eq_norm_sq, Complex.normSq_apply, Complex.mul_re, Complex.conj_re, Complex.conj_im,
          Complex.sub_re, Complex.sub_im, Complex.add_re, Complex.add_im]
        ring
      linarith
  have h' : ((L.map Prod.fst).map fun τ => conj (K τ - A τ) * D τ).sum = 0 := h
  have := key L
  rw [h'] at this
  simp at this
  linarith

/-! ## C126 -/

/-- **C126.** `c` and `c'` are ordinary least-squares analyses of the same record without inference, `c'` with only some
of the constituents of `c`. If over the samples the constituents left out are orthogonal to those kept, to constants
and (if a trend is fitted) to time, then leaving them out changes nothing else: the ellipses of the constituents kept,
mean and trend are the same in both. -/
theorem C126_uncorrelated {E : Env} {lat : Option ℝ} {opts opts' : Dict PyVal} {t : TimeArg} {u : Series}
    {v : Option Series} {tn : List Fl} {c c' : Coef} (H : OlsRun E lat opts none t u v tn c)
    (H' : OlsRun E lat opts' none t u v tn c') (hsub : ∀ n ∈ c'.name, n ∈ c.name)
    (hsame : ∀ k ∈ ["nodal", "phase", "epoch"], requested opts k = requested opts' k)
    (htr : c'.opt.notrend = c.opt.notrend) (hun : ∀ n ∈ c.name, n ∉ c'.name → OrthogonalOver c tn u v c'.name n)
    (hsep : Separated c' none v.isSome (SampleTime tn u.data (v.map Series.data))) : SameTide c c' := by
  have hed : c'.reftime = c.reftime ∧ (∀ n τ, harmonic c' n τ = harmonic c n τ) ∧
      samples tn (sampleValues u.data (v.map Series.data)) = usable tn u.data (v.map Series.data) := by
    obtain ⟨p, constit, m, W, rf, full, o, ind, F, -⟩ := run_facts H.ready H.keys H.ols H.returned none
      H.infer H.exact tn H.time
    obtain ⟨p', constit', m', W', rf', full', o', ind', F', -⟩ := run_facts H'.ready H'.keys H'.ols H'.returned none
      H'.infer H'.exact tn H'.time
    obtain ⟨e1, -⟩ := getOpt_fields opts opts' H.keys H'.keys _ _ _ F.hopt F'.hopt
    have hfl := e1 (hsame _ (by simp)) (hsame _ (by simp))
    have hed : p'.ed = p.ed := Except.ok.inj (F'.prep.init.edit.symm.trans F.prep.init.edit)
    have hlat : p'.lat = p.lat := Option.some.inj (F'.prep.init.hlat.symm.trans F.prep.init.hlat)
    refine ⟨by rw [F.creftime, F'.creftime, hed], fun n τ => ?_, (usable_samples _ _ _ (F.samples H.ready).1).symm⟩
    rw [F.harmonic_eq, F'.harmonic_eq, hed, hlat, hfl]
  obtain ⟨href, hh, hus⟩ := hed
  obtain ⟨P, M, mean, slope, hT, hs, hz, hell, hlev, -, hb⟩ := H.best
  have free : ∀ P M, TiedRotary none v.isSome P M := fun P M => ⟨by simp, by simp⟩
  -- curves of the small model among those of the large one
  have hsplit : ∀ (Q N : String → ℂ) (a b : ℂ) (τ : ℝ),
      rotaryCurve c (fun n => if n ∈ c'.name then Q n else P n) (fun n => if n ∈ c'.name then N n else M n) a b τ =
      rotaryCurve c' Q N a b τ + (c.name.map fun n => harmonic c n τ * (if n ∈ c'.name then 0 else P n) +
        conj (harmonic c n τ) * (if n ∈ c'.name then 0 else M n)).sum := by
    intro Q N a b τ
    unfold rotaryCurve
    rw [href]
    have e1 : (c'.name.map fun n => harmonic c' n τ * Q n + conj (harmonic c' n τ) * N n).sum =
        (c.name.map fun n => harmonic c n τ * (if n ∈ c'.name then Q n else 0) +
          conj (harmonic c n τ) * (if n ∈ c'.name then N n else 0)).sum := by
      rw [sum_subset H'.distinct H.distinct hsub _ (fun n hn => by simp [hn])]
      congr 1
      refine List.map_congr_left fun n hn => ?_
      rw [hh]; simp [hn]
    rw [e1]
    have e2 : (c.name.map fun n => harmonic c n τ * (if n ∈ c'.name then Q n else P n) +
        conj (harmonic c n τ) * (if n ∈ c'.name then N n else M n)) =
        c.name.map fun n => (harmonic c n τ * (if n ∈ c'.name then Q n else 0) +
          conj (harmonic c n τ) * (if n ∈ c'.name then N n else 0)) +
          (harmonic c n τ * (if n ∈ c'.name then 0 else P n) + conj (harmonic c n τ) * (if n ∈ c'.name then 0 else M n)) := by
      refine List.map_congr_left fun n _ => ?_
      split <;> ring
    rw [e2, list_sum_add]
    ring
  have hself : ∀ τ, rotaryCurve c P M mean slope τ = rotaryCurve c' P M mean slope τ +
      (c.name.map fun n => harmonic c n τ * (if n ∈ c'.name then 0 else P n) +
        conj (harmonic c n τ) * (if n ∈ c'.name then 0 else M n)).sum := by
    intro τ
    rw [← hsplit]
    congr 1 <;> (funext n; split <;> rfl)
  obtain ⟨k1, k2⟩ := H'.unique hsep P M mean slope (free _ _) (by rw [htr]; exact hs) (by
    intro P' M' mean' slope' _ hs'
    have h1 := hb (fun n => if n ∈ c'.name then P' n else P n) (fun n => if n ∈ c'.name then M' n else M n) mean' slope'
      (free _ _) (by rw [← htr]; exact hs')
    have hperp := perp_split c' htr hh hun (fun n => P' n - P n) (fun n => M' n - M n) (mean' - mean) (slope' - slope)
      (fun e => by rw [hs' e, hs (by rw [← htr]; exact e), sub_zero]) (fun n => if n ∈ c'.name then 0 else P n)
      (fun n => if n ∈ c'.name then 0 else M n) (fun n hn => by simp [hn])
    have e := away_split (L := usable tn u.data (v.map Series.data)) (rotaryCurve c' P' M' mean' slope')
      (fun τ => (c.name.map fun n => harmonic c n τ * (if n ∈ c'.name then 0 else P n) +
        conj (harmonic c n τ) * (if n ∈ c'.name then 0 else M n)).sum) (rotaryCurve c' P M mean slope) (by
        simp only [rotaryCurve_sub]; exact hperp)
    unfold away at h1 ⊢
    rw [hus] at h1 ⊢
    simp only [hself, hsplit] at h1
    linarith)
  have hre : ∀ τ, mean + slope * ((τ - c'.reftime : ℝ) : ℂ) = level c τ := by
    intro τ; rw [hlev, href]
  constructor
  · intro i j n hi hj
    obtain ⟨e, he, p1, m1⟩ := hell i n hi
    have hnf := H.normal.1 i n e hi he
    rw [p1, m1] at hnf
    rw [k1 j n hj, he, ← hnf]
  · intro τ
    rw [k2, hre]
    cases hv : v.isSome with
    | true => rfl
    | false => exact (H.normal.2 hv τ).symm

end

end UTide.Props
