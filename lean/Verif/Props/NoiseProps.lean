import Verif.Lemmas.Noise
import Verif.Props.StableProps
import Verif.Props.SmoothProps
import Verif.Props.WhiteProps
import Verif.Props.ComponentProps
import Verif.Props.SwapProps

/-!
# Random errors in the data: C121
-/

namespace UTide.Props

noncomputable section

open Classical Matrix MeasureTheory

local notation "conj" => starRingEnd ℂ

/-! ## Specification -/

/-- The rotating components of constituent `n` in a result. -/
def ccwOf (c : Coef) (n : String) : ℂ := ((ellipseAt c.ell (c.name.idxOf n)).map ccw).getD 0
def cwOf (c : Coef) (n : String) : ℂ := ((ellipseAt c.ell (c.name.idxOf n)).map cw).getD 0

/-- The mean in a result, as a complex number for currents. -/
def meanLevel (c : Coef) : ℂ := match c.mean with
  | .one m _ => (m : ℂ)
  | .two a b _ => ⟨a, b⟩

/-- Number of parameters that are fitted. -/
def fittedPar (c : Coef) : ℕ := 2 * (c.nNR + c.nR) + 1 + if c.opt.notrend then 0 else 1

/-- Analyses of the same tide with random errors: the outcome `ω` determines the errors `ξ i ω` of the samples `i ∈ U`,
all other samples are missing. The tide has rotating components `P n`, `M n`, a mean and a slope. -/
structure NoisyRuns {Ω : Type} (E : Env) (t : TimeArg) (lat : Option ℝ) (opts : Dict PyVal) (u : Ω → Series)
    (v : Ω → Option Series) (c : Ω → Coef) (sp : Option InferSpec) (tn : List Fl) (td : Bool) (U : Finset ℕ)
    (P M : String → ℂ) (mean slope : ℂ) (ξ : ℕ → Ω → ℂ) : Prop where
  ready : ∀ ω, Ready E t (u ω) (v ω)
  kind : ∀ ω, (v ω).isSome = td
  keys : opts.keys.Nodup
  ols : ∃ x, requested opts "method" = some x ∧ IsStr x "ols"
  returned : ∀ ω, solve E t (u ω) (v ω) lat opts = .ok (c ω)
  kept : ∀ ω, AllKept (c ω)
  infer : ∀ ω, readInfer (c ω).opt.infer = .ok sp
  exact : ∀ s, sp = some s → s.approximate = false
  time : ∀ ω, normalizeTime E.dt64 t.arr (c ω).opt.epoch = .ok tn
  used : ∀ i ∈ U, ∃ τ, tn[i]? = some (.fin τ)
  separated : ∀ ω, Separated (c ω) sp td fun τ => ∃ i ∈ U, tn[i]? = some (.fin τ)
  tied : TiedRotary sp td P M
  flat : ∀ ω, (c ω).opt.notrend = true → slope = 0
  data : ∀ ω i τ, tn[i]? = some (.fin τ) → (sampleValues (u ω).data ((v ω).map Series.data))[i]? =
    some (if i ∈ U then some (rotaryCurve (c ω) P M mean slope τ + ξ i ω) else none)

/-- Errors of mean zero. -/
def Centred {Ω : Type} [MeasurableSpace Ω] (μ : Measure Ω) (U : Finset ℕ) (ξ : ℕ → Ω → ℂ) : Prop :=
  ∀ i ∈ U, Integrable (ξ i) μ ∧ ∫ ω, ξ i ω ∂μ = 0

/-- Errors of variance `σ2`, uncorrelated from sample to sample. -/
def Uncorrelated {Ω : Type} [MeasurableSpace Ω] (μ : Measure Ω) (U : Finset ℕ) (ξ : ℕ → Ω → ℂ) (σ2 : ℝ) : Prop :=
  ∀ i ∈ U, ∀ j ∈ U, Integrable (fun ω => ξ i ω * conj (ξ j ω)) μ ∧
    ∫ ω, ξ i ω * conj (ξ j ω) ∂μ = if i = j then (σ2 : ℂ) else 0

/-! ## The samples, by row -/

/-- Time of row `i`. -/
def timeAt (tn : List Fl) (i : ℕ) : ℝ := (tn[i]?.bind Fl.toReal?).getD 0

theorem samples_range (tn : List Fl) (xs : List (Option ℂ)) : samples tn xs =
    (List.range tn.length).filterMap fun i => (tn[i]?.bind Fl.toReal?).bind fun τ => (xs[i]?.join).map fun x => (τ, x) := by
  induction tn generalizing xs with
  | nil => simp [samples]
  | cons t tn ih =>
    cases xs with
    | nil =>
      have : ∀ i : ℕ, (fun i : ℕ => ((t :: tn)[i]?.bind Fl.toReal?).bind fun τ =>
          ((([] : List (Option ℂ))[i]?).join).map fun x => (τ, x)) i = none := by
        intro i; simp
      rw [List.filterMap_eq_nil_iff.2 fun i _ => this i]
      simp [samples]
    | cons x xs =>
      have h := ih xs
      rw [List.length_cons, List.range_succ_eq_map, List.filterMap_cons, List.filterMap_map]
      simp only [samples, List.zip_cons_cons, List.filterMap_cons] at h ⊢
      rw [h]
      have e : ∀ f g : ℕ → Option (ℝ × ℂ), (∀ i, f i = g i) → ∀ l : List ℕ, l.filterMap f = l.filterMap g := by
        intro f g hfg l; rw [funext hfg]
      simp only [List.getElem?_cons_zero, Option.bind_some, Option.join_some]
      rw [e _ ((fun i : ℕ => ((t :: tn)[i]?.bind Fl.toReal?).bind fun τ => ((x :: xs)[i]?.join).map fun x => (τ, x)) ∘ Nat.succ)]
      intro i
      simp [Function.comp]

theorem samples_rows (tn : List Fl) (xs : List (Option ℂ)) (U : Finset ℕ) (f : ℕ → ℂ)
    (hU : ∀ i ∈ U, ∃ τ, tn[i]? = some (.fin τ))
    (hx : ∀ i τ, tn[i]? = some (.fin τ) → xs[i]? = some (if i ∈ U then some (f i) else none)) :
    samples tn xs = ((List.range tn.length).filter (· ∈ U)).map fun i => (timeAt tn i, f i) := by
  rw [samples_range, ← List.filterMap_eq_map, List.filterMap_filter]
  refine List.filterMap_congr fun i _ => ?_
  by_cases h : i ∈ U
  · obtain ⟨τ, hτ⟩ := hU i h
    rw [hx i τ hτ]
    simp [h, hτ, Fl.toReal?, timeAt]
  · simp only [h, decide_false]
    cases ht : tn[i]? with
    | none => rfl
    | some y =>
      cases y with
      | fin τ => rw [hx i τ ht]; simp [h, Fl.toReal?]
      | _ => simp [Fl.toReal?]

/-! ## Parameters as linear functions of the coefficient vector -/

theorem pick_row (k i : ℕ) (r : ℂ) : ∃ L : Fin k → ℂ, ∀ f : Fin k → ℂ, L ⬝ᵥ f = r * (List.ofFn f).getD i 0 := by
  by_cases h : i < k
  · refine ⟨fun l => if l = ⟨i, h⟩ then r else 0, fun f => ?_⟩
    simp only [dotProduct, ite_mul, zero_mul, Finset.sum_ite_eq', Finset.mem_univ, if_true]
    rw [List.getD_eq_getElem _ _ (by simpa using h), List.getElem_ofFn]
  · refine ⟨0, fun f => ?_⟩
    rw [List.getD_eq_default _ _ (by simpa using Nat.le_of_not_lt h)]
    simp

theorem getD_append_at (a b : List ℂ) (i : ℕ) : (a ++ b).getD (a.length + i) 0 = b.getD i 0 := by
  simp only [List.getD_eq_getElem?_getD]
  rw [List.getElem?_append_right (by omega)]
  congr 2
  omega

theorem getD_append_left' (a b : List ℂ) (i : ℕ) (h : i < a.length) : (a ++ b).getD i 0 = a.getD i 0 := by
  simp only [List.getD_eq_getElem?_getD]
  rw [List.getElem?_append_left h]

theorem getD_map_at {α : Type} (l : List α) (g : α → ℂ) (i : ℕ) (h : i < l.length) : (l.map g).getD i 0 = g l[i] := by
  rw [List.getD_eq_getElem _ _ (by simpa using h), List.getElem_map]

/-- Where a rotating component is found. -/
theorem component_at {tref : ℝ} {sel : Sel} (h : SelAligned tref sel) (trend : Bool) (n : String) (hn : n ∈ sel.name) :
    (∃ (i : ℕ) (r : ℂ), ∀ (P M : String → ℂ) (mean slope : ℂ), TiedBy sel InfCon.Rp P →
      P n = r * (nameCoef sel trend P M mean slope).getD i 0) ∧
    (∃ (i : ℕ) (r : ℂ), ∀ (P M : String → ℂ) (mean slope : ℂ), TiedBy sel InfCon.Rm M →
      M n = r * (nameCoef sel trend P M mean slope).getD i 0) := by
  have key : ∀ (P M : String → ℂ) (mean slope : ℂ),
      (∀ i, (hi : i < sel.nrName.length) → (nameCoef sel trend P M mean slope).getD i 0 = P sel.nrName[i]) ∧
      (∀ i, (hi : i < sel.nrName.length) →
        (nameCoef sel trend P M mean slope).getD (sel.nrName.length + i) 0 = M sel.nrName[i]) ∧
      (∀ i, (hi : i < sel.refs.length) →
        (nameCoef sel trend P M mean slope).getD (sel.nrName.length + (sel.nrName.length + i)) 0 = P sel.refs[i].name) ∧
      (∀ i, (hi : i < sel.refs.length) →
        (nameCoef sel trend P M mean slope).getD (sel.nrName.length + (sel.nrName.length + (sel.refs.length + i))) 0 =
          M sel.refs[i].name) := by
    intro P M mean slope
    unfold nameCoef
    simp only [List.append_assoc]
    refine ⟨fun i hi => ?_, fun i hi => ?_, fun i hi => ?_, fun i hi => ?_⟩
    · rw [getD_append_left' _ _ _ (by simpa using hi), getD_map_at _ _ _ hi]
    · have := getD_append_at (sel.nrName.map P) (sel.nrName.map M ++ (sel.refs.map (fun r => P r.name) ++
        (sel.refs.map (fun r => M r.name) ++ ([mean] ++ if trend then [slope] else [])))) i
      rw [List.length_map] at this
      rw [this, getD_append_left' _ _ _ (by simpa using hi), getD_map_at _ _ _ hi]
    · have h1 := getD_append_at (sel.nrName.map P) (sel.nrName.map M ++ (sel.refs.map (fun r => P r.name) ++
        (sel.refs.map (fun r => M r.name) ++ ([mean] ++ if trend then [slope] else [])))) (sel.nrName.length + i)
      have h2 := getD_append_at (sel.nrName.map M) (sel.refs.map (fun r => P r.name) ++
        (sel.refs.map (fun r => M r.name) ++ ([mean] ++ if trend then [slope] else []))) i
      rw [List.length_map] at h1 h2
      rw [h1, h2, getD_append_left' _ _ _ (by simpa using hi), getD_map_at _ _ _ hi]
    · have h1 := getD_append_at (sel.nrName.map P) (sel.nrName.map M ++ (sel.refs.map (fun r => P r.name) ++
        (sel.refs.map (fun r => M r.name) ++ ([mean] ++ if trend then [slope] else []))))
        (sel.nrName.length + (sel.refs.length + i))
      have h2 := getD_append_at (sel.nrName.map M) (sel.refs.map (fun r => P r.name) ++
        (sel.refs.map (fun r => M r.name) ++ ([mean] ++ if trend then [slope] else []))) (sel.refs.length + i)
      have h3 := getD_append_at (sel.refs.map (fun r => P r.name))
        (sel.refs.map (fun r => M r.name) ++ ([mean] ++ if trend then [slope] else [])) i
      rw [List.length_map] at h1 h2 h3
      rw [h1, h2, h3, getD_append_left' _ _ _ (by simpa using hi), getD_map_at _ _ _ hi]
  rw [h.names, List.mem_append, List.mem_append, List.mem_map, List.mem_flatMap] at hn
  rcases hn with (hn | ⟨r, hr, rfl⟩) | ⟨r, hr, hq⟩
  · obtain ⟨i, hi, rfl⟩ := List.getElem_of_mem hn
    exact ⟨⟨i, 1, fun P M mean slope _ => by rw [(key P M mean slope).1 i hi, one_mul]⟩,
      ⟨_, 1, fun P M mean slope _ => by rw [(key P M mean slope).2.1 i hi, one_mul]⟩⟩
  · obtain ⟨i, hi, rfl⟩ := List.getElem_of_mem hr
    exact ⟨⟨_, 1, fun P M mean slope _ => by rw [(key P M mean slope).2.2.1 i hi, one_mul]⟩,
      ⟨_, 1, fun P M mean slope _ => by rw [(key P M mean slope).2.2.2 i hi, one_mul]⟩⟩
  · obtain ⟨q, hqr, rfl⟩ := List.mem_map.1 hq
    obtain ⟨i, hi, rfl⟩ := List.getElem_of_mem hr
    exact ⟨⟨_, q.Rp, fun P M mean slope hP => by rw [(key P M mean slope).2.2.1 i hi, hP _ hr q hqr]⟩,
      ⟨_, q.Rm, fun P M mean slope hM => by rw [(key P M mean slope).2.2.2 i hi, hM _ hr q hqr]⟩⟩

theorem level_at (sel : Sel) (trend : Bool) (P M : String → ℂ) (mean slope : ℂ) :
    (nameCoef sel trend P M mean slope).getD
      (sel.nrName.length + (sel.nrName.length + (sel.refs.length + sel.refs.length))) 0 = mean ∧
    (nameCoef sel trend P M mean slope).getD
      (sel.nrName.length + (sel.nrName.length + (sel.refs.length + (sel.refs.length + 1)))) 0 =
        if trend then slope else 0 := by
  have h : ∀ i, (nameCoef sel trend P M mean slope).getD
      (sel.nrName.length + (sel.nrName.length + (sel.refs.length + (sel.refs.length + i)))) 0 =
        ([mean] ++ if trend then [slope] else []).getD i 0 := by
    intro i
    have h1 := getD_append_at (sel.nrName.map P) (sel.nrName.map M ++ (sel.refs.map (fun r => P r.name) ++
      (sel.refs.map (fun r => M r.name) ++ ([mean] ++ if trend then [slope] else []))))
      (sel.nrName.length + (sel.refs.length + (sel.refs.length + i)))
    have h2 := getD_append_at (sel.nrName.map M) (sel.refs.map (fun r => P r.name) ++
      (sel.refs.map (fun r => M r.name) ++ ([mean] ++ if trend then [slope] else [])))
      (sel.refs.length + (sel.refs.length + i))
    have h3 := getD_append_at (sel.refs.map (fun r => P r.name))
      (sel.refs.map (fun r => M r.name) ++ ([mean] ++ if trend then [slope] else [])) (sel.refs.length + i)
    have h4 := getD_append_at (sel.refs.map (fun r => M r.name)) ([mean] ++ if trend then [slope] else []) i
    rw [List.length_map] at h1 h2 h3 h4
    unfold nameCoef
    simp only [List.append_assoc]
    rw [h1, h2, h3, h4]
  refine ⟨by simpa using h 0, ?_⟩
  rw [h 1]
  cases trend <;> simp

/-! ## All runs together -/

theorem rotaryCurve_same {c c' : Coef} (hn : c'.name.Perm c.name) (hh : ∀ n τ, harmonic c' n τ = harmonic c n τ)
    (hr : c'.reftime = c.reftime) (P M : String → ℂ) (mean slope : ℂ) (τ : ℝ) :
    rotaryCurve c' P M mean slope τ = rotaryCurve c P M mean slope τ := by
  unfold rotaryCurve
  simp only [hh, hr]
  rw [(hn.map _).sum_eq]

theorem noisy_core {Ω : Type} {E : Env} {t : TimeArg} {lat : Option ℝ} {opts : Dict PyVal} {u : Ω → Series}
    {v : Ω → Option Series} {c : Ω → Coef} {sp : Option InferSpec} {tn : List Fl} {td : Bool} {U : Finset ℕ}
    {P M : String → ℂ} {mean slope : ℂ} {ξ : ℕ → Ω → ℂ}
    (H : NoisyRuns E t lat opts u v c sp tn td U P M mean slope ξ) (ω₀ : Ω) :
    ∃ (n k : ℕ) (D : Matrix (Fin n) (Fin k) ℂ) (f : Fin k → ℂ) (r : Fin n → ℕ) (LP LM : String → Fin k → ℂ)
      (Lm Ls : Fin k → ℂ), (Dᴴ * D).det ≠ 0 ∧ Function.Injective r ∧ (∀ i, i ∈ U ↔ ∃ j, r j = i) ∧
      k = fittedPar (c ω₀) ∧
      (∀ n ∈ (c ω₀).name, LP n ⬝ᵥ f = P n ∧ LM n ⬝ᵥ f = M n) ∧ Lm ⬝ᵥ f = mean ∧ Ls ⬝ᵥ f = slope ∧
      (∀ j, (D *ᵥ f) j = rotaryCurve (c ω₀) P M mean slope (timeAt tn (r j))) ∧
      (sp = none → (∃ σ, Paired D σ) ∧ (k < n → ∀ y : Fin n → ℝ, NoiseVariance (c ω₀) (List.ofFn fun j => timeAt tn (r j))
        (List.ofFn y) ((∑ j, gramRes D y j ^ 2) / ((n : ℝ) - k)))) ∧
      (InvOk E.num.inv → (c ω₀).opt.confInt = true → k < n) ∧
      ∀ ω, (c ω).opt = (c ω₀).opt ∧ (c ω).name.Perm (c ω₀).name ∧ (∀ n τ, harmonic (c ω) n τ = harmonic (c ω₀) n τ) ∧
        (c ω).reftime = (c ω₀).reftime ∧
        (∀ j, entry (sampleValues (u ω).data ((v ω).map Series.data)) (r j) = (D *ᵥ f) j + ξ (r j) ω) ∧
        samples tn (sampleValues (u ω).data ((v ω).map Series.data)) =
          List.ofFn (fun j => (timeAt tn (r j), (D *ᵥ f) j + ξ (r j) ω)) ∧
        (∀ i n, (c ω).name[i]? = some n → ∃ e, ellipseAt (c ω).ell i = some e ∧
          ccw e = LP n ⬝ᵥ (solver D *ᵥ fun j => (D *ᵥ f) j + ξ (r j) ω) ∧
          cw e = LM n ⬝ᵥ (solver D *ᵥ fun j => (D *ᵥ f) j + ξ (r j) ω)) ∧
        meanLevel (c ω) = Lm ⬝ᵥ (solver D *ᵥ fun j => (D *ᵥ f) j + ξ (r j) ω) ∧
        trendRate (c ω) = Ls ⬝ᵥ (solver D *ᵥ fun j => (D *ᵥ f) j + ξ (r j) ω) ∧
        ∀ (a : RecArgs), a.epoch = (c ω).opt.epoch → RecArgs.Everything a → ∀ x, reconstruct E t.arr (c ω) a = .ok x →
          ∀ j, entry x (r j) = (D *ᵥ (solver D *ᵥ fun j => (D *ᵥ f) j + ξ (r j) ω)) j := by
  have R := H.ready ω₀
  obtain ⟨p, constit, m, W, rf, full, o, ind, F, hols, hinf, hex⟩ :=
    run_facts R H.keys H.ols (H.returned ω₀) sp (H.infer ω₀) H.exact tn (H.time ω₀)
  subst hinf
  obtain ⟨L, hL⟩ : ∃ L, L = (List.range tn.length).filter (· ∈ U) := ⟨_, rfl⟩
  have hLmem : ∀ i, i ∈ L ↔ i ∈ U := by
    intro i
    rw [hL, List.mem_filter, List.mem_range, decide_eq_true_iff]
    refine ⟨fun h => h.2, fun h => ⟨?_, h⟩⟩
    obtain ⟨τ, hτ⟩ := H.used i h
    exact (List.getElem?_eq_some_iff.1 hτ).1
  have hLn : L.Nodup := by rw [hL]; exact List.nodup_range.filter _
  have htime : ∀ i ∈ U, tn[i]? = some (.fin (timeAt tn i)) := by
    intro i hi
    obtain ⟨τ, hτ⟩ := H.used i hi
    simp [timeAt, hτ, Fl.toReal?]
  have hsam : ∀ ω, samples tn (sampleValues (u ω).data ((v ω).map Series.data)) =
      L.map fun i => (timeAt tn i, rotaryCurve (c ω) P M mean slope (timeAt tn i) + ξ i ω) := by
    intro ω
    rw [hL]
    refine samples_rows tn _ U _ H.used fun i τ hτ => ?_
    rw [H.data ω i τ hτ]
    have : timeAt tn i = τ := by simp [timeAt, hτ, Fl.toReal?]
    rw [this]
  obtain ⟨l1, l2, l3⟩ := F.samples R
  rw [usable_samples _ _ _ l1, hsam ω₀, List.map_map] at l2 l3
  have hB : p.B = L.map fun i => rowAt p (timeAt tn i) := by
    rw [F.rows, l2, List.map_map]; simp only [Function.comp_def]
  have hlen : p.B.length = L.length := by rw [hB, List.length_map]
  have hsep : Separated (c ω₀) p.infer (v ω₀).isSome (SampleTime tn (u ω₀).data ((v ω₀).map Series.data)) := by
    have h0 := H.separated ω₀
    refine ⟨h0.names, fun P M mean slope hT hs hz => h0.indep P M mean slope (by rw [← H.kind ω₀]; exact hT) hs ?_⟩
    rintro τ ⟨i, hi, hτ⟩
    refine hz τ ?_
    exact ⟨i, _, hτ, by rw [H.data ω₀ i τ hτ, if_pos hi]⟩
  have hindep := F.indep R H.keys (H.kept ω₀) hex hsep
  have hal := F.prep.aligned
  obtain ⟨hTp, hTm⟩ := F.tiedBy H.keys P M (by rw [H.kind ω₀]; exact H.tied)
  have hnames : ∀ n ∈ (c ω₀).name, n ∈ p.sel.name := fun n h => (F.perm_names R H.keys (H.kept ω₀)).subset h
  obtain ⟨f, hf⟩ := UTide.exists_ofFn (α := ℂ) p.nm
    (nameCoef p.sel (!(c ω₀).opt.notrend) P M mean (slope * (p.ed.lor : ℂ))) (F.nameCoef_length _ _ _ _)
  have hchoice : ∀ n, ∃ LP LM : Fin p.nm → ℂ, n ∈ p.sel.name →
      ∀ (P M : String → ℂ) (mean slope : ℂ) (g : Fin p.nm → ℂ), TiedBy p.sel InfCon.Rp P → TiedBy p.sel InfCon.Rm M →
        nameCoef p.sel (!(c ω₀).opt.notrend) P M mean slope = List.ofFn g → LP ⬝ᵥ g = P n ∧ LM ⬝ᵥ g = M n := by
    intro n
    by_cases hn : n ∈ p.sel.name
    · obtain ⟨⟨i, a, h1⟩, ⟨j, b, h2⟩⟩ := component_at hal (!(c ω₀).opt.notrend) n hn
      obtain ⟨LP, hLP⟩ := pick_row p.nm i a
      obtain ⟨LM, hLM⟩ := pick_row p.nm j b
      refine ⟨LP, LM, fun _ P M mean slope g hP hM hg => ?_⟩
      rw [hLP, hLM, ← hg, ← h1 P M mean slope hP, ← h2 P M mean slope hM]
      exact ⟨rfl, rfl⟩
    · exact ⟨0, 0, fun h => absurd h hn⟩
  choose LP LM hLL using hchoice
  obtain ⟨Lm, hLm⟩ := pick_row p.nm
    (p.sel.nrName.length + (p.sel.nrName.length + (p.sel.refs.length + p.sel.refs.length))) 1
  obtain ⟨Ls, hLs⟩ := pick_row p.nm
    (p.sel.nrName.length + (p.sel.nrName.length + (p.sel.refs.length + (p.sel.refs.length + 1))))
    (1 / (p.ed.lor : ℂ))
  have hlev : ∀ (P M : String → ℂ) (mean slope : ℂ) (g : Fin p.nm → ℂ), ((c ω₀).opt.notrend = true → slope = 0) →
      nameCoef p.sel (!(c ω₀).opt.notrend) P M mean (slope * (p.ed.lor : ℂ)) = List.ofFn g →
      Lm ⬝ᵥ g = mean ∧ Ls ⬝ᵥ g = slope := by
    intro P M mean slope g hs hg
    obtain ⟨h1, h2⟩ := level_at p.sel (!(c ω₀).opt.notrend) P M mean (slope * (p.ed.lor : ℂ))
    rw [hLm, hLs, ← hg, h1, h2, one_mul]
    refine ⟨rfl, ?_⟩
    cases hnt : (c ω₀).opt.notrend with
    | true => simp [hs hnt]
    | false =>
      have h0 : (p.ed.lor : ℂ) ≠ 0 := by exact_mod_cast F.lorNonzero hnt
      simp only [Bool.not_false, if_true]
      field_simp
  have hrow : ∀ (g : Fin p.nm → ℂ) (j : Fin p.B.length), (designM p.nm p.B *ᵥ g) j =
      dot (rowAt p (timeAt tn (L[j.val]'(hlen ▸ j.isLt)))) (List.ofFn g) := by
    intro g j
    rw [designM_mulVec p.nm p.B F.prep.rows]
    congr 1
    simp only [hB, Fin.getElem_fin, List.getElem_map]
  have hmemt : ∀ j : Fin p.B.length, timeAt tn (L[j.val]'(hlen ▸ j.isLt)) ∈ p.ed.t := by
    intro j
    rw [l2]
    exact List.mem_map.2 ⟨_, List.getElem_mem _, rfl⟩
  refine ⟨p.B.length, p.nm, designM p.nm p.B, f, fun j => L[j.val]'(hlen ▸ j.isLt), LP, LM, Lm, Ls,
    gram_det p.nm p.B F.prep.rows hindep, ?_, ?_, ?_, ?_, ?_, ?_, ?_, ?_,
    fun hI hci => (F.full_rank R hI hols hci).2, ?_⟩
  · intro i j hij
    exact Fin.ext ((hLn.getElem_inj_iff).1 hij)
  · intro i
    rw [← hLmem, List.mem_iff_getElem]
    constructor
    · rintro ⟨j, hj, h⟩
      exact ⟨⟨j, hlen ▸ hj⟩, h⟩
    · rintro ⟨j, h⟩
      exact ⟨j.val, hlen ▸ j.isLt, h⟩
  · have e1 := F.solved.head.nNR
    have e2 := F.solved.head.nR
    have e3 : (c ω₀).nNR = full.nNR := by rw [F.solved.result]; rfl
    have e4 : (c ω₀).nR = full.nR := by rw [F.solved.result]; rfl
    unfold fittedPar
    rw [F.prep.nm, e3, e4, e1, e2]
    unfold numCols
    cases (c ω₀).opt.notrend <;> rfl
  · intro n hn
    exact hLL n (hnames n hn) P M mean _ f hTp hTm hf
  · exact (hlev P M mean slope f (H.flat ω₀) hf).1
  · exact (hlev P M mean slope f (H.flat ω₀) hf).2
  · intro j
    rw [hrow, ← hf]
    exact F.row_curve R H.keys (H.kept ω₀) hex P M mean slope hTp hTm (H.flat ω₀) _ (hmemt j)
  · intro hnone
    refine ⟨⟨_, F.paired hnone⟩, fun hlt y => ?_⟩
    have := F.noise R H.keys (H.kept ω₀) hnone hindep hlt y
    have ht : p.ed.t = List.ofFn fun j : Fin p.B.length => timeAt tn (L[j.val]'(hlen ▸ j.isLt)) := by
      rw [l2]
      apply List.ext_getElem
      · simp [hlen]
      · intro i h1 h2
        simp only [List.getElem_map, List.getElem_ofFn, Function.comp]
    rw [← ht]
    exact this
  · intro ω
    have R' := H.ready ω
    obtain ⟨p', constit', m', W', rf', full', o', ind', F', hols', hinf', hex'⟩ :=
      run_facts R' H.keys H.ols (H.returned ω) _ (H.infer ω) H.exact tn (H.time ω)
    obtain ⟨hopt, ho, -, -⟩ := same_tn F F' (by rw [H.kind, H.kind])
    have l1' := (F'.samples R').1
    rw [hopt] at F'
    have G := sameGrid F F' R R' hinf' (by
      rw [usable_samples _ _ _ l1, usable_samples _ _ _ l1', hsam ω, hsam ω₀, List.map_map, List.map_map]
      simp only [Function.comp_def])
    have hperm := same_names F F' R R' H.keys G.sel (H.kept ω₀) ho
    have hharm : ∀ n τ, harmonic (c ω) n τ = harmonic (c ω₀) n τ := by
      intro n τ
      rw [F'.harmonic_eq, F.harmonic_eq, G.tref, G.lat]
    have href : (c ω).reftime = (c ω₀).reftime := by rw [F'.creftime, F.creftime, G.tref]
    have hrc := rotaryCurve_same hperm hharm href P M mean slope
    have hDf : ∀ j : Fin p.B.length, (designM p.nm p.B *ᵥ f) j =
        rotaryCurve (c ω₀) P M mean slope (timeAt tn (L[j.val]'(hlen ▸ j.isLt))) := by
      intro j
      rw [hrow, ← hf]
      exact F.row_curve R H.keys (H.kept ω₀) hex P M mean slope hTp hTm (H.flat ω₀) _ (hmemt j)
    refine ⟨hopt, hperm, hharm, href, ?_, ?_, ?_⟩
    · intro j
      have hj : L[j.val]'(hlen ▸ j.isLt) ∈ U := (hLmem _).1 (List.getElem_mem _)
      unfold entry
      rw [H.data ω _ _ (htime _ hj), if_pos hj, hDf, hrc]
      simp only [Option.getD_some]
    · rw [hsam ω]
      apply List.ext_getElem
      · simp [hlen]
      · intro i h1 h2
        simp only [List.getElem_map, List.getElem_ofFn, hDf, hrc]
    have hx : xraw p'.ed = List.ofFn fun j : Fin p.B.length =>
        (designM p.nm p.B *ᵥ f) j + ξ (L[j.val]'(hlen ▸ j.isLt)) ω := by
      obtain ⟨-, -, l3'⟩ := F'.samples R'
      rw [l3', usable_samples _ _ _ l1', hsam ω, List.map_map]
      apply List.ext_getElem
      · simp [hlen]
      · intro i h1 h2
        simp only [List.getElem_map, List.getElem_ofFn, Function.comp, hDf, hrc]
    have hm' : m' = List.ofFn (solver (designM p.nm p.B) *ᵥ fun j : Fin p.B.length =>
        (designM p.nm p.B *ᵥ f) j + ξ (L[j.val]'(hlen ▸ j.isLt)) ω) := by
      have h1 := F'.minNorm R' hols
      rw [G.nm, G.B, hx] at h1
      exact minNorm_solver p.nm p.B F.prep.rows hindep _ _ h1
    generalize solver (designM p.nm p.B) *ᵥ (fun j : Fin p.B.length =>
        (designM p.nm p.B *ᵥ f) j + ξ (L[j.val]'(hlen ▸ j.isLt)) ω) = g at hm' ⊢
    have hnod : p.sel.name.Nodup := (F.perm_names R H.keys (H.kept ω₀)).nodup_iff.1 (H.separated ω₀).names
    obtain ⟨P', M', mean', slope', hP', hM', hs', hmc⟩ := F'.exists_coef (by rw [G.sel]; exact hnod) m' F'.mlen
    obtain ⟨r1, r2⟩ := F'.read H.keys P' M' mean' slope' hP' hM' hmc
    rw [H.kind] at r1 r2
    have hconj : td = false → (∀ n ∈ p.sel.name, M' n = conj (P' n)) ∧ mean'.im = 0 ∧ slope'.im = 0 := by
      intro htd
      have hv : v ω = none := by
        have := H.kind ω
        rw [htd] at this
        simpa using this
      have R'' := R'
      have F'' := F'
      rw [hv] at F'' R''
      rw [← G.sel]
      exact F''.conjugate R'' H.keys hols P' M' mean' slope' hP' hM' hs' hmc
    rw [G.sel] at hP' hM'
    have hg : nameCoef p.sel (!(c ω₀).opt.notrend) P' M' mean' (slope' * (p.ed.lor : ℂ)) = List.ofFn g := by
      rw [← hm', hmc, G.sel, G.lor]
    obtain ⟨v1, v2⟩ := hlev P' M' mean' slope' g hs' hg
    refine ⟨?_, ?_, ?_, ?_⟩
    · intro i n hi
      have hn : n ∈ p.sel.name := hnames n (hperm.subset (List.mem_of_getElem? hi))
      obtain ⟨w1, w2⟩ := hLL n hn P' M' mean' _ g hP' hM' hg
      rw [w1, w2, r1, ellipseAt_map, hi]
      refine ⟨_, rfl, ?_⟩
      cases htd : td with
      | true => simp only [if_true]; exact ⟨ccw_ell2 _ _, cw_ell2 _ _⟩
      | false =>
        simp only [Bool.false_eq_true, if_false]
        have hx := (hconj htd).1 n hn
        constructor
        · simp only [ccw_ell1, hx, Complex.conj_conj]; ring
        · simp only [cw_ell1, hx, Complex.conj_conj, map_div₀, map_add]
          rw [map_ofNat]; ring
    · rw [v1]
      unfold meanLevel
      rw [r2]
      unfold meanRec
      cases htd : td with
      | true => simp
      | false =>
        have := (hconj htd).2.1
        apply Complex.ext <;> simp [this]
    · rw [v2]
      unfold trendRate
      rw [r2]
      unfold meanRec
      cases htd : td with
      | true =>
        cases hnt : (c ω₀).opt.notrend with
        | true => rw [hs' hnt]; simp only [if_true, Option.getD_none]; apply Complex.ext <;> simp
        | false => simp
      | false =>
        have := (hconj htd).2.2
        cases hnt : (c ω₀).opt.notrend with
        | true => rw [hs' hnt]; simp
        | false => apply Complex.ext <;> simp [this]
    · intro a hae hall x hr j
      have hj : L[j.val]'(hlen ▸ j.isLt) ∈ U := (hLmem _).1 (List.getElem_mem _)
      rw [F'.reconstructed R' H.keys (H.kept ω) a hae hall x hr, hrow, ← hm']
      unfold entry
      rw [List.getElem?_map, htime _ hj]
      simp only [Option.map_some, Fl.toReal?, Option.getD_some]
      rw [F'.curve_eq R' H.keys hols hex' _ (by rw [G.t]; exact hmemt j)]
      congr 1
      unfold rowAt
      rw [G.tref, G.lor, G.lat, G.sel, hinf', F'.prep.hopt, F.prep.hopt]

theorem ccwOf_eq {c : Coef} {n : String} (hn : n ∈ c.name) {x y : ℂ}
    (h : ∀ i, c.name[i]? = some n → ∃ e, ellipseAt c.ell i = some e ∧ ccw e = x ∧ cw e = y) :
    ccwOf c n = x ∧ cwOf c n = y := by
  obtain ⟨e, h1, h2, h3⟩ := h (c.name.idxOf n) (by
    rw [List.getElem?_eq_getElem (List.idxOf_lt_length_of_mem hn), List.getElem_idxOf])
  unfold ccwOf cwOf
  rw [h1]
  exact ⟨h2, h3⟩

theorem level_eq (c : Coef) (τ : ℝ) : level c τ = meanLevel c + trendRate c * ((τ - c.reftime : ℝ) : ℂ) := by
  unfold level meanLevel trendRate
  cases c.mean with
  | one m s => push_cast; rfl
  | two a b s => apply Complex.ext <;> simp

theorem sum_rows {n : ℕ} {r : Fin n → ℕ} {U : Finset ℕ} (hinj : Function.Injective r) (hr : ∀ i, i ∈ U ↔ ∃ j, r j = i)
    (g : ℕ → ℝ) : ∑ i ∈ U, g i = ∑ j, g (r j) := by
  have : U = Finset.univ.image r := by
    ext i
    rw [hr, Finset.mem_image]
    simp
  rw [this, Finset.sum_image fun a _ b _ h => hinj h]

theorem card_rows {n : ℕ} {r : Fin n → ℕ} {U : Finset ℕ} (hinj : Function.Injective r) (hr : ∀ i, i ∈ U ↔ ∃ j, r j = i) :
    U.card = n := by
  have : U = Finset.univ.image r := by
    ext i
    rw [hr, Finset.mem_image]
    simp
  rw [this, Finset.card_image_of_injective _ hinj]
  simp

section
variable {Ω : Type} [MeasurableSpace Ω] {μ : Measure Ω}

theorem Uncorrelated.rows {n : ℕ} {r : Fin n → ℕ} {U : Finset ℕ} {ξ : ℕ → Ω → ℂ} {σ2 : ℝ} (h : Uncorrelated μ U ξ σ2)
    (hinj : Function.Injective r) (hr : ∀ i, i ∈ U ↔ ∃ j, r j = i) :
    (∀ i j : Fin n, Integrable (fun ω => ξ (r i) ω * conj (ξ (r j) ω)) μ) ∧
      ∀ i j : Fin n, ∫ ω, ξ (r i) ω * conj (ξ (r j) ω) ∂μ = if i = j then (σ2 : ℂ) else 0 := by
  have hm : ∀ j, r j ∈ U := fun j => (hr _).2 ⟨j, rfl⟩
  refine ⟨fun i j => (h _ (hm i) _ (hm j)).1, fun i j => ?_⟩
  rw [(h _ (hm i) _ (hm j)).2]
  simp only [hinj.eq_iff]

variable {E : Env} {t : TimeArg} {lat : Option ℝ} {opts : Dict PyVal} {u : Ω → Series}
    {v : Ω → Option Series} {c : Ω → Coef} {sp : Option InferSpec} {tn : List Fl} {td : Bool} {U : Finset ℕ}
    {P M : String → ℂ} {mean slope : ℂ} {ξ : ℕ → Ω → ℂ}

/-! ## C121 -/

/-- **C121.** With `method='ols'` and errors of mean zero, the rotating components of every constituent, the mean and the
slope are right on average. -/
theorem C121_unbiased [IsProbabilityMeasure μ] (H : NoisyRuns E t lat opts u v c sp tn td U P M mean slope ξ)
    (h0 : Centred μ U ξ) :
    (∀ n, (∃ ω, n ∈ (c ω).name) →
      (Integrable (fun ω => ccwOf (c ω) n) μ ∧ ∫ ω, ccwOf (c ω) n ∂μ = P n) ∧
      (Integrable (fun ω => cwOf (c ω) n) μ ∧ ∫ ω, cwOf (c ω) n ∂μ = M n)) ∧
    (Integrable (fun ω => meanLevel (c ω)) μ ∧ ∫ ω, meanLevel (c ω) ∂μ = mean) ∧
    (Integrable (fun ω => trendRate (c ω)) μ ∧ ∫ ω, trendRate (c ω) ∂μ = slope) := by
  obtain ⟨ω₀⟩ := nonempty_of_isProbabilityMeasure μ
  obtain ⟨n, k, D, f, r, LP, LM, Lm, Ls, hd, hinj, hr, -, htr, hm, hs, -, -, -, hω⟩ := noisy_core H ω₀
  have hmem : ∀ j, r j ∈ U := fun j => (hr _).2 ⟨j, rfl⟩
  have key := fun L : Fin k → ℂ => mean_linear (μ := μ) hd L f (fun j => ξ (r j)) (fun j => (h0 _ (hmem j)).1)
    fun j => (h0 _ (hmem j)).2
  refine ⟨?_, ?_, ?_⟩
  · rintro m ⟨ω₁, hm1⟩
    have hm0 : m ∈ (c ω₀).name := (hω ω₁).2.1.subset hm1
    have e : ∀ ω, _ := fun ω => ccwOf_eq ((hω ω).2.1.symm.subset hm0) fun i hi => (hω ω).2.2.2.2.2.2.1 i m hi
    simp only [fun ω => (e ω).1, fun ω => (e ω).2]
    exact ⟨⟨(key _).1, (key _).2.trans (htr m hm0).1⟩, ⟨(key _).1, (key _).2.trans (htr m hm0).2⟩⟩
  · simp only [fun ω => (hω ω).2.2.2.2.2.2.2.1]
    exact ⟨(key _).1, (key _).2.trans hm⟩
  · simp only [fun ω => (hω ω).2.2.2.2.2.2.2.2.1]
    exact ⟨(key _).1, (key _).2.trans hs⟩

/-- **C121.** The same for what `reconstruct` predicts, at any time. -/
theorem C121_prediction [IsProbabilityMeasure μ] (H : NoisyRuns E t lat opts u v c sp tn td U P M mean slope ξ)
    (h0 : Centred μ U ξ) (E' : Env) (t' : TimeArr) (a : RecArgs) (ha : RecArgs.Everything a) (x : Ω → List (Option ℂ))
    (hx : ∀ ω, reconstruct E' t' (c ω) a = .ok (x ω)) (tn' : List Fl) (htn : normalizeTime E'.dt64 t' a.epoch = .ok tn')
    (i : ℕ) (τ : ℝ) (hi : tn'[i]? = some (.fin τ)) :
    Integrable (fun ω => entry (x ω) i) μ ∧ ∀ ω, ∫ ω', entry (x ω') i ∂μ = rotaryCurve (c ω) P M mean slope τ := by
  obtain ⟨ω₀⟩ := nonempty_of_isProbabilityMeasure μ
  obtain ⟨n, k, D, f, r, LP, LM, Lm, Ls, hd, hinj, hr, -, htr, hm, hs, -, -, -, hω⟩ := noisy_core H ω₀
  have hmem : ∀ j, r j ∈ U := fun j => (hr _).2 ⟨j, rfl⟩
  obtain ⟨L, hL⟩ : ∃ L : Fin k → ℂ, ∀ g : Fin k → ℂ, L ⬝ᵥ g = Lm ⬝ᵥ g + Ls ⬝ᵥ g * ((τ - (c ω₀).reftime : ℝ) : ℂ) +
      ((c ω₀).name.map fun n => harmonic (c ω₀) n τ * (LP n ⬝ᵥ g) + conj (harmonic (c ω₀) n τ) * (LM n ⬝ᵥ g)).sum := by
    have hl : ∀ l : List String, ∃ L : Fin k → ℂ, ∀ g : Fin k → ℂ, L ⬝ᵥ g =
        (l.map fun n => harmonic (c ω₀) n τ * (LP n ⬝ᵥ g) + conj (harmonic (c ω₀) n τ) * (LM n ⬝ᵥ g)).sum := by
      intro l
      induction l with
      | nil => exact ⟨0, fun g => by simp⟩
      | cons s l ih =>
        obtain ⟨L, hL⟩ := ih
        refine ⟨harmonic (c ω₀) s τ • LP s + conj (harmonic (c ω₀) s τ) • LM s + L, fun g => ?_⟩
        rw [add_dotProduct, add_dotProduct, smul_dotProduct, smul_dotProduct, hL, List.map_cons, List.sum_cons]
        simp only [smul_eq_mul]
    obtain ⟨L, hL⟩ := hl (c ω₀).name
    refine ⟨Lm + ((τ - (c ω₀).reftime : ℝ) : ℂ) • Ls + L, fun g => ?_⟩
    rw [add_dotProduct, add_dotProduct, smul_dotProduct, hL, smul_eq_mul]
    ring
  have e : ∀ ω, entry (x ω) i = L ⬝ᵥ (solver D *ᵥ fun j => (D *ᵥ f) j + ξ (r j) ω) := by
    intro ω
    obtain ⟨-, h1, h2, h3, -, -, h4, h5, h6, -⟩ := hω ω
    have hp := predicted (H.ready ω) H.keys (H.returned ω) (H.kept ω) _ _ h4 a ha E' t'
    rw [hx ω, htn] at hp
    unfold entry
    rw [Except.ok.inj hp, List.getElem?_map, hi]
    simp only [Option.map_some, Fl.toReal?, Option.getD_some]
    rw [level_eq, h5, h6, h3, hL]
    simp only [h2]
    rw [(h1.map _).sum_eq]
  have key := mean_linear (μ := μ) hd L f (fun j => ξ (r j)) (fun j => (h0 _ (hmem j)).1) fun j => (h0 _ (hmem j)).2
  simp only [e]
  refine ⟨key.1, fun ω => ?_⟩
  obtain ⟨-, h1, h2, h3, -⟩ := hω ω
  rw [key.2, hL, hm, hs, rotaryCurve_same h1 h2 h3]
  unfold rotaryCurve
  have : ((c ω₀).name.map fun n => harmonic (c ω₀) n τ * (LP n ⬝ᵥ f) + conj (harmonic (c ω₀) n τ) * (LM n ⬝ᵥ f)) =
      (c ω₀).name.map fun n => harmonic (c ω₀) n τ * P n + conj (harmonic (c ω₀) n τ) * M n :=
    List.map_congr_left fun n hn => by rw [(htr n hn).1, (htr n hn).2]
  rw [this]
  ring

/-- **C121.** If moreover the errors are uncorrelated with variance `σ2`: what is left after subtracting the
reconstruction has, on average, `σ2` times the number of samples minus the number of fitted parameters as its sum of
squares, and the reconstruction itself misses the tide by `σ2` times the number of fitted parameters. -/
theorem C121_residual [IsProbabilityMeasure μ] (H : NoisyRuns E t lat opts u v c sp tn td U P M mean slope ξ) (σ2 : ℝ)
    (h2 : Uncorrelated μ U ξ σ2) (a : RecArgs) (ha : RecArgs.Everything a) (hae : ∀ ω, a.epoch = (c ω).opt.epoch)
    (x : Ω → List (Option ℂ)) (hx : ∀ ω, reconstruct E t.arr (c ω) a = .ok (x ω)) (ω₀ : Ω) :
    (Integrable (fun ω => ∑ i ∈ U, ‖entry (sampleValues (u ω).data ((v ω).map Series.data)) i - entry (x ω) i‖ ^ 2) μ ∧
      ∫ ω, ∑ i ∈ U, ‖entry (sampleValues (u ω).data ((v ω).map Series.data)) i - entry (x ω) i‖ ^ 2 ∂μ =
        σ2 * ((U.card : ℝ) - fittedPar (c ω₀))) ∧
    (Integrable (fun ω => ∑ i ∈ U, ‖entry (x ω) i - rotaryCurve (c ω₀) P M mean slope (timeAt tn i)‖ ^ 2) μ ∧
      ∫ ω, ∑ i ∈ U, ‖entry (x ω) i - rotaryCurve (c ω₀) P M mean slope (timeAt tn i)‖ ^ 2 ∂μ = σ2 * fittedPar (c ω₀)) := by
  obtain ⟨n, k, D, f, r, LP, LM, Lm, Ls, hd, hinj, hr, rfl, htr, hm, hs, hDf, -, -, hω⟩ := noisy_core H ω₀
  obtain ⟨g1, g2⟩ := h2.rows hinj hr
  have hn := card_rows hinj hr
  constructor
  · have key := mean_residual (μ := μ) hd f (fun j => ξ (r j)) σ2 g1 g2
    dsimp only at key
    rw [hn]
    have e : ∀ ω, ∑ i ∈ U, ‖entry (sampleValues (u ω).data ((v ω).map Series.data)) i - entry (x ω) i‖ ^ 2 =
        ∑ j, ‖((D *ᵥ f) j + ξ (r j) ω) - (D *ᵥ (solver D *ᵥ fun j => (D *ᵥ f) j + ξ (r j) ω)) j‖ ^ 2 := by
      intro ω
      rw [sum_rows hinj hr fun i => ‖entry (sampleValues (u ω).data ((v ω).map Series.data)) i - entry (x ω) i‖ ^ 2]
      refine Finset.sum_congr rfl fun j _ => ?_
      rw [(hω ω).2.2.2.2.1 j, (hω ω).2.2.2.2.2.2.2.2.2 a (hae ω) ha (x ω) (hx ω) j]
    simp only [e]
    exact key
  · have key := mean_fit_error (μ := μ) hd f (fun j => ξ (r j)) σ2 g1 g2
    have e : ∀ ω, ∑ i ∈ U, ‖entry (x ω) i - rotaryCurve (c ω₀) P M mean slope (timeAt tn i)‖ ^ 2 =
        ∑ j, ‖(D *ᵥ (solver D *ᵥ fun j => (D *ᵥ f) j + ξ (r j) ω)) j - (D *ᵥ f) j‖ ^ 2 := by
      intro ω
      rw [sum_rows hinj hr fun i => ‖entry (x ω) i - rotaryCurve (c ω₀) P M mean slope (timeAt tn i)‖ ^ 2]
      refine Finset.sum_congr rfl fun j _ => ?_
      rw [hDf, (hω ω).2.2.2.2.2.2.2.2.2 a (hae ω) ha (x ω) (hx ω) j]
    simp only [e]
    exact key

end

/-! ## The reported intervals -/

theorem linCurve_same {c c' : Coef} (hn : c'.name.Perm c.name) (hh : ∀ n τ, harmonic c' n τ = harmonic c n τ)
    (hr : c'.reftime = c.reftime) : linCurve c' = linCurve c := by
  funext q τ
  unfold linCurve
  simp only [hh, hr]
  rw [(hn.map _).sum_eq]

theorem Blue.same {c c' : Coef} (ho : c'.opt = c.opt) (hl : linCurve c' = linCurve c) {τ : List ℝ} {par : CurvePar → ℝ}
    {a : List ℝ} (h : Blue c τ par a) : Blue c' τ par a := by
  have ha : ∀ q, Admissible c' q → Admissible c q := fun q => by unfold Admissible; rw [ho]; exact id
  have ha' : ∀ q, Admissible c q → Admissible c' q := fun q => by unfold Admissible; rw [ho]; exact id
  exact ⟨h.length, fun q hq => by rw [hl]; exact h.unbiased q (ha q hq),
    fun a' h1 h2 => h.best a' h1 fun q hq => by rw [← hl]; exact h2 q (ha' q hq)⟩

theorem noise_same {c c' : Coef} (ho : c'.opt = c.opt) (hn : c'.name.Perm c.name) (hl : linCurve c' = linCurve c)
    {τ y : List ℝ} {s : ℝ} (h : NoiseVariance c τ y s) : NoiseVariance c' τ y s := by
  have hp : numPar c' = numPar c := by unfold numPar; rw [ho, hn.length_eq]
  unfold NoiseVariance Admissible at h ⊢
  rw [hp, hl, ho]
  exact h

/-- A tide of a scalar series as a curve with real parameters. -/
theorem rotary_linCurve (c : Coef) (P M : String → ℂ) (mean slope : ℂ) (hM : ∀ n, M n = conj (P n)) (h1 : mean.im = 0)
    (h2 : slope.im = 0) (τ : ℝ) : rotaryCurve c P M mean slope τ =
      ((linCurve c ⟨fun n => 2 * (P n).re, fun n => -2 * (P n).im, mean.re, slope.re⟩ τ : ℝ) : ℂ) := by
  unfold rotaryCurve linCurve
  have e1 : mean = (mean.re : ℂ) := by apply Complex.ext <;> simp [h1]
  have e2 : slope = (slope.re : ℂ) := by apply Complex.ext <;> simp [h2]
  have e3 : (c.name.map fun n => harmonic c n τ * P n + conj (harmonic c n τ) * M n).sum =
      (((c.name.map fun n => 2 * (P n).re * (harmonic c n τ).re + -2 * (P n).im * (harmonic c n τ).im).sum : ℝ) : ℂ) := by
    rw [ofReal_sum_map]
    refine congrArg List.sum (List.map_congr_left fun n _ => ?_)
    rw [hM, ← map_mul, Complex.add_conj]
    congr 1
    rw [Complex.mul_re]
    ring
  rw [e3]
  conv_lhs => rw [e1, e2]
  push_cast
  ring

section
variable {Ω : Type} [MeasurableSpace Ω] {μ : Measure Ω}
  {E : Env} {t : TimeArg} {lat : Option ℝ} {opts : Dict PyVal} {u : Ω → Series}
  {c : Ω → Coef} {tn : List Fl} {U : Finset ℕ} {P M : String → ℂ} {mean slope : ℂ} {ξ : ℕ → Ω → ℂ}

/-- **C121.** Linearised intervals of a scalar series with white noise floor: the variances they are propagated from
(the estimate `s2` of the noise variance times a constant for each coefficient) are, on average, the mean squared
errors of the coefficients. -/
theorem C121_calibrated [IsProbabilityMeasure μ] (hI : InvOk E.num.inv)
    (H : NoisyRuns E t lat opts u (fun _ => none) c none tn false U P M mean slope ξ)
    (hM : ∀ n, M n = conj (P n)) (hmean : mean.im = 0) (hslope : slope.im = 0)
    (hci : ∀ ω, (c ω).opt.confInt = true ∧ (c ω).opt.linci = true ∧ (c ω).opt.white = true)
    (σ2 : ℝ) (h2 : Uncorrelated μ U ξ σ2) :
    ∃ s2 : Ω → ℝ, (Integrable s2 μ ∧ ∫ ω, s2 ω ∂μ = σ2) ∧
      (∀ ω, NoiseVariance (c ω) (sampleTimes tn (u ω) none) (sampleU tn (u ω) none) (s2 ω)) ∧
      ∀ n, (∃ ω, n ∈ (c ω).name) → ∃ a b : List ℝ,
        (∀ ω, Blue (c ω) (sampleTimes tn (u ω) none) (fun q => q.X n) a ∧
          Blue (c ω) (sampleTimes tn (u ω) none) (fun q => q.Y n) b) ∧
        ∫ ω, (combine a (sampleU tn (u ω) none) - 2 * (P n).re) ^ 2 ∂μ = σ2 * sumSq a ∧
        ∫ ω, (combine b (sampleU tn (u ω) none) - -2 * (P n).im) ^ 2 ∂μ = σ2 * sumSq b ∧
        ∀ ω i, (c ω).name[i]? = some n →
          ellipseAt (c ω).ell i = some (cs2cep1 (combine a (sampleU tn (u ω) none)) (combine b (sampleU tn (u ω) none))) ∧
          (![combine a (sampleU tn (u ω) none), combine b (sampleU tn (u ω) none)] ≠ (0 : Fin 2 → ℝ) → ∃ ci da dg,
            (c ω).ci = some ci ∧
            Propagated 0 ampOf ![combine a (sampleU tn (u ω) none), combine b (sampleU tn (u ω) none)]
              ![Real.sqrt (s2 ω * sumSq a), Real.sqrt (s2 ω * sumSq b)] da ∧
            Propagated 360 phaseOf ![combine a (sampleU tn (u ω) none), combine b (sampleU tn (u ω) none)]
              ![Real.sqrt (s2 ω * sumSq a), Real.sqrt (s2 ω * sumSq b)] dg ∧
            intervalAt ci i = some ⟨.fin (1.96 * da), .fin 0, .fin 0, .fin (1.96 * dg)⟩) := by
  obtain ⟨ω₀⟩ := nonempty_of_isProbabilityMeasure μ
  obtain ⟨n, k, D, f, r, LP, LM, Lm, Ls, hd, hinj, hr, -, htr, hm, hs, hDf, hnone, hlt, hω⟩ := noisy_core H ω₀
  obtain ⟨⟨π, hπ⟩, hnv⟩ := hnone rfl
  replace hlt := hlt hI (hci ω₀).1
  obtain ⟨g1, g2⟩ := h2.rows hinj hr
  have hlen : ∀ ω, SameLength tn (u ω).data none := by
    intro ω
    obtain ⟨p, constit, m, W, rf, full, o, ind, F, -, -, -⟩ :=
      run_facts (H.ready ω) H.keys H.ols (H.returned ω) none (H.infer ω) H.exact tn (H.time ω)
    exact (F.samples (H.ready ω)).1
  have htimes : ∀ ω, sampleTimes tn (u ω) none = List.ofFn fun j => timeAt tn (r j) := by
    intro ω
    unfold sampleTimes
    rw [Option.map_none, usable_samples _ _ _ (hlen ω)]
    rw [show samples tn (sampleValues (u ω).data none) = _ from (hω ω).2.2.2.2.2.1, List.map_ofFn]
    simp only [Function.comp_def]
  have hdata : ∀ ω, sampleU tn (u ω) none = List.ofFn fun j => ((D *ᵥ f) j + ξ (r j) ω).re := by
    intro ω
    unfold sampleU
    rw [Option.map_none, usable_samples _ _ _ (hlen ω)]
    rw [show samples tn (sampleValues (u ω).data none) = _ from (hω ω).2.2.2.2.2.1, List.map_ofFn]
    simp only [Function.comp_def]
  have hreal : ∀ ω j, ((D *ᵥ f) j + ξ (r j) ω).im = 0 := by
    intro ω j
    rw [← (hω ω).2.2.2.2.1 j]
    unfold entry
    simp only [Option.map_none, sampleValues, List.getElem?_map]
    cases (u ω).data[r j]? with
    | none => simp
    | some y => cases hy : y.value? <;> simp [hy]
  have hDr : ∀ j, ((D *ᵥ f) j).im = 0 := by
    intro j
    rw [hDf, rotary_linCurve _ _ _ _ _ hM hmean hslope, Complex.ofReal_im]
  have hξ : ∀ ω j, (ξ (r j) ω).im = 0 := by
    intro ω j
    have := hreal ω j
    rw [Complex.add_im, hDr, zero_add] at this
    exact this
  refine ⟨fun ω => (∑ j, gramRes D (fun j => ((D *ᵥ f) j + ξ (r j) ω).re) j ^ 2) / ((n : ℝ) - k), ?_, ?_, ?_⟩
  · have key := mean_residual (μ := μ) hd f (fun j => ξ (r j)) σ2 g1 g2
    dsimp only at key
    have e : ∀ ω, ∑ j, ‖((D *ᵥ f) j + ξ (r j) ω) - (D *ᵥ (solver D *ᵥ fun j => (D *ᵥ f) j + ξ (r j) ω)) j‖ ^ 2 =
        ∑ j, gramRes D (fun j => ((D *ᵥ f) j + ξ (r j) ω).re) j ^ 2 := by
      intro ω
      refine Finset.sum_congr rfl fun j _ => ?_
      have hx : ∀ l, (D *ᵥ f) l + ξ (r l) ω = ((((D *ᵥ f) l + ξ (r l) ω).re : ℝ) : ℂ) := by
        intro l
        apply Complex.ext
        · simp
        · rw [hreal, Complex.ofReal_im]
      have h1 : (D *ᵥ (solver D *ᵥ fun j => (D *ᵥ f) j + ξ (r j) ω)) j =
          ((fitted D (fun j => ((D *ᵥ f) j + ξ (r j) ω).re) j : ℝ) : ℂ) := by
        rw [mulVec_mulVec]
        show ∑ l, hat D j l * ((D *ᵥ f) l + ξ (r l) ω) = _
        unfold fitted
        push_cast
        refine Finset.sum_congr rfl fun l _ => ?_
        rw [hπ.hat_real, hx l]
        simp only [Complex.ofReal_re]
      rw [h1]
      have h3 : ((D *ᵥ f) j + ξ (r j) ω) - ((fitted D (fun j => ((D *ᵥ f) j + ξ (r j) ω).re) j : ℝ) : ℂ) =
          ((gramRes D (fun j => ((D *ᵥ f) j + ξ (r j) ω).re) j : ℝ) : ℂ) := by
        unfold gramRes
        rw [Complex.ofReal_sub, ← hx j]
      rw [h3, Complex.norm_real, Real.norm_eq_abs, sq_abs]
    simp only [e] at key
    have hpos : ((n : ℝ) - k) ≠ 0 := by
      have : (k : ℝ) < n := by exact_mod_cast hlt
      linarith
    refine ⟨key.1.div_const _, ?_⟩
    rw [integral_div, key.2]
    field_simp
  · intro ω
    rw [htimes, hdata]
    exact noise_same (hω ω).1 (hω ω).2.1 (linCurve_same (hω ω).2.1 (hω ω).2.2.1 (hω ω).2.2.2.1) (hnv hlt _)
  · rintro m ⟨ω₁, hm1⟩
    have hw : ∀ ω, WhiteRun E t (u ω) none lat opts (c ω) tn := fun ω =>
      ⟨H.returned ω, H.keys, H.ols, H.infer ω, (hci ω).1, (hci ω).2.1, (hci ω).2.2, H.kept ω, H.time ω⟩
    have hm0 : m ∈ (c ω₀).name := (hω ω₁).2.1.subset hm1
    obtain ⟨i₀, hi₀⟩ := List.getElem?_of_mem hm0
    obtain ⟨_, _, -, -, h70⟩ := C70_scalar (H.ready ω₀) hI (hw ω₀)
    obtain ⟨a, b, _, -, -, ba, bb, -, -, -⟩ := h70 i₀ m hi₀
    have hsame : ∀ ω {par : CurvePar → ℝ} {a : List ℝ}, Blue (c ω₀) (sampleTimes tn (u ω₀) none) par a →
        Blue (c ω) (sampleTimes tn (u ω) none) par a := by
      intro ω par a hb
      rw [htimes] at hb ⊢
      exact hb.same (hω ω).1 (linCurve_same (hω ω).2.1 (hω ω).2.2.1 (hω ω).2.2.2.1)
    have hadm : Admissible (c ω₀) ⟨fun n => 2 * (P n).re, fun n => -2 * (P n).im, mean.re, slope.re⟩ := by
      intro h
      show slope.re = 0
      rw [H.flat ω₀ h]; rfl
    have herr : ∀ {par : CurvePar → ℝ} {a : List ℝ}, Blue (c ω₀) (sampleTimes tn (u ω₀) none) par a →
        ∫ ω, (combine a (sampleU tn (u ω) none) - par ⟨fun n => 2 * (P n).re, fun n => -2 * (P n).im, mean.re, slope.re⟩) ^ 2 ∂μ =
          σ2 * sumSq a := by
      intro par a hb
      have hu := hb.unbiased _ hadm
      have hl := hb.length
      rw [htimes, List.map_ofFn] at hu
      rw [htimes, List.length_ofFn] at hl
      obtain ⟨α, rfl⟩ := UTide.exists_ofFn (α := ℝ) n a hl
      rw [combine_fin] at hu
      have key := (mean_square (μ := μ) (fun j => (α j : ℂ)) (fun j => ξ (r j)) σ2 g1 g2).2
      rw [sumSq_fin]
      have e : ∀ ω, (combine (List.ofFn α) (sampleU tn (u ω) none) -
          par ⟨fun n => 2 * (P n).re, fun n => -2 * (P n).im, mean.re, slope.re⟩) ^ 2 = ‖∑ j, (α j : ℂ) * ξ (r j) ω‖ ^ 2 := by
        intro ω
        rw [hdata, combine_fin, ← hu, ← Finset.sum_sub_distrib]
        have h3 : ∑ j, (α j : ℂ) * ξ (r j) ω = ((∑ j, α j * (ξ (r j) ω).re : ℝ) : ℂ) := by
          push_cast
          refine Finset.sum_congr rfl fun j _ => ?_
          congr 1
          apply Complex.ext
          · simp
          · rw [hξ, Complex.ofReal_im]
        rw [h3, Complex.norm_real, Real.norm_eq_abs, sq_abs]
        congr 1
        refine Finset.sum_congr rfl fun j _ => ?_
        have h4 := hDf j
        rw [rotary_linCurve _ _ _ _ _ hM hmean hslope] at h4
        have h5 := congrArg Complex.re h4
        rw [Complex.ofReal_re] at h5
        rw [Complex.add_re, h5]
        simp only [Function.comp]
        ring
      simp only [e, key]
      simp only [Complex.norm_real, Real.norm_eq_abs, sq_abs]
    refine ⟨a, b, fun ω => ⟨hsame ω ba, hsame ω bb⟩, herr ba, herr bb, fun ω i hi => ?_⟩
    obtain ⟨ci, q, hcc, -, h70'⟩ := C70_scalar (H.ready ω) hI (hw ω)
    obtain ⟨a', b', s2, -, -, ba', bb', hs2, he, hp⟩ := h70' i m hi
    cases ba'.unique (hsame ω ba)
    cases bb'.unique (hsame ω bb)
    have hss : s2 = (∑ j, gramRes D (fun j => ((D *ᵥ f) j + ξ (r j) ω).re) j ^ 2) / ((n : ℝ) - k) := by
      refine noise_unique hs2 ?_
      rw [htimes, hdata]
      exact noise_same (hω ω).1 (hω ω).2.1 (linCurve_same (hω ω).2.1 (hω ω).2.2.1 (hω ω).2.2.2.1) (hnv hlt _)
    refine ⟨he, fun hne => ?_⟩
    obtain ⟨da, dg, k1, k2, k3⟩ := hp hne
    rw [hss] at k1 k2
    exact ⟨ci, da, dg, hcc, k1, k2, k3⟩

end

end

end UTide.Props
