import Verif.Lemmas.Result
import Verif.Lemmas.Lstsq

/-!
# Coefficient vectors described by constituent names
-/

namespace UTide

noncomputable section

local notation "conj" => starRingEnd ℂ

/-- The basis function of the constituent called `n`. -/
def nameBasis (fl : Flags) (tref lat t : ℝ) (n : String) : ℂ :=
  utE fl tref lat t (linFreqs tref (constitNames.idxOf n)) (constitNames.idxOf n)

theorem idxOf_nameAt {i : ℕ} (h : i < 146) : constitNames.idxOf (nameAt i) = i := by
  have h1 := constitNames_nameAt h
  obtain ⟨hi, h2⟩ := List.getElem?_eq_some_iff.1 h1
  rw [← h2]
  exact names_nodup.idxOf_getElem i hi

theorem nameBasis_nameAt (fl : Flags) (tref lat t : ℝ) {i : ℕ} (h : i < 146) :
    nameBasis fl tref lat t (nameAt i) = utE fl tref lat t (linFreqs tref i) i := by
  unfold nameBasis; rw [idxOf_nameAt h]

theorem SelAligned.names {tref : ℝ} {sel : Sel} (h : SelAligned tref sel) :
    sel.name = sel.nrName ++ sel.refs.map RefCon.name ++ sel.refs.flatMap fun r => r.inf.map InfCon.name := by
  rw [h.name, h.lind_eq, List.map_append, List.map_append, h.nrName]
  congr 1
  · congr 1
    rw [List.map_map]
    exact List.map_congr_left fun r hr => ((h.ref r hr).2.1).symm
  · rw [List.map_flatMap]
    apply List.flatMap_congr
    intro r hr
    rw [List.map_map]
    exact List.map_congr_left fun q hq => (((h.ref r hr).2.2.2 q hq).2.1).symm

theorem selBasis_names {tref : ℝ} {sel : Sel} (h : SelAligned tref sel) (fl : Flags) (lat t : ℝ) :
    selBasis fl tref lat sel t = sel.name.map (nameBasis fl tref lat t) := by
  rw [h.names]
  unfold selBasis rowNR
  rw [List.map_append, List.map_append]
  congr 1
  · congr 1
    · rw [h.nrFrq, h.nrName, List.map_map]
      have : List.zipWith (utE fl tref lat t) (sel.nrLind.map (linFreqs tref)) sel.nrLind =
          sel.nrLind.map fun i => utE fl tref lat t (linFreqs tref i) i := by
        conv_lhs => rw [show sel.nrLind = sel.nrLind.map id by simp]
        rw [List.map_map]
        exact zipWith_map_same _ _ _ _
      rw [this]
      exact List.map_congr_left fun i hi => (nameBasis_nameAt fl tref lat t (h.nr_lt i hi)).symm
    · rw [List.map_map]
      refine List.map_congr_left fun r hr => ?_
      obtain ⟨h1, h2, h3, -⟩ := h.ref r hr
      show _ = nameBasis fl tref lat t r.name
      rw [h2, nameBasis_nameAt fl tref lat t h1, h3]
  · rw [List.map_flatMap]
    apply List.flatMap_congr
    intro r hr
    rw [List.map_map]
    refine List.map_congr_left fun q hq => ?_
    obtain ⟨h1, h2, h3⟩ := (h.ref r hr).2.2.2 q hq
    show _ = nameBasis fl tref lat t q.name
    rw [h2, nameBasis_nameAt fl tref lat t h1, h3]

/-- The coefficient vector with rotary coefficients `P n`, `M n` for constituent `n`. -/
def nameCoef (sel : Sel) (trend : Bool) (P M : String → ℂ) (mean slope : ℂ) : List ℂ :=
  sel.nrName.map P ++ sel.nrName.map M ++ sel.refs.map (fun r => P r.name) ++ sel.refs.map (fun r => M r.name) ++
    [mean] ++ (if trend then [slope] else [])

theorem nameCoef_blocks {tref : ℝ} {sel : Sel} (h : SelAligned tref sel) (trend : Bool) (P M : String → ℂ)
    (mean slope : ℂ) : Blocks sel trend (nameCoef sel trend P M mean slope) (sel.nrName.map P) (sel.nrName.map M)
      (sel.refs.map fun r => P r.name) (sel.refs.map fun r => M r.name) mean (if trend then [slope] else []) := by
  have hn : sel.nrName.length = sel.nNR := by rw [h.nrName, List.length_map, h.nNR]
  refine ⟨rfl, ?_, ?_, ?_, ?_, ?_⟩
  · rw [List.length_map, hn]
  · rw [List.length_map, hn]
  · rw [List.length_map, h.nR]
  · rw [List.length_map, h.nR]
  · cases trend <;> rfl

/-- Inferred constituents are tied to their references. -/
def TiedBy (sel : Sel) (R : InfCon → ℂ) (P : String → ℂ) : Prop :=
  ∀ r ∈ sel.refs, ∀ q ∈ r.inf, P q.name = R q * P r.name

theorem inferred_names (sel : Sel) (R : InfCon → ℂ) (P : String → ℂ) (hP : TiedBy sel R P) (a : List ℂ)
    (ha : a.length = sel.nNR) :
    inferredCoef sel R (a ++ sel.refs.map fun r => P r.name) =
      (sel.refs.flatMap fun r => r.inf.map InfCon.name).map P := by
  rw [inferredCoef_eq sel R a _ ha (by rw [List.length_map]), List.map_flatMap]
  unfold TiedBy at hP
  generalize sel.refs = refs at hP
  induction refs with
  | nil => rfl
  | cons r refs ih =>
    rw [List.map_cons, List.zip_cons_cons, List.flatMap_cons, List.flatMap_cons, ih fun r' hr => hP r' (by simp [hr])]
    congr 1
    rw [List.map_map]
    exact List.map_congr_left fun q hq => (hP r (by simp) q hq).symm

theorem nameCoef_allAp {tref : ℝ} {sel : Sel} (h : SelAligned tref sel) (trend : Bool) (P M : String → ℂ)
    (mean slope : ℂ) (hP : TiedBy sel InfCon.Rp P) :
    allAp sel (nameCoef sel trend P M mean slope) = sel.name.map P := by
  have hb := nameCoef_blocks h trend P M mean slope
  unfold allAp
  rw [hb.ap, inferred_names sel _ P hP _ hb.a, h.names]
  simp [List.map_append, Function.comp_def]

theorem nameCoef_allAm {tref : ℝ} {sel : Sel} (h : SelAligned tref sel) (trend : Bool) (P M : String → ℂ)
    (mean slope : ℂ) (hM : TiedBy sel InfCon.Rm M) :
    allAm sel (nameCoef sel trend P M mean slope) = sel.name.map M := by
  have hb := nameCoef_blocks h trend P M mean slope
  unfold allAm
  rw [hb.am, inferred_names sel _ M hM _ hb.b, h.names]
  simp [List.map_append, Function.comp_def]

theorem rotary_map {α : Type} (l : List α) (E P M : α → ℂ) :
    rotary (l.map E) (l.map P) (l.map M) = (l.map fun n => E n * P n + conj (E n) * M n).sum := by
  induction l with
  | nil => simp [rotary]
  | cons a l ih =>
    unfold rotary at ih ⊢
    simp only [List.map_cons, dot_cons, List.sum_cons]
    rw [← ih]
    ring

/-- A row of the matrix times such a vector. -/
theorem row_nameCoef {tref : ℝ} {sel : Sel} (h : SelAligned tref sel) (fl : Flags) (lat lor : ℝ) (trend : Bool)
    (t : ℝ) (hE : ∀ r ∈ sel.refs, utE fl tref lat t r.frq r.lind ≠ 0) (P M : String → ℂ) (mean slope : ℂ)
    (hP : TiedBy sel InfCon.Rp P) (hM : TiedBy sel InfCon.Rm M) (hlor : trend = true → lor ≠ 0)
    (hs : trend = false → slope = 0) :
    dot (modelRow fl tref lat lor trend false sel t) (nameCoef sel trend P M mean (slope * (lor : ℂ))) =
      (sel.name.map fun n => nameBasis fl tref lat t n * P n + conj (nameBasis fl tref lat t n) * M n).sum + mean +
        slope * ((t - tref : ℝ) : ℂ) := by
  have hb := nameCoef_blocks h trend P M mean (slope * (lor : ℂ))
  rw [row_signal fl tref lat lor trend sel t _ h hb.length hE, nameCoef_allAp h _ _ _ _ _ hP,
    nameCoef_allAm h _ _ _ _ _ hM, selBasis_names h, rotary_map, hb.mean _ rfl]
  congr 1
  cases trend with
  | false => simp [hs rfl]
  | true =>
    have h1 := hb.slope _ rfl
    simp only [if_true] at h1 ⊢
    rw [← (List.cons.inj h1).1]
    have : (lor : ℂ) ≠ 0 := by exact_mod_cast hlor rfl
    push_cast
    field_simp

theorem cost_map (l : List (ℝ × ℂ)) (row : ℝ → List ℂ) (m : List ℂ) :
    cost ((l.map Prod.fst).map row) (l.map Prod.snd) m = (l.map fun s => ‖s.2 - dot (row s.1) m‖ ^ 2).sum := by
  unfold cost
  rw [List.map_map, zipWith_map_same]
  rfl

end

end UTide
