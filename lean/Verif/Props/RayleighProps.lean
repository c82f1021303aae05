import Verif.Lemmas.Rayleigh
import Verif.Props.NyquistProps
import Verif.Props.AvailProps
import Verif.Props.ReturnProps

/-!
# C117: the automatic selection never asks for more than an hourly record can give
-/

namespace UTide.Props

open UTide Dict

noncomputable section

/-! ## Specification -/

/-- A record without gaps: `n` usable samples `Δ` days apart, at least one per hour, for more than an hour, between
year 0 and (about) year 10951. -/
structure HourlyRecord (E : Env) (t : TimeArg) (u : Series) (v : Option Series) (opts : Dict PyVal) (t₀ Δ : ℝ) (n : ℕ) :
    Prop where
  times : ∃ ep, requested opts "epoch" = some ep ∧
    normalizeTime E.dt64 t.arr ep = .ok ((List.range n).map fun j : ℕ => .fin (t₀ + j * Δ))
  values : ∀ i < n, ∃ x, (sampleValues u.data (v.map Series.data))[i]? = some (some x)
  step : 0 < Δ
  hourly : 24 * Δ ≤ 1
  long : 1 < 24 * (((n : ℝ) - 1) * Δ)
  first : 0 ≤ t₀
  last : t₀ + ((n : ℝ) - 1) * Δ ≤ 4000000

/-- The caller leaves the selection to the code, with a Rayleigh criterion `r` of at least one. -/
structure Automatic (opts : Dict PyVal) (r : ℚ) : Prop where
  constit : requested opts "constit" = some (.str "auto")
  infer : requested opts "infer" = some .none
  order : ∃ oc, requested opts "order_constit" = some oc ∧ SortKey oc
  rayleigh : requested opts "Rayleigh_min" = some (.num r)
  atLeast : 1 ≤ r

/-- No nodal corrections, or a latitude that has them and a record too short to select one of the three constituents
whose nodal factor may vanish (27 days if `r` is one). -/
def MildNodal (opts : Dict PyVal) (la : ℝ) (r : ℚ) (Δ : ℝ) (n : ℕ) : Prop :=
  (requested opts "nodal").bind nodalMode = some .off ∨ (GoodLat la ∧ 24 * (((n : ℝ) - 1) * Δ) < 650 * r)

/-! ## Lemmas -/

section

variable {E : Env} {t : TimeArg} {u : Series} {v : Option Series} {opts : Dict PyVal} {t₀ Δ : ℝ} {n : ℕ} {r : ℚ} {la : ℝ}
  {c : Coef} {lat : Option ℝ}

/-- The regular times. -/
def ticks (t₀ Δ : ℝ) (n : ℕ) : List ℝ := (List.range n).map fun j : ℕ => t₀ + j * Δ

theorem finite_ticks (t₀ Δ : ℝ) (n : ℕ) : finiteTimes ((List.range n).map fun j : ℕ => .fin (t₀ + j * Δ)) = ticks t₀ Δ n := by
  unfold finiteTimes ticks
  rw [List.filterMap_map]
  exact congrFun List.filterMap_eq_map' _

theorem filterMap_some_map {α β : Type} (l : List α) (f : α → Option β) (g : α → β) (h : ∀ a ∈ l, f a = some (g a)) :
    l.filterMap f = l.map g := by
  induction l with
  | nil => rfl
  | cons a l ih =>
    rw [List.filterMap_cons, h a List.mem_cons_self, List.map_cons, ih fun b hb => h b (List.mem_cons_of_mem _ hb)]

theorem usable_ticks (hv : ∀ i < n, ∃ x, (sampleValues u.data (v.map Series.data))[i]? = some (some x))
    (hl : SameLength ((List.range n).map fun j : ℕ => .fin (t₀ + j * Δ)) u.data (v.map Series.data)) :
    (usable ((List.range n).map fun j : ℕ => .fin (t₀ + j * Δ)) u.data (v.map Series.data)).map Prod.fst = ticks t₀ Δ n := by
  rw [usable_samples _ _ _ hl]
  have hlen : (sampleValues u.data (v.map Series.data)).length = n := by
    obtain ⟨h1, h2⟩ := hl
    rw [List.length_map, List.length_range] at h1
    cases hw : v.map Series.data with
    | none => rw [hw] at *; simp [sampleValues, h1]
    | some w => have := h2 w hw; simp [sampleValues, ← this, h1]
  generalize sampleValues u.data (v.map Series.data) = xs at *
  unfold samples ticks
  have hz : ((List.range n).map fun j : ℕ => Fl.fin (t₀ + j * Δ)).zip xs =
      (List.range n).map fun j : ℕ => (Fl.fin (t₀ + j * Δ), (xs[j]?).join) := by
    apply List.ext_getElem?
    intro i
    by_cases hi : i < n
    · obtain ⟨x, hx⟩ := hv i hi
      have := (List.getElem?_zip_eq_some (l₁ := (List.range n).map fun j : ℕ => Fl.fin (t₀ + j * Δ)) (l₂ := xs) (i := i)
        (z := (Fl.fin (t₀ + i * Δ), some x))).2 ⟨by simp [hi], hx⟩
      rw [this]
      simp [hi, hx]
    · rw [List.getElem?_eq_none (by simp; omega), List.getElem?_eq_none (by simp; omega)]
  rw [hz, List.filterMap_map, filterMap_some_map _ _ fun j : ℕ => (t₀ + j * Δ, ((xs[j]?).join).getD 0)]
  · rw [List.map_map]; rfl
  · intro j hj
    obtain ⟨x, hx⟩ := hv j (List.mem_range.1 hj)
    simp [hx, Fl.toReal?]

theorem HourlyRecord.three (H : HourlyRecord E t u v opts t₀ Δ n) : 3 ≤ n := by
  by_contra hc
  have h1 : (n : ℝ) - 1 ≤ 1 := by
    have : (n : ℝ) ≤ 2 := by exact_mod_cast (by omega : n ≤ 2)
    linarith
  have := H.long; have := H.hourly; have := H.step
  nlinarith

theorem HourlyRecord.more (H : HourlyRecord E t u v opts t₀ Δ n) : 24 * (((n : ℝ) - 1) * Δ) ≤ n - 1 := by
  have h1 : (0 : ℝ) ≤ (n : ℝ) - 1 := by
    have : (3 : ℝ) ≤ n := by exact_mod_cast H.three
    linarith
  have := H.hourly
  nlinarith

theorem ticks_range (h1 : 1 ≤ n) (hΔ : 0 < Δ) : IsRange (ticks t₀ Δ n) (((n : ℝ) - 1) * Δ) := by
  have hmem : ∀ a, a ∈ ticks t₀ Δ n ↔ ∃ j : ℕ, j < n ∧ t₀ + j * Δ = a := fun a => by simp [ticks]
  refine ⟨⟨t₀ + (0 : ℕ) * Δ, (hmem _).2 ⟨0, by omega, rfl⟩, t₀ + ((n - 1 : ℕ) : ℝ) * Δ, (hmem _).2 ⟨n - 1, by omega, rfl⟩, ?_⟩, ?_⟩
  · rw [Nat.cast_sub h1]; push_cast; ring
  · intro a ha b hb
    obtain ⟨i, hi, rfl⟩ := (hmem a).1 ha
    obtain ⟨j, hj, rfl⟩ := (hmem b).1 hb
    have h2 : (j : ℝ) ≤ n - 1 := by
      have : (j : ℝ) + 1 ≤ n := by exact_mod_cast hj
      linarith
    have h3 : (0 : ℝ) ≤ i := Nat.cast_nonneg i
    nlinarith

theorem HourlyRecord.same (H : HourlyRecord E t u v opts t₀ Δ n) (ht : t.WF) (hu : u.WF) (hv : ∀ w, v = some w → w.WF)
    (hsh : GoodShapes t u v) :
    SameLength ((List.range n).map fun j : ℕ => Fl.fin (t₀ + j * Δ)) u.data (v.map Series.data) := by
  obtain ⟨ep, -, htn⟩ := H.times
  have h1 := normalizeTime_length _ _ _ _ htn
  obtain ⟨hs, -, hvs⟩ := hsh
  unfold TimeArg.WF at ht
  unfold Series.WF at hu
  refine ⟨by rw [h1, ← ht, ← hu, hs], fun w hw => ?_⟩
  obtain ⟨s, rfl, rfl⟩ := Option.map_eq_some_iff.1 hw
  have := hv s rfl
  unfold Series.WF at this
  rw [← hu, ← this, hvs s rfl]

theorem HourlyRecord.recordTimes (H : HourlyRecord E t u v opts t₀ Δ n)
    (hl : SameLength ((List.range n).map fun j : ℕ => Fl.fin (t₀ + j * Δ)) u.data (v.map Series.data)) :
    recordTimes ((List.range n).map fun j : ℕ => .fin (t₀ + j * Δ)) u v = ticks t₀ Δ n := by
  unfold Props.recordTimes
  rw [finite_ticks, usable_ticks H.values hl, ite_self]

theorem HourlyRecord.recordLength (H : HourlyRecord E t u v opts t₀ Δ n)
    (hl : SameLength ((List.range n).map fun j : ℕ => Fl.fin (t₀ + j * Δ)) u.data (v.map Series.data)) :
    RecordLength E t u v opts (((n : ℝ) - 1) * Δ) := by
  obtain ⟨ep, h1, h2⟩ := H.times
  refine ⟨ep, _, h1, h2, ?_⟩
  rw [H.recordTimes hl]
  exact ticks_range (le_trans (by norm_num) H.three) H.step

/-- What a result knows about the record. -/
theorem HourlyRecord.facts (H : HourlyRecord E t u v opts t₀ Δ n) (R : Ready E t u v) (hnd : opts.keys.Nodup)
    (h : solve E t u v lat opts = .ok c) :
    normalizeTime E.dt64 t.arr c.opt.epoch = .ok ((List.range n).map fun j : ℕ => .fin (t₀ + j * Δ)) ∧
    SameLength ((List.range n).map fun j : ℕ => Fl.fin (t₀ + j * Δ)) u.data (v.map Series.data) ∧
    0 ≤ c.reftime ∧ c.reftime ≤ 4000000 := by
  obtain ⟨opt, p, tn, constit, m, W, rf, full, o, ind, F⟩ := solve_facts R h
  have hr := getOpt_requests _ hnd _ _ F.hopt
  obtain ⟨ep, h1, h2⟩ := H.times
  have htn : tn = (List.range n).map fun j : ℕ => Fl.fin (t₀ + j * Δ) := by
    have := F.prep.init.time
    rw [hr.epoch ep h1] at this
    exact Except.ok.inj (this.symm.trans h2)
  subst htn
  have hl := F.prep.init.same R.ht R.hu R.hv
  refine ⟨by rw [F.copt]; exact F.prep.init.time, hl, ?_⟩
  obtain ⟨-, -, -, -, h5⟩ := editData_usable _ _ _ hl _ F.prep.init.edit
  obtain ⟨-, h6, -, -⟩ := timeStats_ok _ _ _ _ _ _ h5
  rw [finite_ticks, usable_ticks H.values hl, ite_self] at h6
  obtain ⟨a, b, ha, hb, hab⟩ := midpoint_spec _ _ h6
  have hin : ∀ x ∈ ticks t₀ Δ n, 0 ≤ x ∧ x ≤ 4000000 := by
    intro x hx
    unfold ticks at hx
    obtain ⟨j, hj, rfl⟩ := List.mem_map.1 hx
    have h2 : (j : ℝ) ≤ n - 1 := by
      have : (j : ℝ) + 1 ≤ n := by exact_mod_cast List.mem_range.1 hj
      linarith
    have h3 : (0 : ℝ) ≤ j := Nat.cast_nonneg j
    have := H.first; have := H.last; have := H.step
    constructor
    · positivity
    · nlinarith
  have e1 := hin a (List.mem_of_head? ha)
  have e2 := hin b (List.mem_of_getLast? hb)
  rw [F.creftime, hab]
  constructor <;> linarith [e1.1, e1.2, e2.1, e2.2]

end

/-! ## C117 -/

section

variable {E : Env} {t : TimeArg} {u : Series} {v : Option Series} {opts : Dict PyVal} {t₀ Δ : ℝ} {n : ℕ} {r : ℚ} {la : ℝ}
  {c : Coef} {lat : Option ℝ}

open Classical in
/-- **C117.** There are always more samples than unknowns (two for each constituent, the mean, the slope). -/
theorem C117_fits (R : Ready E t u v) (hnd : opts.keys.Nodup) (A : Automatic opts r) (H : HourlyRecord E t u v opts t₀ Δ n)
    (h : solve E t u v lat opts = .ok c) : numPar c < n := by
  obtain ⟨-, hl, -⟩ := H.facts R hnd h
  obtain ⟨oc, hoc, hs⟩ := A.order
  have hLpos : 0 < ((n : ℝ) - 1) * Δ := by linarith [H.long]
  obtain ⟨h1, h2, h3, -⟩ := C15_automatic E t u v lat opts R hnd A.constit A.infer oc hoc hs r A.rayleigh c h _
    (H.recordLength hl) hLpos.ne'
  have hsub : c.name ⊆ (catalogue.filter fun d => decide ((r : ℝ) / (24 * (((n : ℝ) - 1) * Δ)) ≤ d.df.toReal)).map Con.name := by
    intro m hm
    have := h2 m hm
    unfold constitNames at this
    obtain ⟨d, hd, rfl⟩ := List.mem_map.1 this
    exact List.mem_map_of_mem (List.mem_filter.2 ⟨hd, by simpa using (h3 d hd).1 hm⟩)
  have hlen := (List.subperm_of_subset h1 hsub).length_le
  rw [List.length_map] at hlen
  have hT : 0 < 24 * (((n : ℝ) - 1) * Δ) := by linarith
  have hr1 : (1 : ℝ) ≤ r := by exact_mod_cast A.atLeast
  have hp : (numPar c : ℝ) ≤ 2 * c.name.length + 2 := by
    unfold numPar
    split <;> push_cast <;> linarith
  have h3n := H.three
  rcases resolved_few _ hT ((r : ℝ) / (24 * (((n : ℝ) - 1) * Δ))) (by gcongr) with hf | hf
  · rw [hf] at hlen
    have : c.name.length = 0 := by simpa using hlen
    have h2n : numPar c ≤ 2 := by rw [this] at hp; exact_mod_cast (by simpa using hp)
    omega
  · have hm := H.more
    have hlen' : (c.name.length : ℝ) ≤ ((catalogue.filter fun d => decide ((r : ℝ) / (24 * (((n : ℝ) - 1) * Δ)) ≤ d.df.toReal)).length : ℝ) := by
      exact_mod_cast hlen
    have : (numPar c : ℝ) < n := by linarith
    exact_mod_cast this

/-- The selected frequencies are different, positive and below half the sampling frequency. -/
theorem C117_frequencies (R : Ready E t u v) (hnd : opts.keys.Nodup) (A : Automatic opts r)
    (H : HourlyRecord E t u v opts t₀ Δ n) (h : solve E t u v lat opts = .ok c) :
    c.frq.Nodup ∧ (∀ f ∈ c.frq, 0 < f) ∧ ∀ f ∈ c.frq, 2 * f < 1 / (24 * Δ) := by
  obtain ⟨-, hl, ht0, ht1⟩ := H.facts R hnd h
  obtain ⟨oc, hoc, hs⟩ := A.order
  have hLpos : 0 < ((n : ℝ) - 1) * Δ := by linarith [H.long]
  obtain ⟨h1, h2, h3, -⟩ := C15_automatic E t u v lat opts R hnd A.constit A.infer oc hoc hs r A.rayleigh c h _
    (H.recordLength hl) hLpos.ne'
  obtain ⟨e1, e2, e3⟩ := permute_aligned h
  obtain ⟨g1, g2⟩ := freq_good c.reftime ht0 ht1
  have hr1 : (1 : ℝ) ≤ r := by exact_mod_cast A.atLeast
  have hsel : ∀ k ∈ c.lind, k ∈ selectable := by
    intro k hk
    have hk' : k < catalogue.length := by rw [catalogue_length]; exact e3 k hk
    have hget : catalogue[k]? = some catalogue[k] := List.getElem?_eq_getElem hk'
    refine mem_selectable k _ hget ?_
    have hname : (catalogue[k]).name ∈ c.name := by
      rw [e1]
      refine List.mem_map.2 ⟨k, hk, ?_⟩
      unfold nameAt
      rw [hget]
    refine lt_of_lt_of_le ?_ ((h3 _ (List.getElem_mem hk')).1 hname)
    have : 0 < 24 * (((n : ℝ) - 1) * Δ) := by linarith
    positivity
  have hnyq : 1 ≤ 1 / (24 * Δ) := by
    rw [le_div_iff₀ (by linarith [H.step])]; linarith [H.hourly]
  have hlnd : c.lind.Nodup := by rw [e1] at h1; exact List.Nodup.of_map _ h1
  refine ⟨?_, ?_, ?_⟩
  · rw [e2]
    refine hlnd.map_on fun a ha b hb hab => ?_
    by_contra hne
    have : Std.Symm fun j k : ℕ => linFreqs c.reftime j ≠ linFreqs c.reftime k := ⟨fun _ _ => Ne.symm⟩
    exact List.Pairwise.forall (R := fun j k => linFreqs c.reftime j ≠ linFreqs c.reftime k)
      (g2.imp fun {x y} hxy => ne_of_lt hxy) (hsel a ha) (hsel b hb) hne hab
  · intro f hf
    rw [e2] at hf
    obtain ⟨k, hk, rfl⟩ := List.mem_map.1 hf
    exact (g1 k (hsel k hk)).1
  · intro f hf
    rw [e2] at hf
    obtain ⟨k, hk, rfl⟩ := List.mem_map.1 hf
    linarith [(g1 k (hsel k hk)).2]

/-- Samples for all unknowns. -/
theorem hourly_stretch (R : Ready E t u v) (hnd : opts.keys.Nodup) (A : Automatic opts r)
    (H : HourlyRecord E t u v opts t₀ Δ n) (h : solve E t u v lat opts = .ok c) :
    RegularStretch c (SampleTime ((List.range n).map fun j : ℕ => .fin (t₀ + j * Δ)) u.data (v.map Series.data)) Δ := by
  have hf := C117_fits R hnd A H h
  refine ⟨t₀, fun j hj => ?_⟩
  have hj' : j < n := lt_trans hj hf
  obtain ⟨x, hx⟩ := H.values j hj'
  exact ⟨j, x, by simp [hj'], hx⟩

theorem strong_df : (catalogue.all fun d => !(decide (d.name ∈ strongSatellites)) || decide (650 * d.df.num ≤ 2 ^ d.df.exp)) = true := by
  decide +kernel

theorem hourly_notVanishing (R : Ready E t u v) (hnd : opts.keys.Nodup) (A : Automatic opts r)
    (H : HourlyRecord E t u v opts t₀ Δ n) (hm : MildNodal opts la r Δ n) (h : solve E t u v (some la) opts = .ok c) :
    NotVanishing opts c := by
  rcases hm with hm | ⟨hg, hm⟩
  · exact .inl hm
  obtain ⟨opt, p, tn, constit, m, W, rf, full, o, ind, F⟩ := solve_facts R h
  have hla : c.lat = la := by rw [F.clat]; exact (Option.some.inj F.prep.init.hlat).symm
  obtain ⟨-, hl, -⟩ := H.facts R hnd h
  obtain ⟨oc, hoc, hs⟩ := A.order
  have hLpos : 0 < ((n : ℝ) - 1) * Δ := by linarith [H.long]
  obtain ⟨h1, h2, h3, -⟩ := C15_automatic E t u v _ opts R hnd A.constit A.infer oc hoc hs r A.rayleigh c h _
    (H.recordLength hl) hLpos.ne'
  refine .inr ⟨by rw [hla]; exact hg, fun q hq hstrong => ?_⟩
  have := h2 q hq
  unfold constitNames at this
  obtain ⟨d, hd, rfl⟩ := List.mem_map.1 this
  have h4 := (h3 d hd).1 hq
  have h5 := List.all_eq_true.1 strong_df d hd
  simp only [hstrong, decide_true, Bool.not_true, Bool.false_or, decide_eq_true_eq] at h5
  have h6 : 650 * d.df.toReal ≤ 1 := by
    unfold Dy.toReal
    rw [← mul_div_assoc, div_le_one (by positivity)]
    exact_mod_cast h5
  rw [div_le_iff₀ (by linarith)] at h4
  have hr1 : (1 : ℝ) ≤ r := by exact_mod_cast A.atLeast
  nlinarith

/-- The data determine every coefficient of the selected constituents. -/
theorem C117_separated (R : Ready E t u v) (hnd : opts.keys.Nodup) (A : Automatic opts r)
    (H : HourlyRecord E t u v opts t₀ Δ n) (hst : Steady opts) (hm : MildNodal opts la r Δ n)
    (h : solve E t u v (some la) opts = .ok c) (sp : Option InferSpec) (td : Bool) :
    Separated c sp td (SampleTime ((List.range n).map fun j : ℕ => .fin (t₀ + j * Δ)) u.data (v.map Series.data)) := by
  obtain ⟨h1, h2, h3⟩ := C117_frequencies R hnd A H h
  exact C101_separated R hnd h hst (hourly_notVanishing R hnd A H hm h) h1 h2 Δ H.step h3 _ (hourly_stretch R hnd A H h) sp td

theorem allKept_sort (hnd : opts.keys.Nodup) (A : Automatic opts r) (R : Ready E t u v)
    (h : solve E t u v lat opts = .ok c) : AllKept c ∧ readInfer c.opt.infer = .ok none := by
  obtain ⟨opt, p, tn, constit, m, W, rf, full, o, ind, F⟩ := solve_facts R h
  have hr := getOpt_requests _ hnd _ _ F.hopt
  obtain ⟨oc, hoc, hs⟩ := A.order
  have h1 := hr.order _ hoc
  constructor
  · left
    rw [F.copt]
    rcases hs with rfl | ⟨s, rfl⟩
    · rw [← Except.ok.inj h1]; exact .inl (.inl rfl)
    · unfold validateOrderConstit at h1
      dsimp only at h1
      by_cases hs : s ∈ ["PE", "frequency"] ++ (if opt.confInt = true then ["SNR"] else [])
      · rw [if_pos hs] at h1
        rw [← Except.ok.inj h1]
        have : s = "PE" ∨ s = "frequency" ∨ s = "SNR" := by
          generalize opt.confInt = b at hs
          cases b <;> simp at hs <;> grind
        rcases this with rfl | rfl | rfl
        · exact .inl (.inl rfl)
        · exact .inr (.inl (.inl rfl))
        · exact .inr (.inr (.inl rfl))
      · rw [if_neg hs] at h1
        simp at h1
  · rw [F.copt, ← Except.ok.inj (hr.infer _ A.infer)]; rfl

/-- A tidal elevation made of the selected constituents, a mean and a trend comes back. -/
theorem C117_scalar (R : Ready E t u none) (hnd : opts.keys.Nodup) (A : Automatic opts r)
    (H : HourlyRecord E t u none opts t₀ Δ n) (hst : Steady opts) (hmn : MildNodal opts la r Δ n)
    (hm : ∃ x, requested opts "method" = some x ∧ IsStr x "ols") (h : solve E t u none (some la) opts = .ok c)
    (a g : String → ℝ) (mean slope : ℝ) (hA : ∀ n ∈ c.name, 0 ≤ a n) (hs : c.opt.notrend = true → slope = 0)
    (hu : ∀ (i : ℕ) (x : ℝ), i < n → (u.data[i]?.bind Cell.value?) = some x → x = scalarCurve c a g mean slope (t₀ + i * Δ)) :
    (∀ (i : ℕ) (n : String), c.name[i]? = some n → ∃ e, ellipseAt c.ell i = some e ∧ e.Lsmaj = a n ∧
      e.Lsmin = 0 ∧ e.theta = 0 ∧ (0 < a n → ∃ k : ℤ, e.g = g n + 360 * k)) ∧
    c.mean = .one mean (if c.opt.notrend then none else some slope) := by
  obtain ⟨h1, h2, h3⟩ := C117_frequencies R hnd A H h
  obtain ⟨k1, k2⟩ := allKept_sort hnd A R h
  refine C101_scalar R hnd hm h k1 k2 _ (H.facts R hnd h).1 hst (hourly_notVanishing R hnd A H hmn h) h1 h2 Δ H.step h3
    (hourly_stretch R hnd A H h) a g mean slope hA hs fun i x τ hx hτ => ?_
  have hi : i < n := by
    by_contra hc
    rw [List.getElem?_eq_none (by simp; omega)] at hτ
    cases hτ
  rw [hu i x hi hx]
  have : t₀ + i * Δ = τ := by simpa [hi] using hτ
  rw [this]

/-- A current made of the selected constituents, a mean and a trend comes back. -/
theorem C117_vector {w : Series} (R : Ready E t u (some w)) (hnd : opts.keys.Nodup) (A : Automatic opts r)
    (H : HourlyRecord E t u (some w) opts t₀ Δ n) (hst : Steady opts) (hmn : MildNodal opts la r Δ n)
    (hm : ∃ x, requested opts "method" = some x ∧ IsStr x "ols") (h : solve E t u (some w) (some la) opts = .ok c)
    (e : String → Ell) (mean slope : ℂ) (he : ∀ n ∈ c.name, |(e n).Lsmin| ≤ (e n).Lsmaj)
    (hs : c.opt.notrend = true → slope = 0)
    (hu : ∀ (i : ℕ) (x y : ℝ), i < n → (u.data[i]?.bind Cell.value?) = some x → (w.data[i]?.bind Cell.value?) = some y →
      (⟨x, y⟩ : ℂ) = vectorCurve c e mean slope (t₀ + i * Δ)) :
    (∀ (i : ℕ) (n : String), c.name[i]? = some n → ∃ e', ellipseAt c.ell i = some e' ∧ e'.Lsmaj = (e n).Lsmaj ∧
      e'.Lsmin = (e n).Lsmin ∧
      (|(e n).Lsmin| < (e n).Lsmaj → ∃ a b : ℤ, e'.theta = (e n).theta + 180 * a ∧ e'.g = (e n).g + 180 * b ∧
        Even (a - b))) ∧
    c.mean = .two mean.re mean.im (if c.opt.notrend then none else some (slope.re, slope.im)) := by
  obtain ⟨h1, h2, h3⟩ := C117_frequencies R hnd A H h
  obtain ⟨k1, k2⟩ := allKept_sort hnd A R h
  refine C101_vector R hnd hm h k1 k2 _ (H.facts R hnd h).1 hst (hourly_notVanishing R hnd A H hmn h) h1 h2 Δ H.step h3
    (hourly_stretch R hnd A H h) e mean slope he hs fun i x y τ hx hy hτ => ?_
  have hi : i < n := by
    by_contra hc
    rw [List.getElem?_eq_none (by simp; omega)] at hτ
    cases hτ
  rw [hu i x y hi hx hy]
  have : t₀ + i * Δ = τ := by simpa [hi] using hτ
  rw [this]

theorem requested_set (opts : Dict PyVal) (k : String) (x : PyVal) (k' : String) :
    requested (Dict.set opts k x) k' = if k = k' then some x else requested opts k' := by
  rw [requested_eq, requested_eq]
  unfold effective
  rw [get?_set]
  split <;> simp

/-- Without intervals. -/
theorem hourly_sound (R : Ready E t u v) (D : Documented opts) (A : Automatic opts r)
    (H : HourlyRecord E t u v opts t₀ Δ n) (hmn : MildNodal opts la r Δ n) (hsh : GoodShapes t u v)
    (hols : requested opts "method" = some (.str "ols"))
    (hord : requested opts "order_constit" = some .none ∨ requested opts "order_constit" = some (.str "PE") ∨
      requested opts "order_constit" = some (.str "frequency"))
    (hnone : requested opts "conf_int" = some (.str "none")) : SoundCall E t u v la opts := by
  have hl := H.same R.ht R.hu R.hv hsh
  refine ⟨D, hols, hnone, hord, .inl A.constit, hsh, R.ht, R.hu, R.hv, ?_, ?_, ?_⟩
  · obtain ⟨ep, h1, h2⟩ := H.times
    refine ⟨ep, _, h1, h2, fun h0 => ?_⟩
    have h3 := usable_ticks (t₀ := t₀) (Δ := Δ) H.values hl
    rw [h0] at h3
    have := congrArg List.length h3
    simp [ticks] at this
    have := H.three
    omega
  · rcases hmn with h | ⟨h, -⟩
    · right
      obtain ⟨x, m, hx, hxm⟩ := D.nodal
      rw [hx] at h ⊢
      have h' : nodalMode x = some .off := h
      unfold nodalMode at h'
      split at h' <;> simp_all
    · exact .inl h
  · intro _ L hL h0
    have := RecordLength.unique hL (H.recordLength hl)
    have := H.long
    nlinarith

/-- **C117**, the call returns, with confidence intervals if asked for: linearised ones, or Monte Carlo ones with a
white noise floor. -/
theorem C117_returns (R : Ready E t u v) (hI : InvOk E.num.inv) (hM : MvnOk E.num.mvn) (D : Documented opts)
    (A : Automatic opts r) (H : HourlyRecord E t u v opts t₀ Δ n) (hst : Steady opts) (hmn : MildNodal opts la r Δ n)
    (hsh : GoodShapes t u v) (hols : requested opts "method" = some (.str "ols"))
    (hord : requested opts "order_constit" = some .none ∨ requested opts "order_constit" = some (.str "PE") ∨
      requested opts "order_constit" = some (.str "frequency"))
    (hci : requested opts "conf_int" = some (.str "MC") → requested opts "white" = some (.bool true)) :
    ∃ c, solve E t u v (some la) opts = .ok c := by
  have hl := H.same R.ht R.hu R.hv hsh
  have hkeep : ∀ k, k ≠ "conf_int" → requested (Dict.set opts "conf_int" (.str "none")) k = requested opts k := fun k hk => by
    rw [requested_set, if_neg (Ne.symm hk)]
  have hnone : requested (Dict.set opts "conf_int" (.str "none")) "conf_int" = some (.str "none") := by
    rw [requested_set, if_pos rfl]
  have hnd' := keys_set_nodup opts "conf_int" (.str "none") D.nodup
  have A' : Automatic (Dict.set opts "conf_int" (.str "none")) r :=
    ⟨by rw [hkeep _ (by decide)]; exact A.constit, by rw [hkeep _ (by decide)]; exact A.infer,
      by rw [hkeep _ (by decide)]; exact A.order, by rw [hkeep _ (by decide)]; exact A.rayleigh, A.atLeast⟩
  have H' : HourlyRecord E t u v (Dict.set opts "conf_int" (.str "none")) t₀ Δ n :=
    ⟨by rw [hkeep _ (by decide)]; exact H.times, H.values, H.step, H.hourly, H.long, H.first, H.last⟩
  have hst' : Steady (Dict.set opts "conf_int" (.str "none")) := by
    unfold Steady; rw [hkeep _ (by decide), hkeep _ (by decide)]; exact hst
  have hmn' : MildNodal (Dict.set opts "conf_int" (.str "none")) la r Δ n := by
    unfold MildNodal; rw [hkeep _ (by decide)]; exact hmn
  -- the same call without intervals
  have S : SoundCall E t u v la (Dict.set opts "conf_int" (.str "none")) := by
    refine hourly_sound R ⟨⟨hnd', ?_, ⟨"none", hnone, by decide⟩, ?_, ?_, ?_, ?_, ?_, ?_, ?_, ?_, ?_⟩, ?_⟩ A' H' hmn' hsh
      (by rw [hkeep _ (by decide)]; exact hols) (by rw [hkeep _ (by decide)]; exact hord) hnone
    · intro k hk
      rw [keys_set] at hk
      split at hk
      · exact D.names k hk
      · rw [List.mem_append, List.mem_singleton] at hk
        rcases hk with hk | rfl
        · exact D.names k hk
        · decide
    · rw [hkeep _ (by decide)]; exact D.nodal
    · rw [hkeep _ (by decide)]; exact D.phase
    · rw [hkeep _ (by decide)]; exact D.method
    · rw [hkeep _ (by decide)]; exact D.robust
    · rw [hkeep _ (by decide)]; exact D.trend
    · rw [hkeep _ (by decide)]; exact D.white
    · rw [hkeep _ (by decide)]; exact D.verbose
    · rw [hkeep _ (by decide)]; exact D.rayleigh
    · rw [hkeep _ (by decide)]
      rcases hord with h | h | h
      · exact .inl h
      · exact .inr (.inl h)
      · exact .inr (.inr (.inl h))
    · rw [hkeep _ (by decide)]; exact D.infer
  obtain ⟨c, hc⟩ := C75_returns E t u v la _ S
  obtain ⟨q, hq⟩ := C74_accepted opts D v.isSome
  have hr := getOpt_requests _ D.nodup _ _ hq
  obtain ⟨s, hs, hmem⟩ := D.conf
  obtain ⟨k1, k2⟩ := allKept_sort hnd' A' R hc
  have hf := H'.facts R hnd' hc
  have hov : Overdetermined c ((List.range n).map fun j : ℕ => .fin (t₀ + j * Δ)) u v := by
    refine ⟨C117_separated R hnd' A' H' hst' hmn' hc _ _, ?_⟩
    have h3 := usable_ticks (t₀ := t₀) (Δ := Δ) H.values hl
    unfold sampleTimes
    rw [h3]
    simpa [ticks] using C117_fits R hnd' A' H' hc
  have hkeys : ∀ k, k ∉ intervalKeys → requested (Dict.set opts "conf_int" (.str "none")) k = requested opts k := by
    intro k hk
    refine hkeep k ?_
    rintro rfl
    exact hk (by decide)
  have hcc := hr.conf _ hs
  have avail := fun (h1 : q.confInt = true) h2 => C72_available R hI hM hnd' D.nodup hkeys
    ⟨_, by rw [hkeep _ (by decide)]; exact hols, .inl rfl⟩ hc k2 k1 hf.1 hov q hq h1 h2
  simp only [List.mem_cons, List.not_mem_nil, or_false] at hmem
  rcases hmem with rfl | rfl | rfl
  · -- linearised
    have e1 : q.confInt = true ∧ q.linci = true := by
      generalize q.confInt = x, q.linci = y at hcc
      cases hcc with
      | linear h => exact ⟨rfl, rfl⟩
      | mc h _ => simp [PyVal.eqStr] at h
      | none h => simp [PyVal.eqStr] at h
    refine avail e1.1 (.inr ⟨e1.2, ?_, ?_⟩)
    · rw [finite_ticks]
      refine ⟨Δ, fun i a b ha hb => ?_⟩
      unfold ticks at ha hb
      simp only [List.getElem?_map, Option.map_eq_some_iff, List.getElem?_eq_some_iff, List.getElem_range] at ha hb
      obtain ⟨i', ⟨-, rfl⟩, rfl⟩ := ha
      obtain ⟨j', ⟨-, rfl⟩, rfl⟩ := hb
      push_cast
      ring
    · rw [finite_ticks]
      obtain ⟨m, rfl⟩ : ∃ m, n = m + 2 := ⟨n - 2, by have := H.three; omega⟩
      refine ⟨t₀ + (0 : ℕ) * Δ, t₀ + (1 : ℕ) * Δ, _, by
        unfold ticks
        rw [List.range_succ_eq_map, List.range_succ_eq_map]
        rfl, ?_⟩
      have := H.step
      intro h0
      simp at h0
      linarith
  · have e1 : q.confInt = true := by
      generalize q.confInt = x, q.linci = y at hcc
      cases hcc with
      | linear h => rfl
      | mc h _ => rfl
      | none _ h => simp [PyVal.eqStr] at h
    have e2 : q.white = true := by
      have := hr.white _ (hci hs)
      simpa [PyVal.truthy] using this.symm
    exact avail e1 (.inl e2)
  · exact C75_returns E t u v la _ (hourly_sound R D A H hmn hsh hols hord hs)

end

/-! ## Examples -/

/-- Defaults, except that the corrections are evaluated at the reference time. -/
def hourlyOpts : Dict PyVal := [("nodal", .str "linear_time"), ("phase", .str "linear_time"), ("epoch", .str "python")]

theorem hourly_documented : Documented hourlyOpts where
  nodup := by decide
  names := by decide
  conf := ⟨"linear", rfl, by decide⟩
  nodal := ⟨_, .atReference, rfl, rfl⟩
  phase := ⟨_, .atReference, rfl, rfl⟩
  method := ⟨_, rfl⟩
  robust := ⟨_, _, rfl⟩
  trend := ⟨_, rfl⟩
  white := ⟨_, rfl⟩
  verbose := ⟨_, rfl⟩
  rayleigh := ⟨_, rfl⟩
  order := .inl rfl
  infer := rfl

theorem hourly_automatic : Automatic hourlyOpts 1 := ⟨rfl, rfl, ⟨_, rfl, .inl rfl⟩, rfl, le_rfl⟩

/-- Values every hour from day 700000 on. -/
def hourlyT (n : ℕ) : TimeArg := ⟨[n], .float ((List.range n).map fun j : ℕ => .fin (700000 + j * (1 / 24))), []⟩
def hourlyU (n : ℕ) (y : ℕ → ℝ) : Series := ⟨[n], (List.range n).map fun j => ⟨.fin (y j), false⟩⟩

theorem hourly_ready (n : ℕ) (y : ℕ → ℝ) : Ready idealEnv (hourlyT n) (hourlyU n y) none :=
  idealReady _ _ _ (by simp [TimeArg.WF, TimeArr.length, hourlyT]) (by simp [Series.WF, hourlyU]) (by simp)

theorem hourly_record (n : ℕ) (y : ℕ → ℝ) (h3 : 3 ≤ n) (hn : n ≤ 650) :
    HourlyRecord idealEnv (hourlyT n) (hourlyU n y) none hourlyOpts 700000 (1 / 24) n := by
  have h1 : (3 : ℝ) ≤ n := by exact_mod_cast h3
  have h2 : (n : ℝ) ≤ 650 := by exact_mod_cast hn
  refine ⟨⟨_, rfl, ?_⟩, fun i hi => ⟨((y i : ℝ) : ℂ), ?_⟩, by norm_num, by norm_num, by linarith, by norm_num, by linarith⟩
  · show (Except.ok (List.map _ _) : Except PyErr (List Fl)) = _
    refine congrArg Except.ok ?_
    rw [List.map_map]
    refine List.map_congr_left fun j _ => ?_
    rfl
  · simp [hourlyU, sampleValues, hi, Cell.value?, Fl.toReal?]

/-- Every hourly record of three samples to 27 days can be analysed, with linearised intervals from coloured noise. -/
example (n : ℕ) (y : ℕ → ℝ) (h3 : 3 ≤ n) (hn : n ≤ 650) :
    ∃ c, solve idealEnv (hourlyT n) (hourlyU n y) none (some 45) hourlyOpts = .ok c ∧ numPar c < n := by
  have H := hourly_record n y h3 hn
  have h2 : (n : ℝ) ≤ 650 := by exact_mod_cast hn
  have hm : MildNodal hourlyOpts 45 1 (1 / 24) n := .inr ⟨⟨by norm_num, by norm_num, by norm_num⟩, by push_cast; linarith⟩
  obtain ⟨c, hc⟩ := C117_returns (hourly_ready n y) idealNum_ok.inv idealNum_ok.mvn hourly_documented hourly_automatic H
    ⟨.inr rfl, .inr rfl⟩ hm ⟨rfl, rfl, by simp⟩ rfl (.inl rfl) (fun h => by simp [requested, hourlyOpts, documentedDefault] at h)
  exact ⟨c, hc, C117_fits (hourly_ready n y) hourly_documented.nodup hourly_automatic H hc⟩

/-- A constant sea level is found to be one, without tides and without trend. -/
example (n : ℕ) (h3 : 3 ≤ n) (hn : n ≤ 650) :
    ∃ c, solve idealEnv (hourlyT n) (hourlyU n fun _ => 5) none (some 45) hourlyOpts = .ok c ∧
      (∀ (i : ℕ) (m : String), c.name[i]? = some m → ∃ e, ellipseAt c.ell i = some e ∧ e.Lsmaj = 0) ∧
      c.mean = .one 5 (if c.opt.notrend then none else some 0) := by
  have H := hourly_record n (fun _ => 5) h3 hn
  have h2 : (n : ℝ) ≤ 650 := by exact_mod_cast hn
  have hm : MildNodal hourlyOpts 45 1 (1 / 24) n := .inr ⟨⟨by norm_num, by norm_num, by norm_num⟩, by push_cast; linarith⟩
  obtain ⟨c, hc⟩ := C117_returns (hourly_ready n _) idealNum_ok.inv idealNum_ok.mvn hourly_documented hourly_automatic H
    ⟨.inr rfl, .inr rfl⟩ hm ⟨rfl, rfl, by simp⟩ rfl (.inl rfl) (fun h => by simp [requested, hourlyOpts, documentedDefault] at h)
  obtain ⟨e1, e2⟩ := C117_scalar (hourly_ready n _) hourly_documented.nodup hourly_automatic H ⟨.inr rfl, .inr rfl⟩ hm
    ⟨_, rfl, .inl rfl⟩ hc (fun _ => 0) (fun _ => 0) 5 0 (fun _ _ => le_rfl) (fun _ => rfl) (fun i x hi hx => by
      have : 5 = x := by simpa [hourlyU, hi, Cell.value?, Fl.toReal?] using hx
      simp [scalarCurve, ← this])
  exact ⟨c, hc, fun i m hm => by obtain ⟨e, h1, h2, -⟩ := e1 i m hm; exact ⟨e, h1, h2⟩, e2⟩

end

end UTide.Props
