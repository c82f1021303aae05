import Verif.Props.CatalogueProps
import Verif.Props.RayleighProps

/-!
# What the automatic selection separates: C139

`constit='auto'` compares each constituent with one other, its comparison constituent.  The Rayleigh criterion as users
know it is about all pairs.
-/

namespace UTide.Props

noncomputable section

/-! ## Specification -/

/-- The request that the selection be made by the code, with a Rayleigh criterion `r`. -/
structure Selects (opts : Dict PyVal) (r : ℚ) : Prop where
  constit : requested opts "constit" = some (.str "auto")
  infer : requested opts "infer" = some .none
  order : ∃ oc, requested opts "order_constit" = some oc ∧ SortKey oc
  rayleigh : requested opts "Rayleigh_min" = some (.num r)
  pos : 0 < r

/-- The pair that is not compared with each other. -/
def IsK1M2 (a b : String) : Prop := (a = "K1" ∧ b = "M2") ∨ (a = "M2" ∧ b = "K1")

/-- Length in days from which on a constituent is selected if the Rayleigh criterion is one: not yet at the first
number, at the second one for sure. -/
def firstDays : List (String × ℚ × ℚ) :=
  [("M2", 0.5175, 0.5176), ("K1", 0.9972, 0.9973), ("M4", 1.035, 1.0351), ("M6", 1.0758, 1.0759),
   ("O1", 13.6607, 13.6608), ("S2", 14.7652, 14.7653), ("MS4", 14.7652, 14.7653), ("MSF", 14.7652, 14.7653),
   ("N2", 27.5545, 27.5546), ("Q1", 27.5545, 27.5546), ("MN4", 27.5545, 27.5546), ("MM", 31.8119, 31.812),
   ("L2", 31.8119, 31.812), ("MU2", 31.8119, 31.812), ("K2", 182.6211, 182.6212), ("P1", 182.6211, 182.6212),
   ("MF", 182.6211, 182.6212), ("SSA", 182.6211, 182.6212), ("NU2", 205.8924, 205.8925), ("2N2", 205.8924, 205.8925),
   ("SA", 365.2247, 365.2248), ("S1", 365.2596, 365.2597), ("T2", 365.2596, 365.2597), ("R2", 365.2596, 365.2597)]

/-- The constituents selected before their comparison constituent is. -/
def early : List String := ["2Q1", "OO1", "EPS2", "ETA2", "SK3", "2MK5", "3MK7"]

/-! ## Lemmas -/

/-- Two constituents that can be selected are as far apart as one of them from its comparison constituent. -/
theorem pair_table : (catalogue.all fun a => catalogue.all fun b => (a.name == b.name) ||
    decide (dyRat a.df ≤ 0) || decide (dyRat b.df ≤ 0) ||
    decide (dyRat a.df ≤ |dyRat a.freq - dyRat b.freq|) || decide (dyRat b.df ≤ |dyRat a.freq - dyRat b.freq|) ||
    ((a.name == "K1" && b.name == "M2") || (a.name == "M2" && b.name == "K1"))) = true := by
  decide +kernel

theorem k1m2_table : (catalogue.all fun a => catalogue.all fun b =>
    !((a.name == "K1" && b.name == "M2") || (a.name == "M2" && b.name == "K1")) ||
    (decide (1 / (24 * 1.076) ≤ |dyRat a.freq - dyRat b.freq|) && decide (|dyRat a.freq - dyRat b.freq| < 1 / (24 * 1.0758)) &&
      decide (1 / (24 * 0.9973) ≤ dyRat a.df) && decide (1 / (24 * 0.9973) ≤ dyRat b.df))) = true := by
  decide +kernel

theorem days_table : (firstDays.all fun x => decide (0 < x.2.1) && decide (0 < x.2.2) && catalogue.any fun a =>
    (a.name == x.1) && decide (dyRat a.df < 1 / (24 * x.2.1)) && decide (1 / (24 * x.2.2) ≤ dyRat a.df)) = true := by
  decide +kernel

theorem comparison_table : (catalogue.all fun a => decide (dyRat a.df ≤ 0) || (early.contains a.name) ||
    match a.kmpr with
    | none => false
    | some j => match catalogue[j]? with
      | none => false
      | some k => (k.name == "Z0") || decide (dyRat a.df ≤ dyRat k.df)) = true := by
  decide +kernel

theorem published_entry {n : String} {φ : ℝ} (h : Published n φ) :
    ∃ c ∈ catalogue, c.name = n ∧ φ = (dyRat c.freq : ℝ) := by
  have hm : n ∈ constitNames := by
    rw [← C67_frequencies.1]
    exact (Dict.get?_isSome_iff _ _).1 (by rw [h]; rfl)
  obtain ⟨c, hc, hn, h1, -⟩ := C67_frequencies.2.2 n hm
  refine ⟨c, hc, hn, ?_⟩
  rw [dyRat_cast]
  exact Option.some.inj (h.symm.trans h1)

section
variable {E : Env} {t : TimeArg} {u : Series} {v : Option Series} {lat : Option ℝ} {opts : Dict PyVal} {c : Coef}
  {r : ℚ} {L : ℝ}

theorem selected_iff (R : Ready E t u v) (hnd : opts.keys.Nodup) (A : Selects opts r) (h : solve E t u v lat opts = .ok c)
    (hL : RecordLength E t u v opts L) (hpos : 0 < L) (a : Con) (ha : a ∈ catalogue) :
    a.name ∈ c.name ↔ r / (24 * L) ≤ (dyRat a.df : ℝ) := by
  obtain ⟨oc, hoc, hs⟩ := A.order
  rw [dyRat_cast]
  exact (C15_automatic E t u v lat opts R hnd A.constit A.infer oc hoc hs r A.rayleigh c h L hL hpos.ne').2.2.1 a ha

theorem pair_apart (R : Ready E t u v) (hnd : opts.keys.Nodup) (A : Selects opts r) (h : solve E t u v lat opts = .ok c)
    (hL : RecordLength E t u v opts L) (hpos : 0 < L) (a b : String) (ha : a ∈ c.name) (hb : b ∈ c.name) (hab : a ≠ b)
    (φ ψ : ℝ) (hφ : Published a φ) (hψ : Published b ψ) : r / (24 * L) ≤ |φ - ψ| ∨ IsK1M2 a b := by
  obtain ⟨x, hx, rfl, rfl⟩ := published_entry hφ
  obtain ⟨y, hy, rfl, rfl⟩ := published_entry hψ
  have h1 := (selected_iff R hnd A h hL hpos x hx).1 ha
  have h2 := (selected_iff R hnd A h hL hpos y hy).1 hb
  have hr : (0 : ℝ) < r / (24 * L) := div_pos (by exact_mod_cast A.pos) (by linarith)
  have ht := List.all_eq_true.1 (List.all_eq_true.1 pair_table x hx) y hy
  simp only [Bool.or_eq_true, Bool.and_eq_true, beq_iff_eq, decide_eq_true_eq] at ht
  rcases ht with ((((ht | ht) | ht) | ht) | ht) | ht
  · exact absurd ht hab
  · have := (Rat.cast_le (K := ℝ)).2 ht
    push_cast at this
    linarith
  · have := (Rat.cast_le (K := ℝ)).2 ht
    push_cast at this
    linarith
  · have := (Rat.cast_le (K := ℝ)).2 ht
    push_cast at this
    exact .inl (h1.trans this)
  · have := (Rat.cast_le (K := ℝ)).2 ht
    push_cast at this
    exact .inl (h2.trans this)
  · exact .inr ht

theorem k1m2_gap {a b : String} {φ ψ : ℝ} (hφ : Published a φ) (hψ : Published b ψ) (h : IsK1M2 a b) :
    1 / (24 * 1.076) ≤ |φ - ψ| ∧ |φ - ψ| < 1 / (24 * 1.0758) := by
  obtain ⟨x, hx, rfl, rfl⟩ := published_entry hφ
  obtain ⟨y, hy, rfl, rfl⟩ := published_entry hψ
  have ht := List.all_eq_true.1 (List.all_eq_true.1 k1m2_table x hx) y hy
  simp only [Bool.or_eq_true, Bool.and_eq_true, Bool.not_eq_true', decide_eq_true_eq] at ht
  rcases ht with ht | ⟨⟨⟨h1, h2⟩, -⟩, -⟩
  · have : ((x.name == "K1" && y.name == "M2") || (x.name == "M2" && y.name == "K1")) = true := by
      simp only [Bool.or_eq_true, Bool.and_eq_true, beq_iff_eq]
      exact h
    rw [ht] at this
    cases this
  · have h1' := (Rat.cast_le (K := ℝ)).2 h1
    have h2' := (Rat.cast_lt (K := ℝ)).2 h2
    push_cast at h1' h2'
    constructor
    · norm_num at h1' ⊢; exact h1'
    · norm_num at h2' ⊢; exact h2'

/-! ## C139 -/

/-- **C139**: any two constituents of an automatic selection differ in published frequency by at least `Rayleigh_min`
over the record length, except K1 and M2 on records of less than 1.076 days (times `Rayleigh_min`). -/
theorem C139_pairs (R : Ready E t u v) (hnd : opts.keys.Nodup) (A : Selects opts r) (h : solve E t u v lat opts = .ok c)
    (hL : RecordLength E t u v opts L) (hpos : 0 < L) (a b : String) (ha : a ∈ c.name) (hb : b ∈ c.name) (hab : a ≠ b)
    (φ ψ : ℝ) (hφ : Published a φ) (hψ : Published b ψ) :
    r / (24 * L) ≤ |φ - ψ| ∨ (IsK1M2 a b ∧ L < 1.076 * r) := by
  rcases pair_apart R hnd A h hL hpos a b ha hb hab φ ψ hφ hψ with h1 | h1
  · exact .inl h1
  · by_cases hlt : L < 1.076 * r
    · exact .inr ⟨h1, hlt⟩
    · left
      refine le_trans ?_ (k1m2_gap hφ hψ h1).1
      rw [div_le_div_iff₀ (by linarith) (by norm_num)]
      linarith

/-- **C139**, the exception: on records of 0.9973 to 1.0758 days (times `Rayleigh_min`) both are selected although they
are closer than that. -/
theorem C139_exception (R : Ready E t u v) (hnd : opts.keys.Nodup) (A : Selects opts r) (h : solve E t u v lat opts = .ok c)
    (hL : RecordLength E t u v opts L) (h1 : 0.9973 * (r : ℝ) ≤ L) (h2 : L ≤ 1.0758 * r) :
    "K1" ∈ c.name ∧ "M2" ∈ c.name ∧ ∀ φ ψ, Published "K1" φ → Published "M2" ψ → |φ - ψ| < r / (24 * L) := by
  have hr : (0 : ℝ) < r := by exact_mod_cast A.pos
  have hpos : 0 < L := by linarith
  have key : ∀ n n', IsK1M2 n n' → n ∈ c.name := by
    intro n n' hn
    have hm : ∀ n ∈ ["K1", "M2"], ∃ x ∈ catalogue, x.name = n := by decide +kernel
    obtain ⟨x, hx, rfl⟩ := hm n (by rcases hn with ⟨rfl, -⟩ | ⟨rfl, -⟩ <;> simp)
    obtain ⟨y, hy, rfl⟩ := hm n' (by rcases hn with ⟨-, rfl⟩ | ⟨-, rfl⟩ <;> simp)
    have ht := List.all_eq_true.1 (List.all_eq_true.1 k1m2_table x hx) y hy
    simp only [Bool.or_eq_true, Bool.and_eq_true, Bool.not_eq_true', decide_eq_true_eq] at ht
    rcases ht with ht | ⟨⟨-, h3⟩, -⟩
    · have : ((x.name == "K1" && y.name == "M2") || (x.name == "M2" && y.name == "K1")) = true := by
        simp only [Bool.or_eq_true, Bool.and_eq_true, beq_iff_eq]
        exact hn
      rw [ht] at this
      cases this
    · have h3' := (Rat.cast_le (K := ℝ)).2 h3
      push_cast at h3'
      refine (selected_iff R hnd A h hL hpos x hx).2 (le_trans ?_ h3')
      rw [div_le_div_iff₀ (by linarith) (by norm_num)]
      linarith
  refine ⟨key _ _ (.inl ⟨rfl, rfl⟩), key _ _ (.inr ⟨rfl, rfl⟩), fun φ ψ hφ hψ => ?_⟩
  refine (k1m2_gap hφ hψ (.inl ⟨rfl, rfl⟩)).2.trans_le ?_
  rw [div_le_div_iff₀ (by norm_num) (by linarith)]
  linarith

/-- **C139**, reported frequencies: the same with the frequencies of the result, up to 2e-9 cycles per hour within 400
years of 1900 and up to 2e-6 over ten thousand years. -/
theorem C139_reported (R : Ready E t u v) (hnd : opts.keys.Nodup) (A : Selects opts r) (h : solve E t u v lat opts = .ok c)
    (hL : RecordLength E t u v opts L) (hlong : 1.076 * (r : ℝ) ≤ L) (i j : ℕ) (hij : i ≠ j) (f g : ℝ)
    (hf : c.frq[i]? = some f) (hg : c.frq[j]? = some g) :
    (|c.reftime - 693595.5| ≤ 146100 → r / (24 * L) - 2e-9 ≤ |f - g|) ∧
    (InEra c.reftime → r / (24 * L) - 2e-6 ≤ |f - g|) := by
  have hr : (0 : ℝ) < r := by exact_mod_cast A.pos
  have hpos : 0 < L := by linarith
  obtain ⟨e1, e2, e3⟩ := permute_aligned h
  have hname : ∀ (i : ℕ) (f : ℝ), c.frq[i]? = some f → ∃ n, c.name[i]? = some n := by
    intro i f hf
    rw [e2, List.getElem?_map] at hf
    rw [e1, List.getElem?_map]
    cases hk : c.lind[i]? with
    | none => rw [hk] at hf; cases hf
    | some k => exact ⟨_, rfl⟩
  obtain ⟨a, ha⟩ := hname i f hf
  obtain ⟨b, hb⟩ := hname j g hg
  obtain ⟨oc, hoc, hs⟩ := A.order
  have hN := (C15_automatic E t u v lat opts R hnd A.constit A.infer oc hoc hs r A.rayleigh c h L hL hpos.ne').1
  have hab : a ≠ b := by
    rintro rfl
    obtain ⟨hi, hi'⟩ := List.getElem?_eq_some_iff.1 ha
    exact hij ((List.getElem?_inj hi hN).1 (ha.trans hb.symm))
  obtain ⟨f', φ, hf', hφ, h1, h2⟩ := C130_frequencies h i a ha
  obtain ⟨g', ψ, hg', hψ, h3, h4⟩ := C130_frequencies h j b hb
  cases Option.some.inj (hf.symm.trans hf')
  cases Option.some.inj (hg.symm.trans hg')
  have hm : r / (24 * L) ≤ |φ - ψ| := by
    rcases C139_pairs R hnd A h hL hpos a b (List.mem_of_getElem? ha) (List.mem_of_getElem? hb) hab φ ψ hφ hψ with hm | hm
    · exact hm
    · linarith [hm.2]
  have tri : |φ - ψ| ≤ |f - g| + |f - φ| + |g - ψ| := by
    have : φ - ψ = (f - g) - (f - φ) + (g - ψ) := by ring
    rw [this]
    exact (abs_add_le _ _).trans (add_le_add (abs_sub _ _) le_rfl)
  constructor
  · intro hd
    have := h1 hd
    have := h3 hd
    linarith
  · intro hd
    have := h2 hd
    have := h4 hd
    linarith

/-- **C139**, how long a record must be: the constituents of `firstDays` are in the result of an automatic selection
from the second number of days (times `Rayleigh_min`) on, and are not up to the first. -/
theorem C139_days (R : Ready E t u v) (hnd : opts.keys.Nodup) (A : Selects opts r) (h : solve E t u v lat opts = .ok c)
    (hL : RecordLength E t u v opts L) (hpos : 0 < L) (n : String) (lo hi : ℚ) (hn : (n, lo, hi) ∈ firstDays) :
    ((hi : ℝ) * r ≤ L → n ∈ c.name) ∧ (L ≤ lo * r → n ∉ c.name) := by
  have hr : (0 : ℝ) < r := by exact_mod_cast A.pos
  have ht := List.all_eq_true.1 days_table _ hn
  simp only [Bool.and_eq_true, List.any_eq_true, beq_iff_eq, decide_eq_true_eq] at ht
  obtain ⟨⟨p1, p2⟩, x, hx, ⟨rfl, h1⟩, h2⟩ := ht
  have p1' : (0 : ℝ) < lo := by exact_mod_cast p1
  have p2' : (0 : ℝ) < hi := by exact_mod_cast p2
  have h1' := (Rat.cast_lt (K := ℝ)).2 h1
  have h2' := (Rat.cast_le (K := ℝ)).2 h2
  push_cast at h1' h2'
  rw [selected_iff R hnd A h hL hpos x hx]
  constructor
  · intro hl
    refine le_trans ?_ h2'
    rw [div_le_div_iff₀ (by linarith) (by linarith)]
    nlinarith
  · intro hl hc
    have : 1 / (24 * (lo : ℝ)) ≤ r / (24 * L) := by
      rw [div_le_div_iff₀ (by linarith) (by linarith)]
      nlinarith
    linarith

/-- **C139**, comparison constituents: each constituent of an automatic selection, apart from the seven of `early`, is
there together with its comparison constituent, or compared with the mean. -/
theorem C139_comparison (R : Ready E t u v) (hnd : opts.keys.Nodup) (A : Selects opts r) (h : solve E t u v lat opts = .ok c)
    (hL : RecordLength E t u v opts L) (hpos : 0 < L) (x : Con) (hx : x ∈ catalogue) (hc : x.name ∈ c.name)
    (hn : x.name ∉ early) :
    ∃ j k, x.kmpr = some j ∧ catalogue[j]? = some k ∧ (k.name = "Z0" ∨ k.name ∈ c.name) := by
  have hr : (0 : ℝ) < r := by exact_mod_cast A.pos
  have h1 := (selected_iff R hnd A h hL hpos x hx).1 hc
  have hr' : (0 : ℝ) < r / (24 * L) := div_pos hr (by linarith)
  have ht := List.all_eq_true.1 comparison_table x hx
  simp only [Bool.or_eq_true, decide_eq_true_eq, List.contains_iff_mem] at ht
  rcases ht with (ht | ht) | ht
  · have := (Rat.cast_le (K := ℝ)).2 ht
    push_cast at this
    linarith
  · exact absurd ht hn
  · cases hj : x.kmpr with
    | none => rw [hj] at ht; cases ht
    | some j =>
      rw [hj] at ht
      dsimp only at ht
      cases hk : catalogue[j]? with
      | none => rw [hk] at ht; cases ht
      | some k =>
        rw [hk] at ht
        simp only [Bool.or_eq_true, decide_eq_true_eq, beq_iff_eq] at ht
        refine ⟨j, k, rfl, hk, ht.imp id fun ht => ?_⟩
        have := (Rat.cast_le (K := ℝ)).2 ht
        exact (selected_iff R hnd A h hL hpos k (List.mem_of_getElem? hk)).2 (h1.trans this)

end

/-! ## Examples -/

theorem hourly_selects : Selects hourlyOpts 1 := ⟨rfl, rfl, ⟨_, rfl, .inl rfl⟩, rfl, by norm_num⟩

theorem hourly_solved (n : ℕ) (y : ℕ → ℝ) (h3 : 3 ≤ n) (hn : n ≤ 650) :
    ∃ c, solve idealEnv (hourlyT n) (hourlyU n y) none (some 45) hourlyOpts = .ok c ∧
      RecordLength idealEnv (hourlyT n) (hourlyU n y) none hourlyOpts (((n : ℝ) - 1) * (1 / 24)) := by
  have H := hourly_record n y h3 hn
  have h2 : (n : ℝ) ≤ 650 := by exact_mod_cast hn
  have hm : MildNodal hourlyOpts 45 1 (1 / 24) n := .inr ⟨⟨by norm_num, by norm_num, by norm_num⟩, by push_cast; linarith⟩
  have hsh : GoodShapes (hourlyT n) (hourlyU n y) none := ⟨rfl, rfl, by simp⟩
  have R := hourly_ready n y
  obtain ⟨c, hc⟩ := C117_returns R idealNum_ok.inv idealNum_ok.mvn hourly_documented hourly_automatic H
    ⟨.inr rfl, .inr rfl⟩ hm hsh rfl (.inl rfl) (fun h => by simp [requested, hourlyOpts, documentedDefault] at h)
  exact ⟨c, hc, H.recordLength (H.same R.ht R.hu R.hv hsh)⟩

/-- 25 days of hourly values: S2 and O1 are separated from M2 and K1, N2 is not yet. -/
example (y : ℕ → ℝ) : ∃ c, solve idealEnv (hourlyT 601) (hourlyU 601 y) none (some 45) hourlyOpts = .ok c ∧
    "M2" ∈ c.name ∧ "S2" ∈ c.name ∧ "O1" ∈ c.name ∧ "N2" ∉ c.name ∧ "K2" ∉ c.name := by
  obtain ⟨c, hc, hL⟩ := hourly_solved 601 y (by norm_num) (by norm_num)
  have hd := fun (n : String) (lo hi : ℚ) hn => C139_days (hourly_ready 601 y) hourly_documented.nodup hourly_selects hc hL
    (by norm_num) n lo hi hn
  refine ⟨c, hc, (hd "M2" 0.5175 0.5176 (by simp [firstDays])).1 (by norm_num),
    (hd "S2" 14.7652 14.7653 (by simp [firstDays])).1 (by norm_num),
    (hd "O1" 13.6607 13.6608 (by simp [firstDays])).1 (by norm_num),
    (hd "N2" 27.5545 27.5546 (by simp [firstDays])).2 (by norm_num),
    (hd "K2" 182.6211 182.6212 (by simp [firstDays])).2 (by norm_num)⟩

/-- 25 hourly values: both K1 and M2 are selected, closer than the Rayleigh criterion says. -/
example (y : ℕ → ℝ) : ∃ c, solve idealEnv (hourlyT 25) (hourlyU 25 y) none (some 45) hourlyOpts = .ok c ∧
    "K1" ∈ c.name ∧ "M2" ∈ c.name := by
  obtain ⟨c, hc, hL⟩ := hourly_solved 25 y (by norm_num) (by norm_num)
  obtain ⟨h1, h2, -⟩ := C139_exception (hourly_ready 25 y) hourly_documented.nodup hourly_selects hc hL (by norm_num)
    (by norm_num)
  exact ⟨c, hc, h1, h2⟩

end

end UTide.Props
