import Verif.Props.RelExamples

/-!
# Predictions for parts of the constituents: C99
-/

namespace UTide.Props

noncomputable section

open Classical

/-! ## Specification -/

/-- `reconstruct(t, coef, constit=S, ...)[i]` is the number `z`. The other arguments are those of `a`. -/
def Predicts (E : Env) (t : TimeArr) (c : Coef) (a : RecArgs) (S : List String) (i : ℕ) (z : ℂ) : Prop :=
  ∃ r, reconstruct E t c { a with constit := some (.names S) } = .ok r ∧ r[i]? = some (some z)

/-! ## Lemmas -/

theorem sum_filter_eq {α : Type} (l : List α) (p : α → Prop) (f : α → ℂ) :
    ((l.filter p).map f).sum = (l.map fun x => if p x then f x else 0).sum := by
  induction l with
  | nil => rfl
  | cons a l ih =>
    by_cases h : p a
    · rw [List.filter_cons_of_pos (by simpa using h), List.map_cons, List.sum_cons, List.map_cons, List.sum_cons, ih, if_pos h]
    · rw [List.filter_cons_of_neg (by simpa using h), List.map_cons, List.sum_cons, ih, if_neg h, zero_add]

/-- The contribution of the constituents named in `S`. -/
def partOf (c : Coef) (S : List String) (τ : ℝ) : ℂ :=
  ((List.range c.name.length).map fun j => if c.name.getD j "" ∈ S then tide c τ j else 0).sum

theorem selected_names (c : Coef) (a : RecArgs) (S : List String) (j : ℕ) (hj : j < c.name.length) :
    Selected c { a with constit := some (.names S) } j ↔ c.name.getD j "" ∈ S := by
  have : c.name[j]? = some (c.name.getD j "") := by simp [hj]
  constructor
  · rintro ⟨s, hs, h⟩
    rw [this] at h
    rwa [Option.some.inj h]
  · exact fun h => ⟨_, h, this⟩

section

variable {E : Env} {t : TimeArg} {u : Series} {v : Option Series} {lat : Option ℝ} {opts : Dict PyVal} {c : Coef}

theorem predicts_iff (R : Ready E t u v) (hnd : opts.keys.Nodup) (h : solve E t u v lat opts = .ok c) (hk : AllKept c)
    (E' : Env) (t' : TimeArr) (a : RecArgs) (S : List String) (i : ℕ) (z : ℂ) :
    Predicts E' t' c a S i z ↔ ∃ tn τ, normalizeTime E'.dt64 t' a.epoch = .ok tn ∧ tn[i]? = some (.fin τ) ∧
      z = level c τ + partOf c S τ := by
  have hr := C36_selected E t u v lat opts R hnd c h hk E' t' { a with constit := some (.names S) }
  have hsum : ∀ τ, (((List.range c.name.length).filter (Selected c { a with constit := some (.names S) })).map
      (tide c τ)).sum = partOf c S τ := by
    intro τ
    rw [sum_filter_eq]
    refine congrArg List.sum (List.map_congr_left fun j hj => ?_)
    simp only [selected_names c a S j (List.mem_range.1 hj)]
  simp only [hsum] at hr
  unfold Predicts
  rw [hr]
  show (∃ r, (normalizeTime E'.dt64 t' a.epoch).map _ = .ok r ∧ _) ↔ _
  cases normalizeTime E'.dt64 t' a.epoch with
  | error e => simp [Except.map]
  | ok tn =>
    simp only [Except.map, Except.ok.injEq, exists_eq_left', List.getElem?_map, exists_and_left]
    constructor
    · intro h1
      obtain ⟨x, hx, hz⟩ := Option.map_eq_some_iff.1 h1
      obtain ⟨τ, hτ, hz⟩ := Option.map_eq_some_iff.1 hz
      cases x <;> simp [Fl.toReal?] at hτ
      subst hτ
      exact ⟨_, hx, hz.symm⟩
    · rintro ⟨τ, hτ, rfl⟩
      rw [hτ]
      rfl

/-! ## C99 -/

/-- **C99.** Predictions for two sets of constituents add up: the prediction for all of them together plus the one for
those in both sets is the sum of the two predictions. For disjoint sets the latter is the mean and trend alone, which
are part of every prediction. -/
theorem C99_modular (R : Ready E t u v) (hnd : opts.keys.Nodup) (h : solve E t u v lat opts = .ok c) (hk : AllKept c)
    (E' : Env) (t' : TimeArr) (a : RecArgs) (S₁ S₂ both either : List String) (hb : ∀ n, n ∈ both ↔ n ∈ S₁ ∧ n ∈ S₂)
    (he : ∀ n, n ∈ either ↔ n ∈ S₁ ∨ n ∈ S₂) (i : ℕ) (z₁ z₂ : ℂ) (h₁ : Predicts E' t' c a S₁ i z₁)
    (h₂ : Predicts E' t' c a S₂ i z₂) : ∃ zb ze, Predicts E' t' c a both i zb ∧ Predicts E' t' c a either i ze ∧
      ze + zb = z₁ + z₂ := by
  simp only [predicts_iff R hnd h hk] at h₁ h₂ ⊢
  obtain ⟨tn, τ, htn, hτ, rfl⟩ := h₁
  obtain ⟨tn', τ', htn', hτ', rfl⟩ := h₂
  cases Except.ok.inj (htn.symm.trans htn')
  cases Option.some.inj (hτ.symm.trans hτ')
  refine ⟨_, _, ⟨tn, τ, htn, hτ, rfl⟩, ⟨tn, τ, htn, hτ, rfl⟩, ?_⟩
  have : partOf c either τ + partOf c both τ = partOf c S₁ τ + partOf c S₂ τ := by
    unfold partOf
    rw [← List.sum_map_add, ← List.sum_map_add]
    refine congrArg List.sum (List.map_congr_left fun j _ => ?_)
    simp only [hb, he]
    generalize c.name.getD j "" = n
    by_cases h1 : n ∈ S₁ <;> by_cases h2 : n ∈ S₂ <;> simp [h1, h2]
  linear_combination this

/-- **C99**, one at a time: the full prediction is the one for no constituent (mean and trend) plus the contribution of
every constituent by itself. -/
theorem C99_each (R : Ready E t u v) (hnd : opts.keys.Nodup) (h : solve E t u v lat opts = .ok c) (hk : AllKept c)
    (hn : c.name.Nodup) (E' : Env) (t' : TimeArr) (a : RecArgs) (hall : RecArgs.Everything a) (r : List (Option ℂ))
    (hr : reconstruct E' t' c a = .ok r) (i : ℕ) (z : ℂ) (hz : r[i]? = some (some z)) :
    ∃ (z₀ : ℂ) (f : String → ℂ), Predicts E' t' c a [] i z₀ ∧ (∀ n, Predicts E' t' c a [n] i (z₀ + f n)) ∧
      z = z₀ + (c.name.map f).sum := by
  rw [C36_selected E t u v lat opts R hnd c h hk] at hr
  obtain ⟨tn, htn, rfl⟩ : ∃ tn, normalizeTime E'.dt64 t' a.epoch = .ok tn ∧ _ = r := by
    cases htn : normalizeTime E'.dt64 t' a.epoch with
    | error e => rw [htn] at hr; simp [Except.map] at hr
    | ok tn => rw [htn] at hr; exact ⟨tn, rfl, Except.ok.inj hr⟩
  rw [List.getElem?_map] at hz
  obtain ⟨x, hx, hz⟩ := Option.map_eq_some_iff.1 hz
  obtain ⟨τ, hτ, hz⟩ := Option.map_eq_some_iff.1 hz
  subst hz
  have hx : tn[i]? = some (.fin τ) := by
    cases x <;> simp [Fl.toReal?] at hτ
    subst hτ
    exact hx
  refine ⟨level c τ, fun n => partOf c [n] τ, ?_, fun n => ?_, ?_⟩
  · rw [predicts_iff R hnd h hk]
    exact ⟨tn, τ, htn, hx, by simp [partOf]⟩
  · rw [predicts_iff R hnd h hk]
    exact ⟨tn, τ, htn, hx, rfl⟩
  · have hsel : (List.range c.name.length).filter (Selected c a) = List.range c.name.length := by
      rw [List.filter_eq_self]
      intro j _
      simp [Selected, hall.1, hall.2.1, hall.2.2]
    rw [hsel]
    congr 1
    have key : ∀ j ∈ List.range c.name.length, tide c τ j = partOf c [c.name.getD j ""] τ := by
      intro j hj
      have hj' := List.mem_range.1 hj
      unfold partOf
      rw [List.sum_map_eq_nsmul_single j, List.count_eq_one_of_mem List.nodup_range hj]
      · simp
      · intro k hkj hk
        have hk' := List.mem_range.1 hk
        rw [if_neg]
        rw [List.mem_singleton, List.getD_eq_getElem _ _ hk', List.getD_eq_getElem _ _ hj']
        exact fun he => hkj ((hn.getElem_inj_iff).1 he)
    rw [List.map_congr_left key]
    have : c.name = (List.range c.name.length).map fun j => c.name.getD j "" := by
      refine List.ext_getElem (by simp) fun j h1 h2 => ?_
      simp [h1]
    conv_rhs => rw [this, List.map_map]
    rfl

end

/-- M2 and S2 together, each alone, and neither, three days after the record. -/
example : ∃ c z₁ z₂ zb ze, solve idealEnv dayT dayU none (some 45) (listOpts ["M2", "S2"] (.str "frequency")) = .ok c ∧
    Predicts idealEnv (.float [.fin 4]) c recAll ["M2"] 0 z₁ ∧ Predicts idealEnv (.float [.fin 4]) c recAll ["S2"] 0 z₂ ∧
    Predicts idealEnv (.float [.fin 4]) c recAll [] 0 zb ∧ Predicts idealEnv (.float [.fin 4]) c recAll ["M2", "S2"] 0 ze ∧
    ze + zb = z₁ + z₂ := by
  obtain ⟨c, hc⟩ := day_list ["M2", "S2"] M2S2_known
  have hk := list_kept dayReady _ c hc
  have ht : normalizeTime idealEnv.dt64 (.float [.fin 4]) recAll.epoch = .ok [.fin 4] := by
    show (Except.ok (List.map _ _) : Except PyErr (List Fl)) = _
    congr 1
  have hp : ∀ S, Predicts idealEnv (.float [.fin 4]) c recAll S 0 (level c 4 + partOf c S 4) := fun S =>
    (predicts_iff dayReady (someOpts_nodup _ _) hc hk _ _ _ _ _ _).2 ⟨_, 4, ht, rfl, rfl⟩
  obtain ⟨zb, ze, h1, h2, h3⟩ := C99_modular dayReady (someOpts_nodup _ _) hc hk idealEnv (.float [.fin 4]) recAll ["M2"]
    ["S2"] [] ["M2", "S2"] (by simp) (by simp) 0 _ _ (hp _) (hp _)
  exact ⟨c, _, _, zb, ze, hc, hp _, hp _, h1, h2, h3⟩

end

end UTide.Props
