import Verif.Props.BoundProps
import Verif.Props.SplitProps
import Verif.Props.PerfectFit

/-!
# What leaving out constituents costs: C124
-/

namespace UTide.Props

noncomputable section

open Classical

/-! ## Specification -/

/-- Number `i` is used in one of two predictions and not in the other. -/
def UsedOnce (c : Coef) (a b : RecArgs) (i : ℕ) : Prop := ¬ (Selected c a i ↔ Selected c b i)

/-- Only `min_PE` can exclude constituents: none is requested by name, and all signal-to-noise ratios are numbers that
reach `min_SNR`. -/
structure OnlyEnergy (c : Coef) (a : RecArgs) (S P : List Fl) : Prop where
  unnamed : a.constit = none
  snr : c.SNR = some S
  enough : ∀ s ∈ S, Fl.fin a.minSNR ≤ s
  rated : S.length = c.name.length
  pe : c.PE = some P

/-! ## Lemmas -/

theorem filter_diff_bound (l : List ℕ) (p q : ℕ → Prop) (f : ℕ → ℂ) (g : ℕ → ℝ) (h : ∀ i ∈ l, ‖f i‖ ≤ g i) :
    ‖((l.filter p).map f).sum - ((l.filter q).map f).sum‖ ≤ ((l.filter fun i => ¬ (p i ↔ q i)).map g).sum := by
  induction l with
  | nil => simp
  | cons a l ih =>
    have ih := ih fun i hi => h i (by simp [hi])
    have ha := h a (by simp)
    by_cases hp : p a <;> by_cases hq : q a
    · simpa [hp, hq] using ih
    · simp only [hp, hq, List.filter_cons, decide_true, decide_false, if_true, List.map_cons, List.sum_cons,
        iff_false, not_true_eq_false, not_false_eq_true, Bool.false_eq_true, if_false]
      calc _ = ‖f a + (((l.filter p).map f).sum - ((l.filter q).map f).sum)‖ := by congr 1; ring
        _ ≤ _ := (norm_add_le _ _).trans (add_le_add ha (by simpa using ih))
    · simp only [hp, hq, List.filter_cons, decide_true, decide_false, if_true, List.map_cons, List.sum_cons,
        iff_true, not_true_eq_false, not_false_eq_true, Bool.false_eq_true, if_false]
      calc _ = ‖-f a + (((l.filter p).map f).sum - ((l.filter q).map f).sum)‖ := by congr 1; ring
        _ ≤ _ := (norm_add_le _ _).trans (add_le_add (by rwa [norm_neg]) (by simpa using ih))
    · simpa [hp, hq] using ih

theorem sum_map_le_card {α : Type} (l : List α) (g : α → ℝ) (b : ℝ) (h : ∀ x ∈ l, g x ≤ b) :
    (l.map g).sum ≤ l.length * b := by
  induction l with
  | nil => simp
  | cons a l ih =>
    rw [List.map_cons, List.sum_cons, List.length_cons]
    have := h a (by simp)
    have := ih fun x hx => h x (by simp [hx])
    push_cast
    linarith

theorem amplitude_energy (c : Coef) (i : ℕ) (n : ℕ) (hl : c.ell.Len n) (hi : i < n) :
    ∃ x, energyAt c.ell i = some x ∧ amplitude c i ^ 2 ≤ x := by
  unfold amplitude
  cases he : c.ell with
  | one A g =>
    rw [he] at hl
    have hA : i < A.length := by have := hl.1; omega
    refine ⟨A[i] ^ 2, by simp [energyAt, hA], ?_⟩
    dsimp only
    rw [List.getD_eq_getElem _ _ hA]
  | two M m th g =>
    rw [he] at hl
    have hA : i < M.length := by have := hl.1; omega
    have hB : i < m.length := by have := hl.2.1; omega
    refine ⟨M[i] ^ 2 + m[i] ^ 2, by simp [energyAt, hA, hB], ?_⟩
    dsimp only
    rw [List.getD_eq_getElem _ _ hA]
    nlinarith [sq_nonneg m[i]]

/-! ## C124 -/

section
variable (E : Env) (t : TimeArg) (u : Series) (v : Option Series) (lat : Option ℝ) (opts : Dict PyVal)
  (R : Ready E t u v) (hnd : opts.keys.Nodup) (c : Coef) (h : solve E t u v lat opts = .ok c) (hk : AllKept c)
include R hnd h hk

/-- **C124.** Two predictions from the same solution, for different choices of constituents, differ at no time by more
than the sum of amplitude times modulus of the harmonic over the constituents used in only one of them. -/
theorem C124_difference (E' : Env) (t' : TimeArr) (a b : RecArgs) (hep : a.epoch = b.epoch) (tn : List Fl)
    (r s : List (Option ℂ)) (htn : normalizeTime E'.dt64 t' a.epoch = .ok tn)
    (hr : reconstruct E' t' c a = .ok r) (hs : reconstruct E' t' c b = .ok s) (j : ℕ) (τ : ℝ) (z w : ℂ)
    (hτ : tn[j]? = some (.fin τ)) (hz : r[j]? = some (some z)) (hw : s[j]? = some (some w)) :
    ‖z - w‖ ≤ (((List.range c.name.length).filter (UsedOnce c a b)).map fun i =>
      ‖harmonic c (c.name.getD i "") τ‖ * amplitude c i).sum := by
  rw [C36_selected E t u v lat opts R hnd c h hk E' t' a, htn] at hr
  rw [C36_selected E t u v lat opts R hnd c h hk E' t' b, ← hep, htn] at hs
  have hr := Except.ok.inj hr
  have hs := Except.ok.inj hs
  rw [← hr, List.getElem?_map, hτ] at hz
  rw [← hs, List.getElem?_map, hτ] at hw
  have hz := Option.some.inj (Option.some.inj hz)
  have hw := Option.some.inj (Option.some.inj hw)
  rw [← hz, ← hw, add_sub_add_left_eq_sub]
  obtain ⟨hran, -⟩ := C09_ranges E t u v lat opts hnd c h
  obtain ⟨e1, e2, e3⟩ := permute_aligned h
  obtain ⟨opt, p, tn, constit, m, W, rf, full, o, ind, F⟩ := solve_facts R h
  have hlen : ∃ n, c.Len n := by
    have := (F.coherent hnd).permute ind F.lt
    rw [← F.solved.result] at this
    exact ⟨_, this.len⟩
  have hfil : (List.range c.name.length).filter (UsedOnce c a b) =
      (List.range c.name.length).filter fun i => ¬ (Selected c a i ↔ Selected c b i) := by
    refine List.filter_congr fun i _ => ?_
    unfold UsedOnce
    congr
  rw [hfil]
  refine filter_diff_bound _ _ _ _ _ fun i hi => (norm_tide c hran hlen τ i).trans (le_of_eq ?_)
  have hi : i < c.name.length := List.mem_range.1 hi
  have hi' : i < c.lind.length := by rw [e1, List.length_map] at hi; exact hi
  congr 2
  have hn : c.name.getD i "" = nameAt c.lind[i] := by
    rw [List.getD_eq_getElem _ _ hi]; simp only [e1, List.getElem_map]
  have hf : c.frq.getD i 0 = linFreqs c.reftime c.lind[i] := by
    rw [List.getD_eq_getElem _ _ (by rw [e2, List.length_map]; exact hi')]; simp only [e2, List.getElem_map]
  unfold harmonic nameBasis
  rw [hn, hf, List.getD_eq_getElem _ _ hi', idxOf_nameAt (e3 _ (List.getElem_mem hi'))]

/-- **C124**, energy threshold: with `nodal=False` and `min_PE = p` the prediction differs from the complete one by at
most `k √(p/100 · P)`, `k` being the number of constituents left out and `P` the sum of all energies. -/
theorem C124_threshold (hn : (requested opts "nodal").bind nodalMode = some .off) (hz0 : Nonzero c.ell)
    (E' : Env) (t' : TimeArr) (a b : RecArgs) (hb : RecArgs.Everything b) (hep : a.epoch = b.epoch) (S P : List Fl)
    (ho : OnlyEnergy c a S P) (tn : List Fl)
    (r s : List (Option ℂ)) (htn : normalizeTime E'.dt64 t' a.epoch = .ok tn)
    (hr : reconstruct E' t' c a = .ok r) (hs : reconstruct E' t' c b = .ok s) (j : ℕ) (τ : ℝ) (z w : ℂ)
    (hτ : tn[j]? = some (.fin τ)) (hz : r[j]? = some (some z)) (hw : s[j]? = some (some w)) :
    ‖z - w‖ ≤ ((List.range c.name.length).filter fun i => ¬ Selected c a i).length *
      Real.sqrt (a.minPE / 100 * totalEnergy c.ell) := by
  refine (C124_difference E t u v lat opts R hnd c h hk E' t' a b hep tn r s htn hr hs j τ z w hτ hz hw).trans ?_
  have hsel : ∀ i, Selected c b i := by
    intro i
    unfold Selected
    rw [hb.1]
    exact .inl hb.2
  have hfil : (List.range c.name.length).filter (UsedOnce c a b) =
      (List.range c.name.length).filter fun i => ¬ Selected c a i := by
    refine List.filter_congr fun i _ => ?_
    simp [UsedOnce, hsel i]
  rw [hfil]
  obtain ⟨Q, rfl, hQ, -, -, hQe⟩ := C32_solve E t u v lat opts R hnd c h hk hz0 P ho.pe
  refine sum_map_le_card _ _ _ fun i hi => ?_
  obtain ⟨hi, hns⟩ := List.mem_filter.1 hi
  have hi := List.mem_range.1 hi
  have hns : ¬ Selected c a i := by simpa using hns
  obtain ⟨opt, p, tn, constit, m, W, rf, full, o, ind, F⟩ := solve_facts R h
  have f1 := (C20_modes opts hnd _ _ F.hopt).1 _ hn
  have hnone : c.opt.flags.nodsatnone = true := by
    rw [F.copt]
    cases ha : opt.flags.nodsatlint <;> cases hb : opt.flags.nodsatnone <;> simp [ha, hb, flagMode] at f1 ⊢
  have h1 : ‖harmonic c (c.name.getD i "") τ‖ = 1 := by
    unfold harmonic nameBasis utE nodF
    simp only [hnone, true_and, if_true]
    split
    · rw [norm_mul, Complex.norm_real, norm_one, one_mul]; exact norm_cis _
    · rw [norm_mul, Complex.norm_real, norm_one, one_mul]; exact norm_cis _
  rw [h1, one_mul]
  have hlen : c.Len c.name.length := by
    have := (F.coherent hnd).permute ind F.lt
    rw [← F.solved.result] at this
    have := this.len
    have e := this.name
    rw [e]; exact this
  obtain ⟨x, hx, hle⟩ := amplitude_energy c i _ hlen.ell hi
  have hp := hQe i x hx
  have hT := totalEnergy_pos c.ell hz0
  have hsmall : 100 * x / totalEnergy c.ell < a.minPE := by
    by_contra hcon
    refine hns ?_
    unfold Selected
    rw [ho.unnamed]
    have hiS : i < S.length := by rw [ho.rated]; exact hi
    refine .inr (.inr ⟨S, Q.map Fl.fin, S[i], _, ho.snr, ho.pe, List.getElem?_eq_getElem hiS,
      by rw [List.getElem?_map, hp]; rfl, ho.enough _ (List.getElem_mem hiS), ?_⟩)
    show a.minPE ≤ _
    exact not_lt.1 hcon
  refine Real.le_sqrt_of_sq_le (hle.trans ?_)
  rw [div_lt_iff₀ hT] at hsmall
  linarith

end

/-! ## Examples -/

/-- Mean and trend alone against the complete prediction: they differ by at most the amplitude of M2. -/
example : ∃ c z w, solve idealEnv dayT (daySeries 1 0 2) none (some 45) exOpts = .ok c ∧
    reconstruct idealEnv (.float [.fin 100]) c { recAll with constit := some (.names []) } = .ok [some z] ∧
    reconstruct idealEnv (.float [.fin 100]) c recAll = .ok [some w] ∧
    ‖z - w‖ ≤ ‖harmonic c "M2" 100‖ * amplitude c 0 := by
  obtain ⟨c, hc, D⟩ := day_run 1 0 2 none (.inl rfl)
  have hR := day_ready 1 0 2 none (.inl rfl)
  have hr := C36_selected idealEnv dayT _ none (some 45) exOpts hR (by decide) c hc D.kept idealEnv (.float [.fin 100])
    { recAll with constit := some (.names []) }
  have hs := C36_selected idealEnv dayT _ none (some 45) exOpts hR (by decide) c hc D.kept idealEnv (.float [.fin 100])
    recAll
  have ht : normalizeTime idealEnv.dt64 (.float [.fin 100]) recAll.epoch = .ok [.fin 100] := by
    show (Except.ok (List.map _ _) : Except PyErr (List Fl)) = _
    congr 1
  rw [ht] at hs
  rw [show ({ recAll with constit := some (.names []) } : RecArgs).epoch = recAll.epoch from rfl, ht] at hr
  have hb := C124_difference idealEnv dayT _ none (some 45) exOpts hR (by decide) c hc D.kept idealEnv
    (.float [.fin 100]) { recAll with constit := some (.names []) } recAll rfl _ _ _ ht hr hs 0 100 _ _ rfl rfl rfl
  refine ⟨c, _, _, hc, hr, hs, hb.trans (le_of_eq ?_)⟩
  have h1 : Selected c recAll 0 := .inl ⟨rfl, rfl⟩
  have h2 : ¬ Selected c { recAll with constit := some (.names []) } 0 := by
    rintro ⟨s, hs, -⟩; cases hs
  have h3 : UsedOnce c { recAll with constit := some (.names []) } recAll 0 := fun h => h2 (h.2 h1)
  rw [D.name]
  simp [h3]

/-- A record that is a pure M2 tide: M2 has all the energy, and `min_PE = 50` leaves nothing out. -/
example : ∃ a b x y c S P, solve idealEnv quadT (quadSeries a b x y) none (some 45) (ciOpts "linear" true) = .ok c ∧
    (requested (ciOpts "linear" true) "nodal").bind nodalMode = some .off ∧ AllKept c ∧ Nonzero c.ell ∧
    OnlyEnergy c { recAll with minSNR := 2, minPE := 50 } S P := by
  obtain ⟨a, b, x, y, c, S, A, g, k, Q, hS, h0, he, hA, hk⟩ := perfect_run
  have R := quad_ready a b x y none (.inl rfl)
  obtain ⟨h1, h2, -⟩ := C83_snr idealEnv quadT _ none (some 45) (ciOpts "linear" true) R (by decide) c Q.returned
  have hci : c.ci ≠ none := fun h => by rw [h1.2 h] at hS; cases hS
  obtain ⟨ci, hci'⟩ := Option.ne_none_iff_exists'.1 hci
  have h53 := ((C53_ci idealEnv quadT _ none (some 45) (ciOpts "linear" true) (by decide) R c Q.returned).2 ci hci').1
  obtain ⟨opt, p, tn, constit, m, W, rf, full, o, ind, F⟩ := solve_facts R Q.returned
  have hlen : S.length = 1 := by
    cases ci with
    | one dA dg => rw [(h2 A g dA dg S he hci' hS).1, Q.name]; rfl
    | two => simp [ciArrays] at h53
  obtain ⟨P, hP⟩ : ∃ P, c.PE = some P := by
    obtain ⟨t1, t2⟩ := C37_table idealEnv quadT _ none (some 45) (ciOpts "linear" true) R (by decide) (.str "linear") rfl c
      Q.returned
    obtain ⟨d, hd⟩ := Option.ne_none_iff_exists'.1 fun h => by
      rcases t1.1 h with h | h <;> simp at h
    obtain ⟨-, -, -, P, -, hP, -⟩ := t2 d hd
    exact ⟨P, hP⟩
  refine ⟨a, b, x, y, c, S, P, Q.returned, rfl, Q.kept, ?_, ⟨rfl, hS, ?_, by rw [hlen, Q.name]; rfl, hP⟩⟩
  · rw [he]; exact ⟨k, List.mem_of_getElem? hA, hk⟩
  · match S, hlen, h0 with
    | [s], _, h0 =>
      intro s' hs'
      cases List.mem_singleton.1 hs'
      cases Option.some.inj h0
      trivial

end

end UTide.Props
