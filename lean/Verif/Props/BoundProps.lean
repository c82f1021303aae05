import Verif.Props.TextbookProps
import Verif.Props.RelExamples

/-!
# The size of the reconstruction: C80
-/

namespace UTide.Props

noncomputable section

open Classical

local notation "conj" => starRingEnd ℂ

/-! ## Specification -/

/-- Amplitude or major semi-axis number `i`. -/
def amplitude (c : Coef) (i : ℕ) : ℝ := match c.ell with
  | .one A _ => A.getD i 0
  | .two M _ _ _ => M.getD i 0

/-- Nodal factor of a primary line or a compound: the modulus of the modulation by satellites; for a compound the
product over its parents. -/
def nodalFactor (mn : Mode) (tref lat t : ℝ) (k : ℕ) : ℝ := match kindOf k with
  | some (.primary _ _) => ‖nodalAt mn tref lat t k‖
  | some (.shallow parts) => (parts.map fun q => ‖nodalAt mn tref lat t q.1‖ ^ q.2.num.natAbs).prod
  | none => 0

/-! ## Lemmas -/

theorem norm_turn (a b θ : ℝ) (z : ℂ) (h : |b| ≤ a) : ‖cisd θ * (⟨a * z.re, b * z.im⟩ : ℂ)‖ ≤ a * ‖z‖ := by
  rw [norm_mul, norm_cisd, one_mul]
  have ha : 0 ≤ a := (abs_nonneg b).trans h
  have hb : b ^ 2 ≤ a ^ 2 := sq_le_sq' (by linarith [(abs_le.1 h).1]) (abs_le.1 h).2
  refine abs_le_of_sq_le_sq' ?_ (by positivity) |>.2
  rw [Complex.sq_norm, mul_pow, Complex.sq_norm, Complex.normSq_apply, Complex.normSq_apply]
  dsimp only
  nlinarith [mul_le_mul_of_nonneg_right hb (sq_nonneg z.im)]

theorem norm_tide (c : Coef) (hr : InRanges c.ell) (hl : ∃ n, c.Len n) (τ : ℝ) (i : ℕ) :
    ‖tide c τ i‖ ≤ ‖utE c.opt.flags c.reftime c.lat τ (c.frq.getD i 0) (c.lind.getD i 0)‖ * amplitude c i := by
  obtain ⟨n, hl⟩ := hl
  unfold tide amplitude
  have hell := hl.ell
  cases he : c.ell with
  | one A g =>
    rw [he] at hr
    dsimp only
    have hA : 0 ≤ A.getD i 0 := by
      by_cases hi : i < A.length
      · rw [List.getD_eq_getElem _ _ hi]; exact hr.1 _ (List.getElem_mem hi)
      · rw [List.getD_eq_default _ _ (by omega)]
    rw [Complex.norm_real, Real.norm_eq_abs, abs_mul, abs_of_nonneg hA, mul_comm]
    refine mul_le_mul_of_nonneg_right ((Complex.abs_re_le_norm _).trans ?_) hA
    rw [norm_mul, norm_cisd, mul_one]
  | two M m th g =>
    rw [he] at hr hell
    dsimp only
    obtain ⟨l1, l2, -⟩ := hell
    have hA : |m.getD i 0| ≤ M.getD i 0 := by
      by_cases hi : i < n
      · rw [List.getD_eq_getElem _ _ (by omega), List.getD_eq_getElem _ _ (by omega)]
        exact hr.1 i _ _ (List.getElem?_eq_getElem (by omega)) (List.getElem?_eq_getElem (by omega))
      · rw [List.getD_eq_default _ _ (by omega), List.getD_eq_default _ _ (by omega), abs_zero]
    refine (norm_turn _ _ _ _ hA).trans ?_
    rw [norm_mul, norm_cisd, mul_one, mul_comm]

theorem norm_sum_map_le {α : Type} (l : List α) (f : α → ℂ) (g : α → ℝ) (h : ∀ x ∈ l, ‖f x‖ ≤ g x) :
    ‖(l.map f).sum‖ ≤ (l.map g).sum := by
  induction l with
  | nil => simp
  | cons a l ih =>
    rw [List.map_cons, List.sum_cons, List.map_cons, List.sum_cons]
    exact (norm_add_le _ _).trans (add_le_add (h a (by simp)) (ih fun x hx => h x (by simp [hx])))

theorem norm_powW (z : ℂ) (n : ℤ) : ‖powW z n‖ = ‖z‖ ^ n.natAbs := by
  unfold powW
  split
  · rw [norm_pow]; congr 1; omega
  · rw [norm_pow, RCLike.norm_conj]; congr 1; omega

theorem norm_phasor (x : ℝ) : ‖phasor x‖ = 1 := by
  unfold phasor; rw [Complex.norm_exp_ofReal_mul_I]

theorem norm_textbook (mn mp : Mode) (tref lat t : ℝ) (k : ℕ) :
    ‖textbook mn mp tref lat t k‖ = nodalFactor mn tref lat t k := by
  unfold textbook nodalFactor
  have hline : ∀ j d s, kindOf j = some (.primary d s) → ‖tidalLine mn mp tref lat t j‖ = ‖nodalAt mn tref lat t j‖ := by
    intro j d s hj
    unfold tidalLine
    rw [hj]
    dsimp only
    rw [norm_mul, norm_phasor, mul_one]
  cases hk : kindOf k with
  | none => simp
  | some kd =>
    cases kd with
    | primary d s => exact hline _ _ _ hk
    | shallow parts =>
      dsimp only
      have hh := fun q (hq : q ∈ parts) => kindOf_parent hk hq
      clear hk
      induction parts with
      | nil => simp
      | cons q parts ih =>
        rw [List.map_cons, List.map_cons, List.prod_cons, List.prod_cons, norm_mul, norm_powW,
          ih fun x hx => hh x (by simp [hx])]
        obtain ⟨d, s, hq⟩ := hh q (by simp)
        rw [hline _ _ _ hq]

/-! ## C80 -/

section
variable (E : Env) (t : TimeArg) (u : Series) (v : Option Series) (lat : Option ℝ) (opts : Dict PyVal)
  (R : Ready E t u v) (hnd : opts.keys.Nodup) (c : Coef) (h : solve E t u v lat opts = .ok c) (hk : AllKept c)
include R hnd h hk

/-- The reconstruction differs from mean and trend by at most the sum, over the constituents used, of amplitude times
modulus of the harmonic. For every method, confidence setting and inference. -/
theorem C80_bound (E' : Env) (t' : TimeArr) (a : RecArgs) (tn : List Fl) (r : List (Option ℂ))
    (htn : normalizeTime E'.dt64 t' a.epoch = .ok tn) (hr : reconstruct E' t' c a = .ok r) (j : ℕ) (τ : ℝ) (z : ℂ)
    (hτ : tn[j]? = some (.fin τ)) (hz : r[j]? = some (some z)) :
    ‖z - level c τ‖ ≤ (((List.range c.name.length).filter (Selected c a)).map fun i =>
      ‖harmonic c (c.name.getD i "") τ‖ * amplitude c i).sum := by
  rw [C36_selected E t u v lat opts R hnd c h hk E' t' a, htn] at hr
  have hr := Except.ok.inj hr
  rw [← hr, List.getElem?_map, hτ] at hz
  have hz := Option.some.inj (Option.some.inj hz)
  rw [← hz, add_sub_cancel_left]
  obtain ⟨hran, -⟩ := C09_ranges E t u v lat opts hnd c h
  obtain ⟨e1, e2, e3⟩ := permute_aligned h
  obtain ⟨opt, p, tn, constit, m, W, rf, full, o, ind, F⟩ := solve_facts R h
  have hlen : ∃ n, c.Len n := by
    have := (F.coherent hnd).permute ind F.lt
    rw [← F.solved.result] at this
    exact ⟨_, this.len⟩
  refine norm_sum_map_le _ _ _ fun i hi => (norm_tide c hran hlen τ i).trans (le_of_eq ?_)
  have hi : i < c.name.length := List.mem_range.1 (List.mem_filter.1 hi).1
  have hi' : i < c.lind.length := by rw [e1, List.length_map] at hi; exact hi
  congr 2
  have hn : c.name.getD i "" = nameAt c.lind[i] := by
    rw [List.getD_eq_getElem _ _ hi]; simp only [e1, List.getElem_map]
  have hf : c.frq.getD i 0 = linFreqs c.reftime c.lind[i] := by
    rw [List.getD_eq_getElem _ _ (by rw [e2, List.length_map]; exact hi')]; simp only [e2, List.getElem_map]
  unfold harmonic nameBasis
  rw [hn, hf, List.getD_eq_getElem _ _ hi', idxOf_nameAt (e3 _ (List.getElem_mem hi'))]

/-- With `nodal=False`: by at most the sum of the amplitudes. -/
theorem C80_no_nodal (hn : (requested opts "nodal").bind nodalMode = some .off)
    (E' : Env) (t' : TimeArr) (a : RecArgs) (tn : List Fl) (r : List (Option ℂ))
    (htn : normalizeTime E'.dt64 t' a.epoch = .ok tn) (hr : reconstruct E' t' c a = .ok r) (j : ℕ) (τ : ℝ) (z : ℂ)
    (hτ : tn[j]? = some (.fin τ)) (hz : r[j]? = some (some z)) :
    ‖z - level c τ‖ ≤ (((List.range c.name.length).filter (Selected c a)).map (amplitude c)).sum := by
  refine (C80_bound E t u v lat opts R hnd c h hk E' t' a tn r htn hr j τ z hτ hz).trans (le_of_eq ?_)
  congr 1
  refine List.map_congr_left fun i _ => ?_
  obtain ⟨opt, p, tn, constit, m, W, rf, full, o, ind, F⟩ := solve_facts R h
  have f1 := (C20_modes opts hnd _ _ F.hopt).1 _ hn
  have hns : c.opt.flags.nodsatnone = true := by
    rw [F.copt]
    cases ha : opt.flags.nodsatlint <;> cases hb : opt.flags.nodsatnone <;> simp [ha, hb, flagMode] at f1 ⊢
  have : ‖harmonic c (c.name.getD i "") τ‖ = 1 := by
    unfold harmonic nameBasis utE nodF
    simp only [hns, true_and, if_true]
    split
    · rw [norm_mul, Complex.norm_real, norm_one, one_mul]; exact norm_cis _
    · rw [norm_mul, Complex.norm_real, norm_one, one_mul]; exact norm_cis _
  rw [this, one_mul]

/-- In general: by at most the sum of nodal factor times amplitude. -/
theorem C80_nodal (mn mp : Mode) (hn : (requested opts "nodal").bind nodalMode = some mn)
    (hp : (requested opts "phase").bind phaseMode = some mp) (hlat : c.lat ≠ 0 ∨ mn = .off) (hM : "M7" ∉ c.name)
    (E' : Env) (t' : TimeArr) (a : RecArgs) (tn : List Fl) (r : List (Option ℂ))
    (htn : normalizeTime E'.dt64 t' a.epoch = .ok tn) (hr : reconstruct E' t' c a = .ok r) (j : ℕ) (τ : ℝ) (z : ℂ)
    (hτ : tn[j]? = some (.fin τ)) (hz : r[j]? = some (some z)) :
    ‖z - level c τ‖ ≤ (((List.range c.name.length).filter (Selected c a)).map fun i =>
      nodalFactor mn c.reftime c.lat τ (constitNames.idxOf (c.name.getD i "")) * amplitude c i).sum := by
  refine (C80_bound E t u v lat opts R hnd c h hk E' t' a tn r htn hr j τ z hτ hz).trans (le_of_eq ?_)
  congr 1
  refine List.map_congr_left fun i hi => ?_
  have hi : i < c.name.length := List.mem_range.1 (List.mem_filter.1 hi).1
  rw [List.getD_eq_getElem _ _ hi, (C20_harmonics E t u v lat opts hnd c h mn mp hn hp hlat i _
    (List.getElem?_eq_getElem hi) (fun e => hM (e ▸ List.getElem_mem hi)) τ).1, norm_textbook]

end

/-- A curve through three samples, followed to day 100: never further from the mean than the amplitude of M2. -/
example : ∃ c z, solve idealEnv dayT (daySeries 1 0 2) none (some 45) exOpts = .ok c ∧
    reconstruct idealEnv (.float [.fin 100]) c recAll = .ok [some z] ∧ ‖z - level c 100‖ ≤ amplitude c 0 := by
  obtain ⟨c, hc, D⟩ := day_run 1 0 2 none (.inl rfl)
  have hR := day_ready 1 0 2 none (.inl rfl)
  have hr := C36_selected idealEnv dayT _ none (some 45) exOpts hR (by decide) c hc D.kept idealEnv (.float [.fin 100])
    recAll
  have ht : normalizeTime idealEnv.dt64 (.float [.fin 100]) recAll.epoch = .ok [.fin 100] := by
    show (Except.ok (List.map _ _) : Except PyErr (List Fl)) = _
    congr 1
  rw [ht] at hr
  have hb := C80_no_nodal idealEnv dayT _ none (some 45) exOpts hR (by decide) c hc D.kept rfl idealEnv
    (.float [.fin 100]) recAll _ _ ht hr 0 100 _ rfl rfl
  refine ⟨c, _, hc, hr, hb.trans (le_of_eq ?_)⟩
  have hsel : Selected c recAll 0 := .inl ⟨rfl, rfl⟩
  rw [D.name]
  simp [hsel]

end

end UTide.Props
