import Verif.Props.DocWeights
import Verif.Props.MillisecondProps
import Verif.Props.NineExample

/-!
# What the keywords of a robust fit stand for (C47), epochs given as numbers (C25)
-/

namespace UTide.Props

noncomputable section

/-! ## C47 -/

/-- Specification: the value of a keyword that stands for a number, with the default of the documentation. -/
def askedNumber (kw : List (String × PyVal)) (k : String) (d : ℚ) : ℚ := match kw.lookup k with
  | some (.num q) => q
  | _ => d

theorem readRobArgs_numbers (kw : List (String × PyVal)) (hnd : (kw.map Prod.fst).Nodup) (a0 a : RobArgs)
    (h : readRobArgs kw a0 = .ok a) :
    a.tol = askedNumber kw "tol" a0.tol ∧ a.rcond = askedNumber kw "rcond" a0.rcond := by
  unfold askedNumber
  induction kw generalizing a0 with
  | nil =>
    cases Except.ok.inj h
    simp
  | cons kv kw ih =>
    obtain ⟨k, v⟩ := kv
    rw [List.map_cons, List.nodup_cons] at hnd
    have hno : ∀ k', k' = k → kw.lookup k' = none := by
      intro k' hk
      rw [List.lookup_eq_none_iff]
      intro p hp
      simp only [bne_iff_ne, ne_eq]
      intro he
      exact hnd.1 (List.mem_map.2 ⟨p, hp, by rw [← he, hk]⟩)
    unfold readRobArgs at h
    split_ifs at h with h1 h2 h3 h4 h5 <;> cases v <;> simp only [reduceCtorEq] at h <;> try split_ifs at h
    all_goals
      obtain ⟨i1, i2⟩ := ih hnd.2 _ h
      have hk := hno _ rfl
      clear ih hno h hnd
      rw [i1, i2]
      subst_vars
      try simp only [hk]
      clear hk i1 i2
      simp [List.lookup_cons]

/-- C47: in a robust analysis the iteration stops by the tolerance `tol` asked for (0.001 unless given), after at most
`maxit` iterations (50 unless given): each iteration but the last reduced the mean square by at least `tol` times its value,
and unless the iterations were used up or the next fit was worse, the last one reduced it by less. -/
theorem C47_solve (E : Env) (hs : ∀ rc n A b s, (E.num.lstsq rc n A b).resid = some s → 0 ≤ s) (t : TimeArg) (u : Series)
    (v : Option Series) (lat : Option ℝ) (opts : Dict PyVal) (R : Ready E t u v) (hnd : opts.keys.Nodup)
    (kw : List (String × PyVal)) (hr : AsksRobust opts kw) (hkw : (kw.map Prod.fst).Nodup) (c : Coef)
    (h : solve E t u v lat opts = .ok c) :
    ∃ (r : RobOut) (ms : ℕ → ℝ), c.rf = some r ∧ 1 ≤ r.iterations ∧ r.iterations ≤ askedMaxit kw ∧
      (∀ k, k < r.iterations → ms (r.iterations - 1) ≤ ms k) ∧
      (∀ k, k + 2 < r.iterations → askedNumber kw "tol" (1 / 1000) * ms k ≤ ms k - ms (k + 1)) ∧
      ((r.iterations < askedMaxit kw ∧ ms (r.iterations - 1) < ms r.iterations) ∨
       (2 ≤ r.iterations ∧ ms (r.iterations - 2) - ms (r.iterations - 1) <
          askedNumber kw "tol" (1 / 1000) * ms (r.iterations - 2)) ∨
       r.iterations = askedMaxit kw) := by
  obtain ⟨opt, p, tn0, constit, m, W, rf, full, o, ind, F⟩ := solve_facts R h
  have hrob := F.method_robust hnd hr
  obtain ⟨a, r, ha, hrf, rfl, rfl, rfl⟩ := F.robust_fit hrob
  obtain ⟨-, -, a3⟩ := readRobArgs_asked kw hkw _ a ha
  obtain ⟨ht, -⟩ := readRobArgs_numbers kw hkw _ a ha
  have ht' : a.tol = askedNumber kw "tol" (1 / 1000) := ht
  obtain ⟨f, w, fit, -, -, i1, i2, -, -, i3, i4, i5⟩ := C47_iteration E.num hs a p.nm p.B (xraw p.ed) r hrf
  have hmax : (a.maxit : ℚ) = askedMaxit kw := by
    unfold askedMaxit
    rcases a3 with ⟨e, hl⟩ | ⟨q, hl, hd, e⟩
    · rw [hl, e]; rfl
    · rw [hl, e]
      have hpos : 0 < a.maxit := by omega
      have hq : (0 : ℤ) ≤ q.num := by
        rw [e] at hpos
        omega
      show ((q.num.toNat : ℕ) : ℚ) = q
      have : ((q.num.toNat : ℕ) : ℤ) = q.num := Int.toNat_of_nonneg hq
      have e2 : ((q.num.toNat : ℕ) : ℚ) = ((q.num : ℤ) : ℚ) := by exact_mod_cast congrArg (fun z : ℤ => (z : ℚ)) this
      rw [e2]
      exact (Rat.den_eq_one_iff q).1 hd
  rw [ht'] at i4 i5
  refine ⟨r, fun k => meanSquare (fit k) (w k), ?_, i1, by rw [← hmax]; exact_mod_cast i2, fun k hk => (i3 k hk).2, i4, ?_⟩
  · exact F.crf
  · rw [← hmax]
    rcases i5 with ⟨j1, -, j2⟩ | ⟨j1, -, j2⟩ | ⟨j1, -⟩
    · exact .inl ⟨by exact_mod_cast j1, j2⟩
    · exact .inr (.inl ⟨j1, j2⟩)
    · exact .inr (.inr (by exact_mod_cast j1))

theorem ideal_resid : ∀ rc n A b s, (idealEnv.num.lstsq rc n A b).resid = some s → 0 ≤ s := by
  intro rc n A b s h
  have h : (idealLstsq rc n A b).resid = some s := h
  unfold idealLstsq at h
  split_ifs at h <;> simp_all
  all_goals
    subst_vars
    exact cost_nonneg _ _ _

/-- Non-vacuity: a robust analysis with talwar weights and the other keywords left out. -/
example : ∃ (c : Coef) (r : RobOut), solve idealEnv nineT (nineSeries (1 * -Complex.I).re (1 * Complex.I).re (1 * 12 : ℂ).re)
      (some (nineSeries (1 * -Complex.I).im (1 * Complex.I).im (1 * 12 : ℂ).im)) (some 45) (methodOpts "robust" nineKw) = .ok c ∧
    c.rf = some r ∧ 1 ≤ r.iterations ∧ (r.iterations : ℚ) ≤ 50 := by
  obtain ⟨c, w, -, H⟩ := nine_solve nineKw nineArgs nineKw_args _ _ _ 0 (· = thrice 1 1 0) fun z h1 h2 =>
    nine_run1 idealNum idealNum_ok z h1 h2
  obtain ⟨r, ms, h1, h2, h3, -⟩ := C47_solve idealEnv ideal_resid _ _ _ _ _ (nine_ready _ _ _) (by decide) nineKw
    ⟨⟨"robust", by decide, rfl⟩, false, rfl⟩ (by decide) c H.returned
  exact ⟨c, r, H.returned, h1, h2, h3⟩

/-! ## C25 -/

/-- C25: a number as epoch counts as milliseconds since 1970-01-01 with its fraction dropped, a boolean as 0 or 1. -/
theorem C25_number (dt64 : String → Option ℤ) (q : ℚ) (n : ℤ) (hn : DropsFraction (q : ℝ) n) (b : Bool) (ts : List ℝ) :
    normalizeTime dt64 (.float (ts.map .fin)) (.num q) = .ok (ts.map fun x => .fin (x + (n / 86400000 + 719163))) ∧
    normalizeTime dt64 (.float (ts.map .fin)) (.bool b)
      = .ok (ts.map fun x => .fin (x + ((if b = true then 1 else 0) / 86400000 + 719163))) := by
  constructor
  · rw [dropsFraction_unique _ n _ hn (truncZ_drops (q : ℝ))]
    simp [normalizeTime, epochShift, PyVal.eqStr, epochArr, TimeArr.asNumbers, pythonGregorianDatenum, astypeMs, ok_bind,
      pure_eq_ok, flToMs, date2num, Fl.add, msPerDay, dayToGregorianEpoch]
  · simp [normalizeTime, epochShift, PyVal.eqStr, epochArr, TimeArr.asNumbers, pythonGregorianDatenum, astypeMs, ok_bind,
      pure_eq_ok, date2num, Fl.add, msPerDay, dayToGregorianEpoch]

example (dt64 : String → Option ℤ) : normalizeTime dt64 (.float ([2].map .fin)) (.num 0) = .ok [.fin 719165] := by
  rw [(C25_number dt64 0 0 (by simp [DropsFraction]) false [2]).1]
  norm_num

end

end UTide.Props
