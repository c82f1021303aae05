import Verif.Model.Time
import Verif.Lemmas.Options
import Mathlib.Tactic.FieldSimp
import Mathlib.Tactic.Ring
import Mathlib.Tactic.Linarith
import Mathlib.Tactic.NormNum

/-!
# Properties of time conversion: C25, C26, C27, C28
-/

namespace UTide.Props
open UTide

/-! ## Specification: the proleptic Gregorian calendar -/

/-- A calendar date. -/
structure Date where
  year : ℤ
  month : ℕ
  day : ℕ
  deriving DecidableEq

/-- The Gregorian leap year rule. -/
def leap (y : ℤ) : Bool := y % 4 = 0 ∧ (y % 100 ≠ 0 ∨ y % 400 = 0)

/-- Number of days of a month. -/
def monthLen (y : ℤ) : ℕ → ℕ
  | 2 => if leap y then 29 else 28
  | 4 => 30 | 6 => 30 | 9 => 30 | 11 => 30
  | _ => 31

/-- The dates that exist. -/
def Date.Valid (d : Date) : Prop := 1 ≤ d.month ∧ d.month ≤ 12 ∧ 1 ≤ d.day ∧ d.day ≤ monthLen d.year d.month

/-- The following calendar day. -/
def Date.next (d : Date) : Date :=
  if d.day < monthLen d.year d.month then ⟨d.year, d.month, d.day + 1⟩
  else if d.month < 12 then ⟨d.year, d.month + 1, 1⟩
  else ⟨d.year + 1, 1, 1⟩

/-- What numpy's `datetime64` promises: a count of milliseconds that is 0 at 1970-01-01 and grows by one day's
milliseconds from each calendar day to the next. -/
structure IsDatetime64 (ms : Date → ℤ) : Prop where
  base : ms ⟨1970, 1, 1⟩ = 0
  step : ∀ d : Date, d.Valid → ms d.next = ms d + 24 * 60 * 60 * 1000

/-- A day numbering: 1 for 0001-01-01, one more for each following day. -/
structure IsDayNumber (n : Date → ℤ) : Prop where
  base : n ⟨1, 1, 1⟩ = 1
  step : ∀ d : Date, d.Valid → n d.next = n d + 1

/-! ## Helper lemmas -/

/-- Days in the months before month `m`. -/
def daysBefore (y : ℤ) : ℕ → ℤ
  | 0 => 0
  | 1 => 0
  | (m + 2) => daysBefore y (m + 1) + monthLen y (m + 1)

/-- Python's `date.toordinal`. -/
def ordinal (d : Date) : ℤ :=
  365 * (d.year - 1) + (d.year - 1) / 4 - (d.year - 1) / 100 + (d.year - 1) / 400 + daysBefore d.year d.month + d.day

theorem year_step (y : ℤ) : ordinal ⟨y + 1, 1, 1⟩ = ordinal ⟨y, 12, 31⟩ + 1 := by
  simp only [ordinal, daysBefore, monthLen]
  by_cases h : leap y = true
  · rw [if_pos h]; simp [leap] at h; push_cast; omega
  · rw [if_neg h]; simp [leap] at h; push_cast; omega

theorem ordinal_isDayNumber : IsDayNumber ordinal where
  base := by decide
  step := by
    rintro ⟨y, m, d⟩ ⟨h1, h2, h3, h4⟩
    dsimp only at h1 h2 h3 h4
    unfold Date.next
    dsimp only
    split_ifs with hd hm
    · simp [ordinal]; ring
    · obtain ⟨m', rfl⟩ : ∃ m', m = m' + 1 := ⟨m - 1, by omega⟩
      have : d = monthLen y (m' + 1) := by omega
      subst this
      simp [ordinal, daysBefore]; ring
    · have : m = 12 := by omega
      subst this
      have : d = 31 := by
        have : monthLen y 12 = 31 := rfl
        omega
      subst this
      exact year_step y

theorem monthLen_pos (y : ℤ) (m : ℕ) : 1 ≤ monthLen y m := by
  unfold monthLen; split <;> (try split_ifs) <;> omega

/-- A function growing by `c` from each day to the next is determined by its value on one day. -/
theorem count_eq (f : Date → ℤ) (c : ℤ) (hstep : ∀ d : Date, d.Valid → f d.next = f d + c) (d0 : Date) (h0 : d0.Valid)
    (d : Date) (hd : d.Valid) : f d - f d0 = c * (ordinal d - ordinal d0) := by
  set g : Date → ℤ := fun d => f d - c * ordinal d with hg
  have gstep : ∀ d : Date, d.Valid → g d.next = g d := by
    intro d hd; simp only [hg, hstep d hd, ordinal_isDayNumber.step d hd]; ring
  -- within a month
  have gday : ∀ (y : ℤ) (m : ℕ), 1 ≤ m → m ≤ 12 → ∀ k : ℕ, k + 1 ≤ monthLen y m → g ⟨y, m, k + 1⟩ = g ⟨y, m, 1⟩ := by
    intro y m h1 h2 k
    induction k with
    | zero => intro _; rfl
    | succ k ih =>
      intro hk
      have hv : Date.Valid ⟨y, m, k + 1⟩ := ⟨h1, h2, by simp, by dsimp only; omega⟩
      have := gstep _ hv
      rw [show Date.next ⟨y, m, k + 1⟩ = ⟨y, m, k + 1 + 1⟩ by simp [Date.next]; omega] at this
      rw [this]; exact ih (by omega)
  have gmon : ∀ (y : ℤ) (k : ℕ), k + 1 ≤ 12 → g ⟨y, k + 1, 1⟩ = g ⟨y, 1, 1⟩ := by
    intro y k
    induction k with
    | zero => intro _; rfl
    | succ k ih =>
      intro hk
      have hp := monthLen_pos y (k + 1)
      have hv : Date.Valid ⟨y, k + 1, monthLen y (k + 1)⟩ := ⟨by simp, by dsimp only; omega, hp, le_refl _⟩
      have hs := gstep _ hv
      rw [show Date.next ⟨y, k + 1, monthLen y (k + 1)⟩ = ⟨y, k + 1 + 1, 1⟩ by simp [Date.next]; omega] at hs
      obtain ⟨j, hj⟩ : ∃ j, monthLen y (k + 1) = j + 1 := ⟨monthLen y (k + 1) - 1, by omega⟩
      rw [hs, hj, gday y (k + 1) (by omega) (by omega) j (by omega)]
      exact ih (by omega)
  have gyear : ∀ y : ℤ, g ⟨y + 1, 1, 1⟩ = g ⟨y, 1, 1⟩ := by
    intro y
    have hs := gstep ⟨y, 12, 31⟩ ⟨by simp, by simp, by simp, by simp [monthLen]⟩
    rw [show Date.next ⟨y, 12, 31⟩ = ⟨y + 1, 1, 1⟩ by simp [Date.next, monthLen]] at hs
    rw [hs, gday y 12 (by simp) (by simp) 30 (by simp [monthLen]), gmon y 11 (by simp)]
  have gy : ∀ y : ℤ, g ⟨y, 1, 1⟩ = g ⟨0, 1, 1⟩ := by
    intro y
    induction y using Int.induction_on with
    | zero => rfl
    | succ n ih => rw [gyear]; exact ih
    | pred n ih => rw [← gyear]; simpa using ih
  have all : ∀ d : Date, d.Valid → g d = g ⟨0, 1, 1⟩ := by
    rintro ⟨y, m, d⟩ ⟨h1, h2, h3, h4⟩
    dsimp only at h1 h2 h3 h4
    obtain ⟨j, rfl⟩ : ∃ j, d = j + 1 := ⟨d - 1, by omega⟩
    obtain ⟨k, rfl⟩ : ∃ k, m = k + 1 := ⟨m - 1, by omega⟩
    rw [gday y (k + 1) h1 h2 j h4, gmon y k h2, gy y]
  have e1 := all d hd
  have e2 := all d0 h0
  have : g d = g d0 := by rw [e1, e2]
  simp only [hg] at this
  linarith

theorem dayNumber_eq (n : Date → ℤ) (hn : IsDayNumber n) (d : Date) (hd : d.Valid) : n d = ordinal d := by
  have := count_eq n 1 hn.step ⟨1, 1, 1⟩ ⟨by simp, by simp, by simp, by simp [monthLen]⟩ d hd
  rw [hn.base, ordinal_isDayNumber.base] at this
  linarith

theorem datetime64_eq (ms : Date → ℤ) (h : IsDatetime64 ms) (d : Date) (hd : d.Valid) :
    ms d = 86400000 * (ordinal d - 719163) := by
  have := count_eq ms _ h.step ⟨1970, 1, 1⟩ ⟨by simp, by simp, by simp, by simp [monthLen]⟩ d hd
  rw [h.base, show ordinal ⟨1970, 1, 1⟩ = 719163 by decide] at this
  linarith

/-! ## C26 -/

/-- C26: for datetimes the normalised time is the Gregorian day number of the date plus the exact fraction of the
day, `k` being the milliseconds after midnight. Both the calendar arithmetic of numpy (`ms`) and the day numbering
(`n`) are any functions with the documented properties. -/
theorem C26_datetime_day_numbers (dt64 : String → Option ℤ) (ms n : Date → ℤ) (hms : IsDatetime64 ms) (hn : IsDayNumber n)
    (days : List (Date × ℤ)) (hv : ∀ p ∈ days, p.1.Valid) :
    normalizeTime dt64 (.date (days.map fun p => some (ms p.1 + p.2))) .none =
      .ok (days.map fun p => .fin ((n p.1 : ℝ) + (p.2 : ℝ) / (24 * 60 * 60 * 1000))) := by
  simp only [normalizeTime, pythonGregorianDatenum, astypeMs, ok_bind, pure_eq_ok, List.map_map]
  congr 1
  refine List.map_congr_left ?_
  intro p hp
  simp only [Function.comp, date2num, Fl.add, datetime64_eq ms hms p.1 (hv p hp), dayNumber_eq n hn p.1 (hv p hp),
    msPerDay, dayToGregorianEpoch]
  congr 1
  push_cast
  ring

/-- Such a calendar exists: the hypotheses of C26 are met, e.g. for noon of 2000-02-29. -/
example : IsDatetime64 (fun d => 86400000 * (ordinal d - 719163)) ∧ IsDayNumber ordinal ∧
    (⟨2000, 2, 29⟩ : Date).Valid := by
  refine ⟨⟨by decide, fun d hd => ?_⟩, ordinal_isDayNumber, by simp [Date.Valid, monthLen, leap]⟩
  simp only [ordinal_isDayNumber.step d hd]; ring

example (dt64 : String → Option ℤ) (ms : Date → ℤ) (hms : IsDatetime64 ms) :
    normalizeTime dt64 (.date [some (ms ⟨2000, 2, 29⟩ + 43200000)]) .none = .ok [.fin (730179 + 1 / 2)] := by
  have := C26_datetime_day_numbers dt64 ms ordinal hms ordinal_isDayNumber [(⟨2000, 2, 29⟩, 43200000)]
    (by simp [Date.Valid, monthLen, leap])
  simp only [List.map_cons, List.map_nil] at this
  rw [this, show ordinal ⟨2000, 2, 29⟩ = 730179 by decide]
  norm_num

/-! ## C25 -/

/-- The day number of an instant given in milliseconds since 1970-01-01. -/
noncomputable def dayNumberOf (E : ℤ) : ℝ := (E : ℝ) / (24 * 60 * 60 * 1000) + 719163

theorem normalizeTime_epoch (dt64 : String → Option ℤ) (t : TimeArr) (e : PyVal) (he : e ≠ .none) :
    normalizeTime dt64 t e = match t.asNumbers with
      | none => .error .valueError
      | some xs => (epochShift dt64 e).map fun f => xs.map f := by
  cases e <;> first | exact absurd rfl he | rfl

theorem epochShift_python (dt64 : String → Option ℤ) : epochShift dt64 (.str "python") = .ok id := by
  simp [epochShift, PyVal.eqStr, ok_bind, pure_eq_ok]

theorem epochShift_matlab (dt64 : String → Option ℤ) :
    epochShift dt64 (.str "matlab") = .ok fun x => x.sub (.fin 366) := by
  simp [epochShift, PyVal.eqStr, ok_bind, pure_eq_ok]

theorem epoch_fin (E : ℤ) : (date2num (some E)).add (.fin (dayToGregorianEpoch : ℝ)) = .fin (dayNumberOf E) := by
  simp only [date2num, Fl.add, dayNumberOf, msPerDay, dayToGregorianEpoch]
  congr 1
  norm_num

theorem epochShift_date (dt64 : String → Option ℤ) (E : ℤ) :
    epochShift dt64 (.date E) = .ok fun x => x.add (.fin (dayNumberOf E)) := by
  simp [epochShift, PyVal.eqStr, ok_bind, pure_eq_ok, epochArr, pythonGregorianDatenum, astypeMs, ← epoch_fin]

theorem epochShift_str (dt64 : String → Option ℤ) (s : String) (hpy : s ≠ "python") (hm : s ≠ "matlab") :
    epochShift dt64 (.str s) = match dt64 s with
      | some E => .ok fun x => x.add (.fin (dayNumberOf E))
      | none => .error .valueError := by
  cases h : dt64 s with
  | none =>
    simp [epochShift, PyVal.eqStr, ok_bind, error_bind, epochArr, pythonGregorianDatenum, astypeMs, hpy, hm, h]
  | some E =>
    simp [epochShift, PyVal.eqStr, ok_bind, pure_eq_ok, epochArr, pythonGregorianDatenum, astypeMs, ← epoch_fin, hpy,
      hm, h]

/-- C25: numeric times with an epoch denote epoch + t days. All these describe the same normalised times: `t` with
a date epoch; `t` with that epoch written as a string; the absolute day numbers with epoch 'python'; the
absolute day numbers plus 366 with epoch 'matlab'. -/
theorem C25_epoch_relabels (dt64 : String → Option ℤ) (E : ℤ) (s : String) (hs : dt64 s = some E) (hpy : s ≠ "python")
    (hm : s ≠ "matlab") (ts : List ℝ) :
    let answer : Except PyErr (List Fl) := .ok (ts.map fun t => .fin (t + dayNumberOf E))
    normalizeTime dt64 (.float (ts.map .fin)) (.date E) = answer ∧
    normalizeTime dt64 (.float (ts.map .fin)) (.str s) = answer ∧
    normalizeTime dt64 (.float (ts.map fun t => .fin (t + dayNumberOf E))) (.str "python") = answer ∧
    normalizeTime dt64 (.float (ts.map fun t => .fin (t + dayNumberOf E + 366))) (.str "matlab") = answer := by
  refine ⟨?_, ?_, ?_, ?_⟩ <;> rw [normalizeTime_epoch _ _ _ (by simp)]
  · simp [TimeArr.asNumbers, epochShift_date, Except.map, Fl.add]
  · simp [TimeArr.asNumbers, epochShift_str _ _ hpy hm, hs, Except.map, Fl.add]
  · simp [TimeArr.asNumbers, epochShift_python, Except.map]
  · simp [TimeArr.asNumbers, epochShift_matlab, Except.map, Fl.sub, Fl.neg, Fl.add]

/-- C25 for datetimes: shifting an epoch by `k` milliseconds as a datetime, without an epoch, gives the same
normalised times as the numbers `k` milliseconds (in days) with that epoch. -/
theorem C25_datetimes_agree (dt64 : String → Option ℤ) (E : ℤ) (ks : List ℤ) :
    normalizeTime dt64 (.date (ks.map fun k : ℤ => some (E + k))) .none =
    normalizeTime dt64 (.float (ks.map fun k : ℤ => .fin ((k : ℝ) / (24 * 60 * 60 * 1000)))) (.date E) := by
  rw [normalizeTime_epoch dt64 _ (.date E) (by simp)]
  simp only [normalizeTime, TimeArr.asNumbers, epochShift_date, Except.map, pythonGregorianDatenum, astypeMs, ok_bind,
    pure_eq_ok, List.map_map]
  congr 1
  refine List.map_congr_left fun k _ => ?_
  simp only [Function.comp]
  rw [epoch_fin]
  simp only [Fl.add, dayNumberOf]
  congr 1
  push_cast
  ring

/-- C25: integer arrays are treated like the floating arrays with the same values. -/
theorem C25_integers (dt64 : String → Option ℤ) (ts : List ℤ) (e : PyVal) (he : e ≠ .none) :
    normalizeTime dt64 (.int ts) e = normalizeTime dt64 (.float (ts.map fun t : ℤ => .fin (t : ℝ))) e := by
  cases e <;> simp_all [normalizeTime, TimeArr.asNumbers]

/-- C25: NaN stays NaN and infinities stay infinite, position by position, so invalid entries do not spread. -/
theorem C25_pointwise (dt64 : String → Option ℤ) (xs ys : List Fl) (e : PyVal) (he : e ≠ .none) :
    normalizeTime dt64 (.float (xs ++ ys)) e = (do
      let a ← normalizeTime dt64 (.float xs) e
      let b ← normalizeTime dt64 (.float ys) e
      return a ++ b) := by
  simp only [normalizeTime_epoch dt64 _ e he, TimeArr.asNumbers]
  cases epochShift dt64 e <;> simp [Except.map, ok_bind, error_bind, pure_eq_ok]

/-! ## C28 -/

/-- C28: with an epoch, arrays that are neither integer nor floating are refused with ValueError, whatever the
epoch; integer and floating arrays are accepted for every epoch that is 'python', 'matlab', a date, or a string that
numpy can parse, and refused with ValueError for any other string. -/
theorem C28_unusable_times (dt64 : String → Option ℤ) (e : PyVal) (he : e ≠ .none) :
    (∀ xs, normalizeTime dt64 (.uint xs) e = .error .valueError) ∧
    (∀ xs, normalizeTime dt64 (.bool xs) e = .error .valueError) ∧
    (∀ xs, normalizeTime dt64 (.str xs) e = .error .valueError) ∧
    (∀ xs, normalizeTime dt64 (.date xs) e = .error .valueError) ∧
    (((∃ s, e = .str s ∧ (s = "python" ∨ s = "matlab" ∨ (dt64 s).isSome)) ∨ ∃ E, e = .date E) →
      (∀ xs, ∃ r, normalizeTime dt64 (.float xs) e = .ok r ∧ r.length = xs.length) ∧
      (∀ xs, ∃ r, normalizeTime dt64 (.int xs) e = .ok r ∧ r.length = xs.length)) ∧
    (∀ s, e = .str s → s ≠ "python" → s ≠ "matlab" → dt64 s = none →
      (∀ xs, normalizeTime dt64 (.float xs) e = .error .valueError) ∧
      (∀ xs, normalizeTime dt64 (.int xs) e = .error .valueError)) := by
  refine ⟨?_, ?_, ?_, ?_, ?_, ?_⟩
  · intro xs; cases e <;> simp_all [normalizeTime, TimeArr.asNumbers]
  · intro xs; cases e <;> simp_all [normalizeTime, TimeArr.asNumbers]
  · intro xs; cases e <;> simp_all [normalizeTime, TimeArr.asNumbers]
  · intro xs; cases e <;> simp_all [normalizeTime, TimeArr.asNumbers]
  · have hfl : ((∃ s, e = .str s ∧ (s = "python" ∨ s = "matlab" ∨ (dt64 s).isSome)) ∨ ∃ E, e = .date E) →
        (∀ xs, ∃ r, normalizeTime dt64 (.float xs) e = .ok r ∧ r.length = xs.length) := by
      have acc : ∀ f, epochShift dt64 e = .ok f →
          ∀ xs, ∃ r, normalizeTime dt64 (.float xs) e = .ok r ∧ r.length = xs.length := by
        intro f hf xs
        rw [normalizeTime_epoch dt64 _ e he, hf]
        exact ⟨xs.map f, rfl, by simp⟩
      rintro (⟨s, rfl, h⟩ | ⟨E, rfl⟩)
      · by_cases h1 : s = "python"
        · subst h1; exact acc _ (epochShift_python dt64)
        · by_cases h2 : s = "matlab"
          · subst h2; exact acc _ (epochShift_matlab dt64)
          · obtain ⟨E, hE⟩ := Option.isSome_iff_exists.1 ((h.resolve_left h1).resolve_left h2)
            exact acc (fun x => x.add (.fin (dayNumberOf E))) (by rw [epochShift_str dt64 s h1 h2, hE])
      · exact acc _ (epochShift_date dt64 E)
    intro h
    refine ⟨hfl h, fun xs => ?_⟩
    obtain ⟨r, h1, h2⟩ := hfl h (xs.map fun t : ℤ => .fin (t : ℝ))
    exact ⟨r, by rw [C25_integers dt64 xs e he, h1], by simpa using h2⟩
  · rintro s rfl h1 h2 h3
    have hfl : ∀ xs, normalizeTime dt64 (.float xs) (.str s) = .error .valueError := by
      intro xs
      rw [normalizeTime_epoch dt64 _ _ he, epochShift_str dt64 s h1 h2, h3]; rfl
    exact ⟨hfl, fun xs => by rw [C25_integers dt64 xs _ he, hfl]⟩

example : normalizeTime (fun _ => none) (.uint [1, 2]) (.str "python") = .error .valueError :=
  (C28_unusable_times _ _ (by simp)).1 _

/-! ## C27 -/

/-- Full statement of C27 (false of the code): without an epoch, numeric times are days since 0000-12-31. -/
def C27_full : Prop := ∀ (dt64 : String → Option ℤ) (xs : List Fl),
  normalizeTime dt64 (.float xs) .none = normalizeTime dt64 (.float xs) (.str "python")

/-- What the code does instead: numbers without an epoch are truncated to whole milliseconds since 1970-01-01. -/
theorem C27_without_epoch (dt64 : String → Option ℤ) (ts : List ℝ) :
    normalizeTime dt64 (.float (ts.map .fin)) .none =
      .ok (ts.map fun t => .fin ((truncZ t : ℝ) / (24 * 60 * 60 * 1000) + 719163)) := by
  simp [normalizeTime, pythonGregorianDatenum, astypeMs, ok_bind, pure_eq_ok, flToMs, date2num, Fl.add, msPerDay,
    dayToGregorianEpoch]
  norm_num

/-- C27, negation: in particular every day number from year 1 to 1968 is misread. -/
theorem C27_false : ¬ C27_full ∧ ∀ (dt64 : String → Option ℤ) (t : ℝ), 1 ≤ t → t < 719162 →
    normalizeTime dt64 (.float [.fin t]) .none ≠ normalizeTime dt64 (.float [.fin t]) (.str "python") := by
  have key : ∀ (dt64 : String → Option ℤ) (t : ℝ), 1 ≤ t → t < 719162 →
      normalizeTime dt64 (.float [.fin t]) .none ≠ normalizeTime dt64 (.float [.fin t]) (.str "python") := by
    intro dt64 t h1 h2 heq
    have := C27_without_epoch dt64 [t]
    simp only [List.map_cons, List.map_nil] at this
    rw [this] at heq
    rw [normalizeTime_epoch _ _ _ (by simp), epochShift_python] at heq
    simp [TimeArr.asNumbers, Except.map] at heq
    have h0 : (0 : ℝ) ≤ (truncZ t : ℝ) := by
      have : 0 ≤ truncZ t := by
        unfold truncZ; rw [if_pos (by linarith)]; exact Int.floor_nonneg.2 (by linarith)
      exact_mod_cast this
    have : (0 : ℝ) ≤ (truncZ t : ℝ) / (24 * 60 * 60 * 1000) := by positivity
    linarith
  refine ⟨fun h => ?_, key⟩
  exact key (fun _ => none) 100 (by norm_num) (by norm_num) (h _ _)

/-- C27, the part that holds: with epoch='python' the numbers are taken as they are. The default is the other
behaviour, described by `C27_without_epoch`. -/
theorem C27_python_epoch_partial (dt64 : String → Option ℤ) (xs : List Fl) :
    normalizeTime dt64 (.float xs) (.str "python") = .ok xs := by
  rw [normalizeTime_epoch _ _ _ (by simp), epochShift_python]
  simp [TimeArr.asNumbers, Except.map]

end UTide.Props
