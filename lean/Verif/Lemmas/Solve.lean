import Verif.Model.Reconstruct
import Verif.Lemmas.SlvInit

/-!
# What a successful `solve` means
-/

namespace UTide

noncomputable section

theorem raiseIf_ok (c : Bool) (e : PyErr) (x : Unit) : raiseIf c e = .ok x ↔ c = false := by
  unfold raiseIf; cases c <;> simp

theorem raiseIf_error (c : Bool) (e e' : PyErr) : raiseIf c e = .error e' ↔ c = true ∧ e = e' := by
  unfold raiseIf; cases c <;> simp

/-- The shape conditions of `solve`. -/
def GoodShapes (t : TimeArg) (u : Series) (v : Option Series) : Prop :=
  t.shape = u.shape ∧ u.shape.length = 1 ∧ ∀ w, v = some w → w.shape = u.shape

theorem checkShapes_ok (t : TimeArg) (u : Series) (v : Option Series) :
    checkShapes t u v = .ok () ↔ GoodShapes t u v := by
  unfold checkShapes GoodShapes
  rw [bind_eq_ok]
  simp only [raiseIf_ok, exists_const, Bool.or_eq_false_iff, bne_eq_false_iff_eq]
  cases v with
  | none =>
    constructor
    · rintro ⟨⟨⟨h1, h2⟩, h3⟩, -⟩; exact ⟨h1, h3, by simp⟩
    · rintro ⟨h1, h2, h3⟩; exact ⟨⟨⟨h1, by rw [h1]; exact h2⟩, h2⟩, rfl⟩
  | some v =>
    simp only [bne_eq_false_iff_eq, Option.some.injEq, forall_eq']
    constructor
    · rintro ⟨⟨⟨h1, h2⟩, h3⟩, h4⟩; exact ⟨h1, h3, h4⟩
    · rintro ⟨h1, h2, h3⟩; exact ⟨⟨⟨h1, by rw [h1]; exact h2⟩, h2⟩, h3⟩

theorem checkShapes_error (t : TimeArg) (u : Series) (v : Option Series) (e : PyErr)
    (h : checkShapes t u v = .error e) : e = .valueError := by
  unfold checkShapes at h
  rw [bind_eq_error] at h
  simp only [raiseIf_error] at h
  rcases h with ⟨-, rfl⟩ | ⟨-, -, -, rfl⟩ <;> rfl

/-- numpy's invariant: an array has as many entries as its shape says. -/
def TimeArg.WF (t : TimeArg) : Prop := t.shape.prod = t.arr.length
def Series.WF (u : Series) : Prop := u.shape.prod = u.data.length

theorem mapM_option_length {dt64 : String → Option ℤ} (xs : List String) (r : List (Option ℤ))
    (h : xs.mapM (fun s => match dt64 s with
      | some ms => (.ok (some ms) : Except PyErr (Option ℤ))
      | none => .error .valueError) = .ok r) : r.length = xs.length := mapM_length _ _ _ h

theorem astypeMs_length (dt64 : String → Option ℤ) (t : TimeArr) (r : List (Option ℤ))
    (h : astypeMs dt64 t = .ok r) : r.length = t.length := by
  cases t <;> simp only [astypeMs, Except.ok.injEq] at h
  case str xs => exact mapM_length _ _ _ h
  all_goals subst h; simp [TimeArr.length]

theorem normalizeTime_length (dt64 : String → Option ℤ) (t : TimeArr) (e : PyVal) (tn : List Fl)
    (h : normalizeTime dt64 t e = .ok tn) : tn.length = t.length := by
  have key : ∀ e', e' ≠ PyVal.none → (match t.asNumbers with
      | none => (.error .valueError : Except PyErr (List Fl))
      | some xs => do
        let f ← epochShift dt64 e'
        return xs.map f) = .ok tn → tn.length = t.length := by
    intro e' _ h
    cases t <;> simp only [TimeArr.asNumbers, bind_eq_ok, pure_eq_ok, Except.ok.injEq, reduceCtorEq] at h
    all_goals obtain ⟨f, -, rfl⟩ := h; simp [TimeArr.length]
  cases e with
  | none =>
    simp only [normalizeTime, pythonGregorianDatenum, bind_eq_ok, pure_eq_ok, Except.ok.injEq] at h
    obtain ⟨ms, hms, rfl⟩ := h
    simpa using astypeMs_length dt64 t ms hms
  | _ => exact key _ (by simp) h

/-- The data part of a successful call. -/
structure InitOk (E : Env) (opt : Opt) (t : TimeArg) (u : Series) (v : Option Series) (lat : Option ℝ)
    (tn : List Fl) (ed : Edited) (la : ℝ) : Prop where
  hlat : lat = some la
  shapes : GoodShapes t u v
  time : normalizeTime E.dt64 t.arr opt.epoch = .ok tn
  edit : editData tn u.data (v.map Series.data) = .ok ed

theorem stageInit_ok (E : Env) (opt : Opt) (t : TimeArg) (u : Series) (v : Option Series) (lat : Option ℝ)
    (ed : Edited) (la : ℝ) :
    stageInit E opt t u v lat = .ok (ed, la) ↔ ∃ tn, InitOk E opt t u v lat tn ed la := by
  unfold stageInit slvInit
  cases lat with
  | none =>
    simp only [reduceCtorEq, false_iff, not_exists]
    rintro tn ⟨h, -, -, -⟩
    simp at h
  | some l =>
    simp only [bind_eq_ok, pure_eq_ok, Except.ok.injEq, Prod.mk.injEq]
    constructor
    · rintro ⟨_, hs, tn, ht, ed', he, rfl, rfl⟩
      exact ⟨tn, ⟨rfl, (checkShapes_ok t u v).1 hs, ht, he⟩⟩
    · rintro ⟨tn, ⟨hl, hs, ht, he⟩⟩
      exact ⟨(), (checkShapes_ok t u v).2 hs, tn, ht, ed, he, rfl, by simpa using hl⟩

/-- Lengths agree after the shape checks. -/
theorem InitOk.lengths {E : Env} {opt : Opt} {t : TimeArg} {u : Series} {v : Option Series} {lat : Option ℝ}
    {tn : List Fl} {ed : Edited} {la : ℝ} (h : InitOk E opt t u v lat tn ed la) (ht : t.WF) (hu : u.WF)
    (hv : ∀ w, v = some w → w.WF) :
    tn.length = u.data.length ∧ ∀ w, v = some w → u.data.length = w.data.length := by
  have h1 := normalizeTime_length _ _ _ _ h.time
  obtain ⟨hs, -, hvs⟩ := h.shapes
  unfold TimeArg.WF at ht
  unfold Series.WF at hu
  refine ⟨by rw [h1, ← ht, ← hu, hs], fun w hw => ?_⟩
  have := hv w hw
  unfold Series.WF at this
  rw [← hu, ← this, hvs w hw]

/-- The reference times. -/
theorem timeStats_ok (tin t : List ℝ) (a : ℝ) (b : ℝ) (c : Fl) (d : Bool)
    (h : timeStats tin t = .ok (a, b, c, d)) :
    d = isEqui tin ∧ midpoint (if isEqui tin then tin else t) = .ok a ∧
    ptp (if isEqui tin then tin else t) = .ok b ∧
    c = (Fl.fin (b * (if isEqui tin then tin else t).length)).div
      (.fin ((if isEqui tin then tin else t).length - 1)) := by
  unfold timeStats at h
  simp only [bind_eq_ok, pure_eq_ok, Except.ok.injEq, Prod.mk.injEq] at h
  obtain ⟨lor, h1, tr, h2, rfl, rfl, rfl, rfl⟩ := h
  exact ⟨rfl, h2, h1, rfl⟩

theorem editData_ok_none (tn : List Fl) (u : List Cell) (hl : tn.length = u.length) (ed : Edited) :
    editData tn u none = .ok ed ↔
      timeStats (finiteTimes tn) ((goodSamples tn u).map Prod.fst) = .ok (ed.tref, ed.lor, ed.elor, ed.equi) ∧
      ed.tin = finiteTimes tn ∧ ed.t = (goodSamples tn u).map Prod.fst ∧
      ed.u = (goodSamples tn u).map Prod.snd ∧ ed.v = none := by
  unfold editData
  simp only [Option.map_none]
  rw [edit_none tn u hl]
  simp only [bind_eq_ok, pure_eq_ok, Except.ok.injEq, Prod.exists]
  constructor
  · rintro ⟨a, b, c, d, h, rfl⟩; exact ⟨h, rfl, rfl, rfl, rfl⟩
  · rintro ⟨h, h1, h2, h3, h4⟩
    refine ⟨_, _, _, _, h, ?_⟩
    rw [← h1, ← h2, ← h3, ← h4]

theorem editData_ok_some (tn : List Fl) (u v : List Cell) (hl : tn.length = u.length)
    (hv : u.length = v.length) (ed : Edited) :
    editData tn u (some v) = .ok ed ↔
      timeStats (finiteTimes tn) ((goodSamples2 tn u v).map (·.1)) = .ok (ed.tref, ed.lor, ed.elor, ed.equi) ∧
      ed.tin = finiteTimes tn ∧ ed.t = (goodSamples2 tn u v).map (·.1) ∧
      ed.u = (goodSamples2 tn u v).map (·.2.1) ∧ ed.v = some ((goodSamples2 tn u v).map (·.2.2)) := by
  unfold editData
  simp only [Option.map_some]
  rw [edit_some tn u v hl hv]
  simp only [bind_eq_ok, pure_eq_ok, Except.ok.injEq, Prod.exists]
  constructor
  · rintro ⟨a, b, c, d, h, rfl⟩; exact ⟨h, rfl, rfl, rfl, rfl⟩
  · rintro ⟨h, h1, h2, h3, h4⟩
    refine ⟨_, _, _, _, h, ?_⟩
    rw [← h1, ← h2, ← h3, ← h4]

/-- The result of data editing as a function of the valid times and the usable samples. -/
def editOf (tin t u : List ℝ) (v : Option (List ℝ)) : Except PyErr Edited := do
  let (tref, lor, elor, equi) ← timeStats tin t
  return { tin := tin, t := t, u := u, v := v, tref := tref, lor := lor, elor := elor, equi := equi }

theorem editData_none (tn : List Fl) (u : List Cell) (hl : tn.length = u.length) :
    editData tn u none = editOf (finiteTimes tn) ((goodSamples tn u).map Prod.fst)
      ((goodSamples tn u).map Prod.snd) none := by
  unfold editData editOf
  simp only [Option.map_none]
  rw [edit_none tn u hl]

theorem editData_some (tn : List Fl) (u v : List Cell) (hl : tn.length = u.length) (hv : u.length = v.length) :
    editData tn u (some v) = editOf (finiteTimes tn) ((goodSamples2 tn u v).map (·.1))
      ((goodSamples2 tn u v).map (·.2.1)) (some ((goodSamples2 tn u v).map (·.2.2))) := by
  unfold editData editOf
  simp only [Option.map_some]
  rw [edit_some tn u v hl hv]

/-! ## Dropping samples whose time is missing -/

/-- Every dropped entry is missing. -/
def OnlyDrops (k miss : List Bool) : Prop :=
  k.length = miss.length ∧ ∀ p ∈ k.zip miss, p.1 = false → p.2 = true

theorem OnlyDrops.tail {b m : Bool} {k miss : List Bool} (h : OnlyDrops (b :: k) (m :: miss)) :
    OnlyDrops k miss := ⟨by simpa using h.1, fun p hp => h.2 p (by simp [hp])⟩

theorem OnlyDrops.head {b m : Bool} {k miss : List Bool} (h : OnlyDrops (b :: k) (m :: miss)) :
    b = false → m = true := h.2 (b, m) (by simp)

theorem OnlyDrops.all {k miss : List Bool} (h : OnlyDrops k miss) (hm : ∀ m ∈ miss, m = false) :
    ∀ b ∈ k, b = true := by
  induction k generalizing miss with
  | nil => simp
  | cons b k ih =>
    cases miss with
    | nil => simp [OnlyDrops] at h
    | cons m miss =>
      intro c hc
      simp only [List.mem_cons] at hc
      rcases hc with rfl | hc
      · by_contra hb
        have := h.head (by simpa using hb)
        rw [hm m (by simp)] at this
        simp at this
      · exact ih h.tail (fun m hm' => hm m (by simp [hm'])) c hc

theorem finiteTimes_compress (k : List Bool) (tn : List Fl) (h : OnlyDrops k (tn.map fun x => !x.isFinite)) :
    finiteTimes (compress k tn) = finiteTimes tn := by
  induction tn generalizing k with
  | nil => simp
  | cons x tn ih =>
    cases k with
    | nil => simp [OnlyDrops] at h
    | cons b k =>
      rw [List.map_cons] at h
      have := ih k h.tail
      rw [compress_cons, finiteTimes_cons]
      cases b with
      | true =>
        simp only [if_true]
        rw [finiteTimes_cons, this]
      | false =>
        have hx := h.head rfl
        simp only [Bool.false_eq_true, if_false, this]
        cases hx' : x.toReal? with
        | none => rfl
        | some t => rw [isFinite_eq, hx'] at hx; simp at hx

theorem goodSamples_compress (k : List Bool) (tn : List Fl) (u : List Cell) (hl : tn.length = u.length)
    (h : OnlyDrops k (tn.map fun x => !x.isFinite)) :
    goodSamples (compress k tn) (compress k u) = goodSamples tn u := by
  induction tn generalizing k u with
  | nil => simp [goodSamples]
  | cons x tn ih =>
    cases k with
    | nil => simp [OnlyDrops] at h
    | cons b k =>
      cases u with
      | nil => simp at hl
      | cons c u =>
        rw [List.map_cons] at h
        have := ih k u (by simpa using hl) h.tail
        rw [compress_cons, compress_cons, goodSamples_cons]
        cases b with
        | true =>
          simp only [if_true]
          rw [goodSamples_cons, this]
        | false =>
          have hx := h.head rfl
          simp only [Bool.false_eq_true, if_false, this]
          cases hx' : x.toReal? with
          | none => rfl
          | some t => rw [isFinite_eq, hx'] at hx; simp at hx

theorem goodSamples2_compress (k : List Bool) (tn : List Fl) (u v : List Cell) (hl : tn.length = u.length)
    (hv : u.length = v.length) (h : OnlyDrops k (tn.map fun x => !x.isFinite)) :
    goodSamples2 (compress k tn) (compress k u) (compress k v) = goodSamples2 tn u v := by
  induction tn generalizing k u v with
  | nil => simp [goodSamples2]
  | cons x tn ih =>
    cases k with
    | nil => simp [OnlyDrops] at h
    | cons b k =>
      cases u with
      | nil => simp at hl
      | cons c u =>
        cases v with
        | nil => simp at hv
        | cons d v =>
          rw [List.map_cons] at h
          have := ih k u v (by simpa using hl) (by simpa using hv) h.tail
          rw [compress_cons, compress_cons, compress_cons, goodSamples2_cons]
          cases b with
          | true =>
            simp only [if_true]
            rw [goodSamples2_cons, this]
          | false =>
            have hx := h.head rfl
            simp only [Bool.false_eq_true, if_false, this]
            cases hx' : x.toReal? with
            | none => rfl
            | some t => rw [isFinite_eq, hx'] at hx; simp at hx

/-- Which entries of a time array are missing values: NaN or infinite numbers, NaT. -/
def TimeArr.missing : TimeArr → List Bool
  | .int xs => xs.map fun _ => false
  | .uint xs => xs.map fun _ => false
  | .bool xs => xs.map fun _ => false
  | .float xs => xs.map fun x => !x.isFinite
  | .date xs => xs.map Option.isNone
  | .str xs => xs.map fun _ => false

/-- `t[k]` with a boolean index. -/
def TimeArr.keep (k : List Bool) : TimeArr → TimeArr
  | .int xs => .int (compress k xs)
  | .uint xs => .uint (compress k xs)
  | .bool xs => .bool (compress k xs)
  | .float xs => .float (compress k xs)
  | .date xs => .date (compress k xs)
  | .str xs => .str (compress k xs)

theorem Fl.add_nonfinite (x y : Fl) (h : x.isFinite = false) : (x.add y).isFinite = false := by
  cases x <;> cases y <;> simp_all [Fl.add, Fl.isFinite]

theorem epochShift_nonfinite (dt64 : String → Option ℤ) (e : PyVal) (f : Fl → Fl)
    (h : epochShift dt64 e = .ok f) (x : Fl) (hx : x.isFinite = false) : (f x).isFinite = false := by
  unfold epochShift at h
  simp only [bind_eq_ok] at h
  obtain ⟨b1, -, h⟩ := h
  cases b1 with
  | true => simp only [if_true, pure_eq_ok, Except.ok.injEq] at h; subst h; exact hx
  | false =>
    simp only [Bool.false_eq_true, if_false, bind_eq_ok] at h
    obtain ⟨b2, -, h⟩ := h
    cases b2 with
    | true =>
      simp only [if_true, pure_eq_ok, Except.ok.injEq] at h; subst h
      exact Fl.add_nonfinite _ _ hx
    | false =>
      simp only [Bool.false_eq_true, if_false, bind_eq_ok] at h
      obtain ⟨a, -, l, -, h⟩ := h
      split at h
      · simp only [pure_eq_ok, Except.ok.injEq] at h; subst h
        exact Fl.add_nonfinite _ _ hx
      · simp [throw_eq_error] at h

theorem date2num_nonfinite (x : Option ℤ) (c : Fl) (h : x.isNone = true) :
    ((date2num x).add c).isFinite = false := by
  cases x with
  | none => exact Fl.add_nonfinite _ _ rfl
  | some _ => simp at h

theorem missing_length (t : TimeArr) : t.missing.length = t.length := by
  cases t <;> simp [TimeArr.missing, TimeArr.length]

theorem keep_all (k : List Bool) (t : TimeArr) (h : k.length = t.length) (hk : ∀ b ∈ k, b = true) :
    t.keep k = t := by
  cases t <;> simp only [TimeArr.keep, TimeArr.length] at h ⊢ <;> rw [compress_all k _ h hk]

/-- Normalising commutes with dropping missing times. -/
theorem normalizeTime_keep (dt64 : String → Option ℤ) (t : TimeArr) (e : PyVal) (k : List Bool)
    (h : OnlyDrops k t.missing) :
    normalizeTime dt64 (t.keep k) e = (normalizeTime dt64 t e).map (compress k) ∧
    ∀ tn, normalizeTime dt64 t e = .ok tn → OnlyDrops k (tn.map fun x => !x.isFinite) := by
  have hlen : k.length = t.length := by rw [h.1, missing_length]
  have easy : (∀ m ∈ t.missing, m = false) →
      normalizeTime dt64 (t.keep k) e = (normalizeTime dt64 t e).map (compress k) ∧
      ∀ tn, normalizeTime dt64 t e = .ok tn → OnlyDrops k (tn.map fun x => !x.isFinite) := by
    intro hm
    have hk := h.all hm
    rw [keep_all k t hlen hk]
    constructor
    · cases hn : normalizeTime dt64 t e with
      | error e => rfl
      | ok tn =>
        have := normalizeTime_length _ _ _ _ hn
        simp only [Except.map]
        rw [compress_all k tn (by omega) hk]
    · intro tn hn
      have := normalizeTime_length _ _ _ _ hn
      refine ⟨by simp; omega, fun p hp h0 => ?_⟩
      have := hk p.1 (List.of_mem_zip hp).1
      rw [this] at h0; simp at h0
  have hmono : ∀ (α : Type) (xs : List α) (f : α → Fl) (miss : α → Bool),
      (∀ x, miss x = true → (f x).isFinite = false) → OnlyDrops k (xs.map miss) →
      OnlyDrops k ((xs.map f).map fun x => !x.isFinite) := by
    intro α xs f miss hf hd
    refine ⟨by simpa using hd.1, ?_⟩
    clear hlen easy h
    induction xs generalizing k with
    | nil => simp
    | cons x xs ih =>
      cases k with
      | nil => simp
      | cons b k =>
        simp only [List.map_cons] at hd ⊢
        intro p hp h0
        simp only [List.zip_cons_cons, List.mem_cons] at hp
        rcases hp with rfl | hp
        · simpa using hf x (hd.head h0)
        · exact ih k hd.tail p hp h0
  cases t with
  | int xs => exact easy (by simp [TimeArr.missing])
  | uint xs => exact easy (by simp [TimeArr.missing])
  | bool xs => exact easy (by simp [TimeArr.missing])
  | str xs => exact easy (by simp [TimeArr.missing])
  | date xs =>
    cases e with
    | none =>
      simp only [normalizeTime, pythonGregorianDatenum, astypeMs, TimeArr.keep, ok_bind, pure_eq_ok]
      refine ⟨by simp [Except.map, compress_map], fun tn ht => ?_⟩
      have := Except.ok.inj ht
      subst this
      exact hmono _ xs _ Option.isNone (fun x hx => date2num_nonfinite x _ hx) h
    | _ =>
      simp only [normalizeTime, TimeArr.keep, TimeArr.asNumbers, reduceCtorEq, false_implies, implies_true,
        and_true]
      rfl
  | float xs =>
    have key : ∀ e', e' ≠ PyVal.none → (match (TimeArr.float (compress k xs)).asNumbers with
        | none => (.error .valueError : Except PyErr (List Fl))
        | some xs => do
          let f ← epochShift dt64 e'
          return xs.map f) = ((match (TimeArr.float xs).asNumbers with
        | none => (.error .valueError : Except PyErr (List Fl))
        | some xs => do
          let f ← epochShift dt64 e'
          return xs.map f)).map (compress k) ∧ (∀ tn, (match (TimeArr.float xs).asNumbers with
        | none => (.error .valueError : Except PyErr (List Fl))
        | some xs => do
          let f ← epochShift dt64 e'
          return xs.map f) = .ok tn → OnlyDrops k (tn.map fun x => !x.isFinite)) := by
      intro e' _
      simp only [TimeArr.asNumbers]
      cases hf : epochShift dt64 e' with
      | error er => exact ⟨rfl, fun tn h => by simp at h⟩
      | ok f =>
        simp only [ok_bind, pure_eq_ok]
        refine ⟨by simp [Except.map, compress_map], fun tn ht => ?_⟩
        have := Except.ok.inj ht
        subst this
        exact hmono _ xs _ (fun x => !x.isFinite)
          (fun x hx => epochShift_nonfinite dt64 e' f hf x (by simpa using hx)) h
    cases e with
    | none =>
      simp only [normalizeTime, pythonGregorianDatenum, astypeMs, TimeArr.keep, ok_bind, pure_eq_ok]
      refine ⟨by simp [Except.map, compress_map], fun tn ht => ?_⟩
      have := Except.ok.inj ht
      subst this
      have e2 := List.map_map (f := flToMs) (g := fun x => (date2num x).add (Fl.fin ↑dayToGregorianEpoch)) (l := xs)
      rw [e2]
      refine hmono _ xs _ (fun x => !x.isFinite) (fun x hx => ?_) h
      exact date2num_nonfinite (flToMs x) _ (by cases x <;> simp_all [flToMs, Fl.isFinite])
    | _ => exact key _ (by simp)

/-- Does the constituent option say `'auto'`? -/
def approxOf (infer : Option InferSpec) : Bool := match infer with | some s => s.approximate | none => false

/-- The prepared least-squares problem of a successful call. -/
structure PrepOk (E : Env) (opt : Opt) (t : TimeArg) (u : Series) (v : Option Series) (lat : Option ℝ)
    (tn : List Fl) (constit : Constit) (p : Prep) : Prop where
  init : InitOk E opt t u v lat tn p.ed p.lat
  cons : readConstit opt.cnstit = .ok constit
  hinfer : readInfer opt.infer = .ok p.infer
  hsel : cnstitsel p.ed.tref ((Fl.fin (opt.rmin : ℝ)).div (.fin (24 * p.ed.lor))) constit p.infer = .ok p.sel
  check : checkMatrix opt (constit == .auto) p.infer p.ed p.lat p.sel = .ok ()
  hopt : p.opt = opt
  nm : p.nm = numCols (!opt.notrend) p.sel
  B : p.B = p.ed.t.map (modelRow opt.flags p.ed.tref p.lat p.ed.lor (!opt.notrend) (approxOf p.infer) p.sel)

theorem stagePrep_ok (E : Env) (opt : Opt) (t : TimeArg) (u : Series) (v : Option Series) (lat : Option ℝ)
    (p : Prep) :
    stagePrep E opt t u v lat = .ok p ↔ ∃ tn constit, PrepOk E opt t u v lat tn constit p := by
  unfold stagePrep stageSelect stageMatrix
  simp only [bind_eq_ok, pure_eq_ok, Except.ok.injEq, Prod.exists, Prod.mk.injEq, stageInit_ok]
  constructor
  · rintro ⟨ed, la, ⟨tn, hi⟩, c, i, s, ⟨c', hc, i', hinf, s', hs, rfl, rfl, rfl⟩, _, hch, rfl⟩
    exact ⟨tn, c', ⟨hi, hc, hinf, hs, hch, rfl, rfl, rfl⟩⟩
  · rintro ⟨tn, c, h⟩
    refine ⟨p.ed, p.lat, ⟨tn, h.init⟩, c, p.infer, p.sel, ⟨c, h.cons, p.infer, h.hinfer, p.sel, h.hsel, rfl, rfl, rfl⟩,
      (), h.check, ?_⟩
    obtain ⟨opt', inf, ed, la, sel, nm, B⟩ := p
    have h1 := h.hopt; have h2 := h.nm; have h3 := h.B
    simp only at h1 h2 h3
    subst h1 h2 h3
    rfl

/-- Everything between the fit and the re-ordering. -/
structure SolOk (E : Env) (p : Prep) (m : List ℂ) (W : List ℝ) (rf : Option RobOut) (c1 c2 c : Coef)
    (o : Order) : Prop where
  fit : stageFit E p = .ok (m, W, rf)
  conf : stageConf E p m W (rawCoef p m W rf) = .ok c1
  diagn : stageDiagn E p c1 = .ok c2
  order : readOrder p.opt.ordercnstit = .ok o
  reorder : reorder E c2 o = .ok c

theorem stageSolution_ok (E : Env) (p : Prep) (c : Coef) :
    stageSolution E p = .ok c ↔ ∃ m W rf c1 c2 o, SolOk E p m W rf c1 c2 c o := by
  unfold stageSolution
  simp only [bind_eq_ok, Prod.exists]
  constructor
  · rintro ⟨m, W, rf, hf, c1, hc, c2, hd, o, ho, hr⟩
    exact ⟨m, W, rf, c1, c2, o, ⟨hf, hc, hd, ho, hr⟩⟩
  · rintro ⟨m, W, rf, c1, c2, o, ⟨hf, hc, hd, ho, hr⟩⟩
    exact ⟨m, W, rf, hf, c1, hc, c2, hd, o, ho, hr⟩

theorem solve_ok (E : Env) (t : TimeArg) (u : Series) (v : Option Series) (lat : Option ℝ)
    (opts : Dict PyVal) (c : Coef) :
    solve E t u v lat opts = .ok c ↔ ∃ opt p tn constit m W rf c1 c2 o,
      getOpt opts v.isSome = .ok opt ∧ PrepOk E opt t u v lat tn constit p ∧ SolOk E p m W rf c1 c2 c o := by
  unfold solve
  simp only [bind_eq_ok, stagePrep_ok, stageSolution_ok]
  constructor
  · rintro ⟨opt, ho, p, ⟨tn, cn, hp⟩, m, W, rf, c1, c2, o, hs⟩
    exact ⟨opt, p, tn, cn, m, W, rf, c1, c2, o, ho, hp, hs⟩
  · rintro ⟨opt, p, tn, cn, m, W, rf, c1, c2, o, ho, hp, hs⟩
    exact ⟨opt, ho, p, ⟨tn, cn, hp⟩, m, W, rf, c1, c2, o, hs⟩

end

end UTide
