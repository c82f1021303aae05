import Verif.Model.SlvInit
import Verif.Lemmas.Options
import Verif.Lemmas.Selection

/-!
# Lemmas about data editing
-/

namespace UTide

@[simp] theorem compress_nil {α : Type} (k : List Bool) : compress k ([] : List α) = [] := by
  unfold compress; simp

@[simp] theorem compress_nil' {α : Type} (xs : List α) : compress [] xs = [] := by
  unfold compress; simp

theorem compress_cons {α : Type} (b : Bool) (k : List Bool) (x : α) (xs : List α) :
    compress (b :: k) (x :: xs) = if b then x :: compress k xs else compress k xs := by
  unfold compress
  cases b <;> simp

theorem compress_map {α β : Type} (f : α → β) (k : List Bool) (xs : List α) :
    compress k (xs.map f) = (compress k xs).map f := by
  induction k generalizing xs with
  | nil => simp
  | cons b k ih =>
    cases xs with
    | nil => simp
    | cons x xs =>
      rw [List.map_cons, compress_cons, compress_cons]
      cases b <;> simp [ih]

theorem compress_all {α : Type} (k : List Bool) (xs : List α) (h : k.length = xs.length)
    (hk : ∀ b ∈ k, b = true) : compress k xs = xs := by
  induction k generalizing xs with
  | nil => cases xs with
    | nil => rfl
    | cons x xs => simp at h
  | cons b k ih =>
    cases xs with
    | nil => simp at h
    | cons x xs =>
      rw [compress_cons, hk b (by simp)]
      simp only [if_true]
      rw [ih xs (by simpa using h) (fun c hc => hk c (by simp [hc]))]

theorem compress_filter {α : Type} (p : α → Bool) (xs : List α) : compress (xs.map p) xs = xs.filter p := by
  induction xs with
  | nil => simp
  | cons x xs ih => rw [List.map_cons, compress_cons, ih, List.filter_cons]

theorem compress_length_eq {α β : Type} (k : List Bool) (xs : List α) (ys : List β) (h : xs.length = ys.length) :
    (compress k xs).length = (compress k ys).length := by
  induction k generalizing xs ys with
  | nil => simp
  | cons b k ih =>
    cases xs with
    | nil => cases ys with
      | nil => simp
      | cons y ys => simp at h
    | cons x xs => cases ys with
      | nil => simp at h
      | cons y ys =>
        rw [compress_cons, compress_cons]
        have := ih xs ys (by simpa using h)
        cases b <;> simp [this]

theorem dropTimes_eq (tn : List Fl) (u : List Cell) (h : tn.length = u.length) :
    dropTimes tn u = compress (tn.map Fl.isFinite) u := by
  unfold dropTimes
  split
  · rfl
  · next hn =>
    rw [compress_all]
    · simpa using h
    · intro b hb
      simp only [List.mem_map] at hb
      obtain ⟨x, hx, rfl⟩ := hb
      simp only [List.any_eq_true, not_exists, not_and] at hn
      simpa using hn x hx

/-- Usable value of an entry: finite and unmasked. -/
def Cell.value? (c : Cell) : Option ℝ := if c.masked then none else c.val.toReal?

/-- Scalar series: the usable samples, time and value together. -/
def goodSamples (tn : List Fl) (u : List Cell) : List (ℝ × ℝ) :=
  (tn.zip u).filterMap fun s => s.1.toReal?.bind fun t => s.2.value?.map fun x => (t, x)

/-- Vector series: the usable samples. -/
def goodSamples2 (tn : List Fl) (u v : List Cell) : List (ℝ × ℝ × ℝ) :=
  (tn.zip (u.zip v)).filterMap fun s => s.1.toReal?.bind fun t =>
    s.2.1.value?.bind fun x => s.2.2.value?.map fun y => (t, x, y)

theorem isFinite_eq (x : Fl) : x.isFinite = x.toReal?.isSome := by cases x <;> rfl

theorem maskedInvalid_masked (c : Cell) : (maskedInvalid c).masked = !c.value?.isSome := by
  rcases c with ⟨v, m⟩
  unfold maskedInvalid Cell.value?
  cases v <;> cases m <;> rfl

theorem maskedInvalid_filled (c : Cell) : (maskedInvalid c).filled = c.value?.getD (10 ^ 20) := by
  rcases c with ⟨v, m⟩
  unfold maskedInvalid Cell.value? Cell.filled
  cases v <;> cases m <;> rfl

theorem dropMasked_eq (tin : List ℝ) (u : List Cell) (v : Option (List Cell)) (h : tin.length = u.length)
    (h' : ∀ w, v = some w → u.length = w.length) :
    dropMasked tin u v = (compress (goodMask u v) tin, (compress (goodMask u v) u).map Cell.filled,
      v.map fun v' => (compress (goodMask u v) v').map Cell.filled) := by
  unfold dropMasked
  split
  · rfl
  · next hn =>
    cases v with
    | none =>
      simp only [someMasked, List.any_eq_true, not_exists, not_and] at hn
      have hk : ∀ b ∈ goodMask u none, b = true := by
        intro b hb
        simp only [goodMask, List.mem_map] at hb
        obtain ⟨_, ⟨c, hc, rfl⟩, rfl⟩ := hb
        simpa using hn c hc
      rw [compress_all _ tin (by simp [goodMask, h]) hk, compress_all _ u (by simp [goodMask]) hk]
      rfl
    | some v =>
      have hv := h' v rfl
      simp only [someMasked, Bool.or_eq_true, List.any_eq_true, not_or, not_exists, not_and] at hn
      have hk : ∀ b ∈ goodMask u (some v), b = true := by
        intro b hb
        simp only [goodMask] at hb
        rw [List.zipWith_map, ← List.map_uncurry_zip_eq_zipWith] at hb
        simp only [List.mem_map, Prod.exists] at hb
        obtain ⟨_, ⟨x, y, hxy, rfl⟩, rfl⟩ := hb
        have h1 := hn.1 y (List.of_mem_zip hxy).2
        have h2 := hn.2 x (List.of_mem_zip hxy).1
        simp_all
      rw [compress_all _ tin (by simp [goodMask, h, hv]) hk, compress_all _ u (by simp [goodMask, hv]) hk]
      simp only [Option.map_some]
      rw [compress_all _ v (by simp [goodMask, hv]) hk]

theorem finiteTimes_cons (x : Fl) (tn : List Fl) : finiteTimes (x :: tn) = (match x.toReal? with
    | some t => t :: finiteTimes tn
    | none => finiteTimes tn) := by
  unfold finiteTimes
  cases x <;> rfl

theorem finiteTimes_length (tn : List Fl) (u : List Cell) (h : tn.length = u.length) :
    (finiteTimes tn).length = (compress (tn.map Fl.isFinite) u).length := by
  induction tn generalizing u with
  | nil => simp [finiteTimes]
  | cons x tn ih =>
    cases u with
    | nil => simp at h
    | cons c u =>
      have := ih u (by simpa using h)
      rw [List.map_cons, compress_cons, finiteTimes_cons, isFinite_eq]
      cases x.toReal? <;> simp [this]

theorem goodSamples_cons (x : Fl) (tn : List Fl) (c : Cell) (u : List Cell) :
    goodSamples (x :: tn) (c :: u) = (match x.toReal?, c.value? with
      | some t, some y => (t, y) :: goodSamples tn u
      | _, _ => goodSamples tn u) := by
  unfold goodSamples
  rw [List.zip_cons_cons, List.filterMap_cons]
  cases x.toReal? <;> cases c.value? <;> rfl

theorem goodSamples2_cons (x : Fl) (tn : List Fl) (c d : Cell) (u v : List Cell) :
    goodSamples2 (x :: tn) (c :: u) (d :: v) = (match x.toReal?, c.value?, d.value? with
      | some t, some y, some z => (t, y, z) :: goodSamples2 tn u v
      | _, _, _ => goodSamples2 tn u v) := by
  unfold goodSamples2
  rw [List.zip_cons_cons, List.zip_cons_cons, List.filterMap_cons]
  cases x.toReal? <;> cases c.value? <;> cases d.value? <;> rfl

theorem goodMask_none_cons (c : Cell) (u : List Cell) :
    goodMask (c :: u) none = (!c.masked) :: goodMask u none := rfl

theorem goodMask_some_cons (c d : Cell) (u v : List Cell) :
    goodMask (c :: u) (some (d :: v)) = (!(d.masked || c.masked)) :: goodMask u (some v) := rfl

/-- The samples kept from a scalar series. -/
theorem edit_none (tn : List Fl) (u : List Cell) (h : tn.length = u.length) :
    dropMasked (finiteTimes tn) (dropTimes tn (u.map maskedInvalid)) none =
      ((goodSamples tn u).map Prod.fst, (goodSamples tn u).map Prod.snd, none) := by
  rw [dropTimes_eq tn _ (by simpa using h),
    dropMasked_eq _ _ _ (finiteTimes_length tn _ (by simpa using h)) (by simp)]
  refine Prod.ext ?_ (Prod.ext ?_ rfl)
  all_goals
    dsimp only
    induction tn generalizing u with
    | nil => simp [goodSamples, finiteTimes]
    | cons x tn ih =>
      cases u with
      | nil => simp at h
      | cons c u =>
        have := ih u (by simpa using h)
        rw [List.map_cons, List.map_cons, compress_cons, goodSamples_cons, isFinite_eq]
        try rw [finiteTimes_cons]
        cases x.toReal? with
        | none => simpa using this
        | some t =>
          simp only [Option.isSome_some, if_true]
          rw [goodMask_none_cons, compress_cons, maskedInvalid_masked]
          cases hc : c.value? with
          | none => simpa using this
          | some y => simp [this, maskedInvalid_filled, hc]

/-- The samples kept from a vector series. -/
theorem edit_some (tn : List Fl) (u v : List Cell) (h : tn.length = u.length) (h' : u.length = v.length) :
    dropMasked (finiteTimes tn) (dropTimes tn (u.map maskedInvalid))
        (some (dropTimes tn (v.map maskedInvalid))) =
      ((goodSamples2 tn u v).map (·.1), (goodSamples2 tn u v).map (·.2.1),
       some ((goodSamples2 tn u v).map (·.2.2))) := by
  have hv : tn.length = v.length := by omega
  rw [dropTimes_eq tn _ (by simpa using h), dropTimes_eq tn _ (by simpa using hv),
    dropMasked_eq _ _ _ (finiteTimes_length tn _ (by simpa using h))
      (by rintro w ⟨⟩; exact compress_length_eq _ _ _ (by simpa using h'))]
  simp only [Option.map_some]
  refine Prod.ext ?_ (Prod.ext ?_ (congrArg some ?_))
  all_goals
    try dsimp only
    clear hv
    induction tn generalizing u v with
    | nil => simp [goodSamples2, finiteTimes]
    | cons x tn ih =>
      cases u with
      | nil => simp at h
      | cons c u =>
        cases v with
        | nil => simp at h'
        | cons d v =>
          have := ih u v (by simpa using h) (by simpa using h')
          rw [goodSamples2_cons]
          simp only [List.map_cons]
          rw [compress_cons, compress_cons, isFinite_eq]
          try rw [finiteTimes_cons]
          cases x.toReal? with
          | none => simpa using this
          | some t =>
            simp only [Option.isSome_some, if_true]
            rw [goodMask_some_cons, compress_cons, maskedInvalid_masked, maskedInvalid_masked]
            cases hc : c.value? <;> cases hd : d.value? <;>
              simp [this, maskedInvalid_filled, hc, hd]

end UTide
