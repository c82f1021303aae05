import Verif.Lemmas.Reorder

/-!
# C24, C29, C30, C68: checking and editing of the data
-/

namespace UTide.Props

open UTide

noncomputable section

/-! ## C24 -/

/-- C24: without a latitude, or with shapes that do not fit, `solve` raises ValueError (once its options are
accepted). -/
theorem C24_rejected (E : Env) (t : TimeArg) (u : Series) (v : Option Series) (lat : Option ℝ)
    (opts : Dict PyVal) (opt : Opt) (hopt : getOpt opts v.isSome = .ok opt)
    (h : lat = none ∨ u.shape.length ≠ 1 ∨ t.shape ≠ u.shape ∨ ∃ w, v = some w ∧ w.shape ≠ u.shape) :
    solve E t u v lat opts = .error .valueError := by
  have hinit : stageInit E opt t u v lat = .error .valueError := by
    unfold stageInit slvInit
    cases lat with
    | none => rfl
    | some la =>
      have hbad : ¬ GoodShapes t u v := by
        rintro ⟨h1, h2, h3⟩
        rcases h with h | h | h | ⟨w, hw, h⟩
        · simp at h
        · exact h h2
        · exact h h1
        · exact h (h3 w hw)
      cases hc : checkShapes t u v with
      | ok x => exact absurd ((checkShapes_ok t u v).1 hc) hbad
      | error e => rw [checkShapes_error t u v e hc]; rfl
  unfold solve stagePrep
  rw [hopt, ok_bind, hinit]
  rfl

/-- C24: conversely a result is only ever returned for a given latitude and one-dimensional arrays of one
shape. -/
theorem C24_accepted (E : Env) (t : TimeArg) (u : Series) (v : Option Series) (lat : Option ℝ)
    (opts : Dict PyVal) (c : Coef) (h : solve E t u v lat opts = .ok c) :
    lat = some c.lat ∧ u.shape.length = 1 ∧ t.shape = u.shape ∧ ∀ w, v = some w → w.shape = u.shape := by
  obtain ⟨opt, p, tn, constit, m, W, rf, c1, c2, o, -, hp, hs⟩ := (solve_ok _ _ _ _ _ _ _).1 h
  obtain ⟨h1, h2, h3⟩ := hp.init.shapes
  exact ⟨by rw [hs.head.lat]; exact hp.init.hlat, h2, h1, h3⟩

example (E : Env) (u : Series) : solve E ⟨[3], .float [.fin 0, .fin 1, .fin 2], []⟩ u none none [] =
    .error .valueError := C24_rejected E _ u none none [] _ rfl (.inl rfl)

example (E : Env) : solve E ⟨[3], .float [.fin 0, .fin 1, .fin 2], []⟩ ⟨[2], [⟨.fin 0, false⟩, ⟨.fin 1, false⟩]⟩
    none (some 45) [] = .error .valueError := C24_rejected E _ _ none _ [] _ rfl (.inr (.inr (.inl (by simp))))

/-! ## C29 -/

/-- Samples at the positions marked true. -/
def keepTimes (k : List Bool) (t : TimeArg) : TimeArg :=
  ⟨[(t.arr.keep k).length], t.arr.keep k, compress k t.mask⟩
def keepData (k : List Bool) (u : Series) : Series := ⟨[(compress k u.data).length], compress k u.data⟩

theorem keep_length (k : List Bool) (t : TimeArr) (u : List Cell) (h : t.length = u.length) :
    (t.keep k).length = (compress k u).length := by
  cases t <;> simp only [TimeArr.keep, TimeArr.length] at h ⊢ <;> exact compress_length_eq _ _ _ h

/-- C29: what `solve` computes depends on the data only through the valid times and the usable samples (time and
values of the positions where everything is finite and unmasked). -/
theorem C29_only_usable_samples (E : Env) (t t' : TimeArg) (u u' : Series) (v v' : Option Series) (lat : Option ℝ)
    (opts : Dict PyVal) (opt : Opt) (tn tn' : List Fl)
    (hopt : getOpt opts v.isSome = .ok opt) (hvv : v.isSome = v'.isSome)
    (hs : GoodShapes t u v) (hs' : GoodShapes t' u' v')
    (htn : normalizeTime E.dt64 t.arr opt.epoch = .ok tn) (htn' : normalizeTime E.dt64 t'.arr opt.epoch = .ok tn')
    (hl : SameLength tn u.data (v.map Series.data)) (hl' : SameLength tn' u'.data (v'.map Series.data))
    (htimes : finiteTimes tn = finiteTimes tn')
    (hsamples : usable tn u.data (v.map Series.data) = usable tn' u'.data (v'.map Series.data)) :
    solve E t u v lat opts = solve E t' u' v' lat opts := by
  have hinj2 : ∀ l l' : List (ℝ × ℝ × ℝ), l.map (fun p => (p.1, (p.2.1 : ℂ) + Complex.I * (p.2.2 : ℂ))) =
      l'.map (fun p => (p.1, (p.2.1 : ℂ) + Complex.I * (p.2.2 : ℂ))) → l = l' := by
    intro l l' h
    refine List.map_injective_iff.2 ?_ h
    rintro ⟨a, b, c⟩ ⟨a', b', c'⟩ h
    simp only [Prod.mk.injEq] at h
    obtain ⟨h1, h2⟩ := h
    have h3 := congrArg Complex.re h2
    have h4 := congrArg Complex.im h2
    simp at h3 h4
    simp [h1, h3, h4]
  have hinj1 : ∀ l l' : List (ℝ × ℝ), l.map (fun p => (p.1, (p.2 : ℂ))) = l'.map (fun p => (p.1, (p.2 : ℂ))) →
      l = l' := by
    intro l l' h
    refine List.map_injective_iff.2 ?_ h
    rintro ⟨a, b⟩ ⟨a', b'⟩ h
    simpa using h
  have hed : editData tn u.data (v.map Series.data) = editData tn' u'.data (v'.map Series.data) := by
    cases v with
    | none =>
      cases v' with
      | some _ => simp at hvv
      | none =>
        simp only [Option.map_none] at *
        have := hinj1 _ _ hsamples
        rw [editData_none _ _ hl.1, editData_none _ _ hl'.1, htimes, this]
    | some v =>
      cases v' with
      | none => simp at hvv
      | some v' =>
        simp only [Option.map_some] at *
        have := hinj2 _ _ hsamples
        rw [editData_some _ _ _ hl.1 (hl.2 _ rfl), editData_some _ _ _ hl'.1 (hl'.2 _ rfl), htimes, this]
  have hinit : stageInit E opt t u v lat = stageInit E opt t' u' v' lat := by
    unfold stageInit slvInit
    cases lat with
    | none => rfl
    | some la =>
      simp only [(checkShapes_ok t u v).2 hs, (checkShapes_ok t' u' v').2 hs', htn, htn', ok_bind, hed]
  unfold solve stagePrep
  rw [← hvv, hopt, ok_bind, ok_bind, hinit]

/-- C29: samples whose time is missing (NaN, infinite or NaT) have no effect whatever: removing any of them leaves
the outcome of `solve`, including an exception, unchanged. -/
theorem C29_missing_times (E : Env) (t : TimeArg) (u : Series) (v : Option Series) (lat : Option ℝ)
    (opts : Dict PyVal) (hs : GoodShapes t u v) (ht : t.WF) (hu : u.WF) (hv : ∀ w, v = some w → w.WF)
    (k : List Bool) (hk : k.length = t.arr.length)
    (hmiss : ∀ i : ℕ, k[i]? = some false → t.arr.missing[i]? = some true) :
    solve E (keepTimes k t) (keepData k u) (v.map (keepData k)) lat opts = solve E t u v lat opts := by
  have hd : OnlyDrops k t.arr.missing := by
    refine ⟨by rw [hk, missing_length], fun p hp h0 => ?_⟩
    obtain ⟨i, hi⟩ := List.mem_iff_getElem?.1 hp
    rw [List.getElem?_zip_eq_some] at hi
    have := hmiss i (by rw [hi.1, h0])
    rw [hi.2] at this
    simpa using this
  have hlen : t.arr.length = u.data.length := by
    unfold TimeArg.WF at ht; unfold Series.WF at hu
    rw [← ht, ← hu, hs.1]
  have hvlen : ∀ w, v = some w → u.data.length = w.data.length := by
    intro w hw
    have := hv w hw
    unfold Series.WF at hu this
    rw [← hu, ← this, hs.2.2 w hw]
  have hs' : GoodShapes (keepTimes k t) (keepData k u) (v.map (keepData k)) := by
    refine ⟨?_, rfl, fun w hw => ?_⟩
    · simp only [keepTimes, keepData]
      rw [keep_length k t.arr u.data hlen]
    · cases v with
      | none => simp at hw
      | some v =>
        simp only [Option.map_some, Option.some.injEq] at hw
        subst hw
        simp only [keepData]
        rw [compress_length_eq k u.data v.data (hvlen v rfl)]
  have hvs : (v.map (keepData k)).isSome = v.isSome := by cases v <;> rfl
  cases hopt : getOpt opts v.isSome with
  | error e =>
    unfold solve
    rw [hvs, hopt]; rfl
  | ok opt =>
    obtain ⟨hn1, hn2⟩ := normalizeTime_keep E.dt64 t.arr opt.epoch k hd
    cases htn : normalizeTime E.dt64 t.arr opt.epoch with
    | error e =>
      rw [htn] at hn1
      have hinit : stageInit E opt (keepTimes k t) (keepData k u) (v.map (keepData k)) lat =
          stageInit E opt t u v lat := by
        unfold stageInit slvInit
        cases lat with
        | none => rfl
        | some la =>
          have : (keepTimes k t).arr = t.arr.keep k := rfl
          simp only [(checkShapes_ok _ _ _).2 hs, (checkShapes_ok _ _ _).2 hs', htn, this, hn1, ok_bind]
          rfl
      unfold solve stagePrep
      rw [hvs, hopt, ok_bind, ok_bind, hinit]
    | ok tn =>
      have hdt := hn2 tn htn
      have htl := normalizeTime_length _ _ _ _ htn
      rw [htn] at hn1
      have hl : SameLength tn u.data (v.map Series.data) := by
        refine ⟨by rw [htl, hlen], fun w hw => ?_⟩
        cases v with
        | none => simp at hw
        | some v =>
          simp only [Option.map_some, Option.some.injEq] at hw
          subst hw
          exact hvlen v rfl
      refine C29_only_usable_samples E _ _ _ _ _ _ lat opts opt (compress k tn) tn (by rw [hvs]; exact hopt) hvs
        hs' hs hn1 htn ?_ hl (finiteTimes_compress k tn hdt) ?_
      · refine ⟨compress_length_eq _ _ _ hl.1, fun w hw => ?_⟩
        cases v with
        | none => simp at hw
        | some v =>
          simp only [Option.map_some, Option.some.injEq] at hw
          subst hw
          exact compress_length_eq _ _ _ (hvlen v rfl)
      · cases v with
        | none =>
          simp only [Option.map_none, usable, keepData]
          rw [goodSamples_compress k tn u.data hl.1 hdt]
        | some v =>
          simp only [Option.map_some, usable, keepData]
          rw [goodSamples2_compress k tn u.data v.data hl.1 (hvlen v rfl) hdt]

/-- C29: the rows of the fitted model and the fitted values are exactly those of the usable samples, in order and
with time and values of one sample kept together. -/
theorem C29_rows (E : Env) (opt : Opt) (t : TimeArg) (u : Series) (v : Option Series) (lat : Option ℝ)
    (ht : t.WF) (hu : u.WF) (hv : ∀ w, v = some w → w.WF) (p : Prep)
    (h : stagePrep E opt t u v lat = .ok p) :
    ∃ tn, normalizeTime E.dt64 t.arr opt.epoch = .ok tn ∧
      p.ed.t = (usable tn u.data (v.map Series.data)).map Prod.fst ∧
      xraw p.ed = (usable tn u.data (v.map Series.data)).map Prod.snd := by
  obtain ⟨tn, constit, hp⟩ := (stagePrep_ok _ _ _ _ _ _ _).1 h
  obtain ⟨-, h2, h3, -, -⟩ := editData_usable tn _ _ (hp.init.same ht hu hv) _ hp.init.edit
  exact ⟨tn, hp.init.time, h2, h3⟩

/-- A record with a NaN time, a NaN value and a masked value: only the complete samples remain. -/
example : usable [.fin 1, .nan, .fin 3, .fin 4, .fin 5]
    [⟨.fin 10, false⟩, ⟨.fin 20, false⟩, ⟨.nan, false⟩, ⟨.fin 40, true⟩, ⟨.fin 50, false⟩] none =
    [(1, 10), (5, 50)] := by
  simp [usable, goodSamples, Fl.toReal?, Cell.value?]

example (E : Env) (lat : Option ℝ) (opts : Dict PyVal) :
    solve E ⟨[2], .float [.fin 1, .fin 3], []⟩ ⟨[2], [⟨.fin 10, false⟩, ⟨.fin 30, false⟩]⟩ none lat opts =
    solve E ⟨[3], .float [.fin 1, .nan, .fin 3], []⟩ ⟨[3], [⟨.fin 10, false⟩, ⟨.fin 20, false⟩, ⟨.fin 30, false⟩]⟩
      none lat opts :=
  C29_missing_times E ⟨[3], .float [.fin 1, .nan, .fin 3], []⟩
    ⟨[3], [⟨.fin 10, false⟩, ⟨.fin 20, false⟩, ⟨.fin 30, false⟩]⟩ none lat opts ⟨rfl, rfl, by simp⟩ rfl rfl (by simp)
    [true, false, true] rfl (by
      intro i hi
      match i with
      | 0 => simp at hi
      | 1 => rfl
      | 2 => simp at hi
      | n + 3 => simp at hi)

/-! ## C68 -/

/-- Consecutive times have one common spacing. -/
def EvenlySpaced (x : List ℝ) : Prop := ∃ h : ℝ, ∀ (i : ℕ) (a b : ℝ), x[i]? = some a → x[i + 1]? = some b → b - a = h

theorem mem_diffs (x : List ℝ) (d : ℝ) (h : d ∈ diffs x) :
    ∃ (i : ℕ) (a b : ℝ), x[i]? = some a ∧ x[i + 1]? = some b ∧ d = b - a := by
  induction x with
  | nil => simp [diffs] at h
  | cons a x ih =>
    cases x with
    | nil => simp [diffs] at h
    | cons b x =>
      simp only [diffs, List.mem_cons] at h
      rcases h with rfl | h
      · exact ⟨0, a, b, rfl, rfl, rfl⟩
      · obtain ⟨i, p, q, h1, h2, h3⟩ := ih h
        exact ⟨i + 1, p, q, by simpa using h1, by simpa using h2, h3⟩

theorem diffs_mem (x : List ℝ) (i : ℕ) (a b : ℝ) (h1 : x[i]? = some a) (h2 : x[i + 1]? = some b) :
    b - a ∈ diffs x := by
  induction x generalizing i with
  | nil => simp at h1
  | cons c x ih =>
    cases x with
    | nil => simp at h2
    | cons d x =>
      cases i with
      | zero =>
        simp at h1 h2
        subst h1 h2
        simp [diffs]
      | succ i =>
        simp only [diffs, List.mem_cons]
        exact .inr (ih i (by simpa using h1) (by simpa using h2))

theorem diffs_length (x : List ℝ) : (diffs x).length = x.length - 1 := by
  induction x with
  | nil => rfl
  | cons a x ih =>
    cases x with
    | nil => rfl
    | cons b x => simp only [diffs, List.length_cons] at ih ⊢; omega

theorem nodup_const (l : List ℝ) (hd : l.Nodup) (h : ℝ) (hc : ∀ x ∈ l, x = h) (hne : l ≠ []) : l = [h] := by
  cases l with
  | nil => exact absurd rfl hne
  | cons a l =>
    cases l with
    | nil => rw [hc a (by simp)]
    | cons b l =>
      have h1 := hc a (by simp)
      have h2 := hc b (by simp)
      subst h1
      rw [h2] at hd
      simp at hd

/-- C68: evenly spaced times (two or more) are recognised as such. -/
theorem C68_even (x : List ℝ) (h2 : 2 ≤ x.length) (h : EvenlySpaced x) : isEqui x = true := by
  obtain ⟨d, hd⟩ := h
  have hl := diffs_length x
  have hne : uniq (diffs x) ≠ [] := by
    unfold uniq
    intro h0
    have : diffs x = [] := by
      cases hx : diffs x with
      | nil => rfl
      | cons a l =>
        have : a ∈ (diffs x).dedup := by rw [List.mem_dedup, hx]; simp
        rw [h0] at this; simp at this
    rw [this] at hl; simp at hl; omega
  have hone : uniq (diffs x) = [d] := by
    refine nodup_const _ (List.nodup_dedup _) d (fun y hy => ?_) hne
    unfold uniq at hy
    rw [List.mem_dedup] at hy
    obtain ⟨i, a, b, h1, h2, rfl⟩ := mem_diffs x y hy
    exact hd i a b h1 h2
  unfold isEqui
  rw [hone]
  have : variance [d] = Fl.fin 0 := by simp [variance, mean]
  rw [this]
  simp only [decide_eq_true_eq]
  show (0 : ℝ) < eps
  unfold eps; positivity

theorem sum_two_le (l : List ℝ) (f : ℝ → ℝ) (hf : ∀ z, 0 ≤ f z) (a b : ℝ) (hab : a ≠ b) (hd : l.Nodup)
    (ha : a ∈ l) (hb : b ∈ l) : f a + f b ≤ (l.map f).sum := by
  rw [← List.sum_toFinset f hd]
  have hsub : ({a, b} : Finset ℝ) ⊆ l.toFinset := by
    intro z hz
    simp only [Finset.mem_insert, Finset.mem_singleton] at hz
    rcases hz with rfl | rfl <;> simp [ha, hb]
  have := Finset.sum_le_sum_of_subset_of_nonneg hsub (f := f) (fun z _ _ => hf z)
  rwa [Finset.sum_pair hab] at this

/-- C68: times with two clearly different spacings are not taken for evenly spaced; the tolerance is the machine
epsilon on the variance of the distinct spacings. -/
theorem C68_uneven (x : List ℝ) (i j : ℕ) (a b a' b' : ℝ) (h1 : x[i]? = some a) (h2 : x[i + 1]? = some b)
    (h3 : x[j]? = some a') (h4 : x[j + 1]? = some b')
    (h : 2 * x.length * eps ≤ ((b - a) - (b' - a')) ^ 2) : isEqui x = false := by
  set p := b - a
  set q := b' - a'
  have hp : p ∈ uniq (diffs x) := by unfold uniq; rw [List.mem_dedup]; exact diffs_mem x i a b h1 h2
  have hq : q ∈ uniq (diffs x) := by unfold uniq; rw [List.mem_dedup]; exact diffs_mem x j a' b' h3 h4
  have heps : 0 < eps := by unfold eps; positivity
  have hxl : 0 < x.length := by
    cases x with
    | nil => simp at h1
    | cons _ _ => simp
  have hne : p ≠ q := by
    intro h0
    rw [h0, sub_self] at h
    have : (0 : ℝ) < 2 * x.length * eps := by positivity
    nlinarith
  set l := uniq (diffs x) with hl
  have hlen : (l.length : ℝ) ≤ x.length := by
    have := (List.dedup_sublist (diffs x)).length_le
    have h0 := diffs_length x
    rw [hl]
    exact_mod_cast (by unfold uniq; omega : (uniq (diffs x)).length ≤ x.length)
  have hlpos : 0 < (l.length : ℝ) := by
    have : l ≠ [] := by intro h0; rw [h0] at hp; simp at hp
    exact_mod_cast List.length_pos_iff.2 this
  have hnd : l.Nodup := List.nodup_dedup _
  unfold isEqui
  rw [← hl]
  unfold variance
  rw [if_neg (by intro h0; rw [h0] at hp; simp at hp)]
  simp only [decide_eq_false_iff_not]
  show ¬ (mean (l.map fun z => (z - mean l) ^ 2) < eps)
  rw [not_lt]
  have hsum := sum_two_le l (fun z => (z - mean l) ^ 2) (fun z => by positivity) p q hne hnd hp hq
  simp only [mean, List.length_map] at hsum ⊢
  rw [le_div_iff₀ hlpos]
  set m := l.sum / l.length
  have : (p - q) ^ 2 ≤ 2 * ((p - m) ^ 2 + (q - m) ^ 2) := by nlinarith [sq_nonneg ((p - m) + (q - m))]
  nlinarith

/-- Half-way between the first and the last entry. -/
def IsMidpoint (x : List ℝ) (m : ℝ) : Prop := ∃ a b, x.head? = some a ∧ x.getLast? = some b ∧ m = (a + b) / 2

theorem midpoint_spec (x : List ℝ) (m : ℝ) (h : midpoint x = .ok m) : IsMidpoint x m := by
  cases x with
  | nil => simp [midpoint] at h
  | cons a l =>
    simp only [midpoint, Except.ok.injEq] at h
    exact ⟨a, (a :: l).getLast (by simp), rfl, List.getLast?_eq_some_getLast (by simp), by rw [← h]; ring⟩

/-- C68: the reference time is the midpoint of the valid times if these are found evenly spaced, else that of the
times of usable samples. -/
theorem C68_reftime (E : Env) (t : TimeArg) (u : Series) (v : Option Series) (lat : Option ℝ)
    (opts : Dict PyVal) (ht : t.WF) (hu : u.WF) (hv : ∀ w, v = some w → w.WF) (c : Coef)
    (h : solve E t u v lat opts = .ok c) :
    ∃ tn, normalizeTime E.dt64 t.arr c.opt.epoch = .ok tn ∧
      (isEqui (finiteTimes tn) = true → IsMidpoint (finiteTimes tn) c.reftime) ∧
      (isEqui (finiteTimes tn) = false →
        IsMidpoint ((usable tn u.data (v.map Series.data)).map Prod.fst) c.reftime) := by
  obtain ⟨opt, p, tn, constit, m, W, rf, c1, c2, o, -, hp, hs⟩ := (solve_ok _ _ _ _ _ _ _).1 h
  obtain ⟨-, -, -, -, h5⟩ := editData_usable tn _ _ (hp.init.same ht hu hv) _ hp.init.edit
  obtain ⟨-, h6, -, -⟩ := timeStats_ok _ _ _ _ _ _ h5
  have hopt : c.opt = opt := by rw [hs.head.opt]; exact hp.hopt
  have href : c.reftime = p.ed.tref := hs.head.reftime
  refine ⟨tn, by rw [hopt]; exact hp.init.time, fun he => ?_, fun he => ?_⟩
  · rw [if_pos he] at h6; rw [href]; exact midpoint_spec _ _ h6
  · rw [if_neg (by simp [he])] at h6; rw [href]; exact midpoint_spec _ _ h6

/-- C68 for evenly spaced times, without mention of the test the code uses. -/
theorem C68_reftime_even (E : Env) (t : TimeArg) (u : Series) (v : Option Series) (lat : Option ℝ)
    (opts : Dict PyVal) (ht : t.WF) (hu : u.WF) (hv : ∀ w, v = some w → w.WF) (c : Coef)
    (h : solve E t u v lat opts = .ok c) (tn : List Fl) (htn : normalizeTime E.dt64 t.arr c.opt.epoch = .ok tn)
    (h2 : 2 ≤ (finiteTimes tn).length) (he : EvenlySpaced (finiteTimes tn)) :
    IsMidpoint (finiteTimes tn) c.reftime := by
  obtain ⟨tn', htn', h1, -⟩ := C68_reftime E t u v lat opts ht hu hv c h
  rw [htn] at htn'
  obtain rfl := Except.ok.inj htn'
  exact h1 (C68_even _ h2 he)

theorem midpoint_inside (x : List ℝ) (m : ℝ) (hx : x.Pairwise (· ≤ ·)) (h : IsMidpoint x m) :
    (∃ a ∈ x, a ≤ m) ∧ ∃ b ∈ x, m ≤ b := by
  obtain ⟨a, b, h1, h2, rfl⟩ := h
  have ha : a ∈ x := List.mem_of_head? h1
  have hb : b ∈ x := List.mem_of_getLast? h2
  have hab : a ≤ b := by
    cases x with
    | nil => simp at ha
    | cons c l =>
      simp only [List.head?_cons, Option.some.injEq] at h1
      subst h1
      simp only [List.mem_cons] at hb
      rcases hb with rfl | hb
      · exact le_refl _
      · exact (List.pairwise_cons.1 hx).1 b hb
  exact ⟨⟨a, ha, by linarith⟩, b, hb, by linarith⟩

theorem goodSamples_sublist (tn : List Fl) (u : List Cell) :
    ((goodSamples tn u).map Prod.fst).Sublist (finiteTimes tn) := by
  induction tn generalizing u with
  | nil => simp [goodSamples]
  | cons x tn ih =>
    cases u with
    | nil => simp [goodSamples]
    | cons c u =>
      rw [goodSamples_cons, finiteTimes_cons]
      cases x.toReal? <;> cases c.value? <;> simp [ih u]

theorem goodSamples2_sublist (tn : List Fl) (u v : List Cell) :
    ((goodSamples2 tn u v).map (·.1)).Sublist (finiteTimes tn) := by
  induction tn generalizing u v with
  | nil => simp [goodSamples2]
  | cons x tn ih =>
    cases u with
    | nil => simp [goodSamples2]
    | cons c u =>
      cases v with
      | nil => simp [goodSamples2]
      | cons d v =>
        rw [goodSamples2_cons, finiteTimes_cons]
        cases x.toReal? <;> cases c.value? <;> cases d.value? <;> simp [ih u v]

/-- C68: for increasing times the reference time lies between the first and the last valid time. -/
theorem C68_inside (E : Env) (t : TimeArg) (u : Series) (v : Option Series) (lat : Option ℝ)
    (opts : Dict PyVal) (ht : t.WF) (hu : u.WF) (hv : ∀ w, v = some w → w.WF) (c : Coef)
    (h : solve E t u v lat opts = .ok c) (tn : List Fl) (htn : normalizeTime E.dt64 t.arr c.opt.epoch = .ok tn)
    (hinc : (finiteTimes tn).Pairwise (· ≤ ·)) :
    (∃ a ∈ finiteTimes tn, a ≤ c.reftime) ∧ ∃ b ∈ finiteTimes tn, c.reftime ≤ b := by
  obtain ⟨tn', htn', h1, h2⟩ := C68_reftime E t u v lat opts ht hu hv c h
  rw [htn] at htn'
  obtain rfl := Except.ok.inj htn'
  have hsub : ((usable tn u.data (v.map Series.data)).map Prod.fst).Sublist (finiteTimes tn) := by
    cases v with
    | none => simp only [Option.map_none, usable, List.map_map]; exact goodSamples_sublist tn _
    | some v => simp only [Option.map_some, usable, List.map_map]; exact goodSamples2_sublist tn _ _
  cases he : isEqui (finiteTimes tn) with
  | true => exact midpoint_inside _ _ hinc (h1 he)
  | false =>
    obtain ⟨⟨a, ha, ha'⟩, b, hb, hb'⟩ := midpoint_inside _ _ (hinc.sublist hsub) (h2 he)
    exact ⟨⟨a, hsub.subset ha, ha'⟩, b, hsub.subset hb, hb'⟩

/-- Hourly times are evenly spaced, and a gap is noticed. -/
example : EvenlySpaced [0, 1, 2, 3] :=
  ⟨1, fun i a b h1 h2 => by
    match i with
    | 0 => simp at h1 h2; subst h1 h2; norm_num
    | 1 => simp at h1 h2; subst h1 h2; norm_num
    | 2 => simp at h1 h2; subst h1 h2; norm_num
    | n + 3 => simp at h2⟩

example : isEqui [0, 1, 2, 4] = false :=
  C68_uneven _ 0 2 0 1 2 4 rfl rfl rfl rfl (by simp [eps]; norm_num)

/-! ## A call that returns -/

/-- Options for the examples: M2 only, raw phases, no nodal corrections, no trend, no confidence intervals. -/
def exOpts : Dict PyVal :=
  [("constit", .seq .list [.str "M2"]), ("conf_int", .str "none"), ("trend", .bool false), ("nodal", .bool false),
   ("phase", .str "raw"), ("order_constit", .str "frequency"), ("epoch", .str "python")]

/-- The example options as the code reads them. -/
def exOpt (twodim : Bool) : Opt :=
  { twodim := twodim, flags := ⟨false, true, false, true⟩, cnstit := .seq .list [.str "M2"], infer := .none,
    ordercnstit := .str "frequency", rmin := 1, notrend := true, confInt := false, linci := false, white := false,
    nodiagn := true, method := .ols, verbose := true, epoch := .str "python" }

theorem exOpt_eq (twodim : Bool) : getOpt exOpts twodim = .ok (exOpt twodim) := by cases twodim <;> rfl

theorem M2_known : "M2" ∈ constitNames := by decide +kernel

/-- `solve` on a record of finite floating point times returns. -/
theorem ex_returns (E : Env) (xs : List Fl) (mask : List Bool) (u : List Cell) (hl : xs.length = u.length)
    (hne : usable xs u none ≠ []) : ∃ c, solve E ⟨[xs.length], .float xs, mask⟩ ⟨[u.length], u⟩ none (some 45)
      exOpts = .ok c := by
  refine solve_total E _ _ none 45 exOpts (exOpt false) xs (.names ["M2"]) .frequency (exOpt_eq false) rfl rfl rfl rfl rfl
    ⟨by simpa using M2_known, .inl (by simp)⟩ rfl (.inr rfl) ⟨by simp [hl], rfl, by simp⟩ ?_ ?_ (by simp) ?_ hne
    (fun k => by simp [nodalSingular, exOpt]) (fun h => by simp [exOpt] at h)
  · simp [TimeArg.WF, TimeArr.length]
  · simp [Series.WF]
  · show (Except.ok (xs.map _) : Except PyErr (List Fl)) = _
    congr 1
    exact List.map_id xs

/-! ## C30 -/

/-- The times with the masked ones replaced by NaN. -/
def blankTimes (mask : List Bool) (xs : List Fl) : List Fl :=
  List.zipWith (fun m x => if m then Fl.nan else x) mask xs

/-- C30 as stated: masked times count as NaN. -/
def C30_full : Prop := ∀ (E : Env) (xs : List Fl) (mask : List Bool) (u : Series) (v : Option Series)
    (lat : Option ℝ) (opts : Dict PyVal), mask.length = xs.length →
  solve E ⟨[xs.length], .float xs, mask⟩ u v lat opts =
    solve E ⟨[xs.length], .float (blankTimes mask xs), xs.map fun _ => false⟩ u v lat opts

/-- What the code does instead: the mask of `t` is ignored, for every input. -/
theorem C30_mask_ignored (E : Env) (t : TimeArg) (mask : List Bool) (u : Series) (v : Option Series)
    (lat : Option ℝ) (opts : Dict PyVal) : solve E { t with mask := mask } u v lat opts = solve E t u v lat opts := rfl

/-- C30 is false: of the times 0, 1, 2 let the last be masked. The reference time is 1 instead of 0.5. -/
theorem C30_false : ¬ C30_full := by
  intro hfull
  have h := hfull idealEnv [.fin 0, .fin 1, .fin 2] [false, false, true]
    ⟨[3], [⟨.fin 0, false⟩, ⟨.fin 0, false⟩, ⟨.fin 0, false⟩]⟩ none (some 45) exOpts rfl
  obtain ⟨c, hc⟩ := ex_returns idealEnv [.fin 0, .fin 1, .fin 2] [false, false, true]
    [⟨.fin 0, false⟩, ⟨.fin 0, false⟩, ⟨.fin 0, false⟩] rfl (by simp [usable, goodSamples, Fl.toReal?, Cell.value?])
  obtain ⟨c', hc'⟩ := ex_returns idealEnv (blankTimes [false, false, true] [.fin 0, .fin 1, .fin 2])
    [false, false, false] [⟨.fin 0, false⟩, ⟨.fin 0, false⟩, ⟨.fin 0, false⟩] rfl
    (by simp [usable, goodSamples, Fl.toReal?, Cell.value?, blankTimes])
  have hcc : c = c' := by
    have e1 : (.ok c : Except PyErr Coef) = .ok c' := hc.symm.trans (h.trans hc')
    exact Except.ok.inj e1
  have hopt : c.opt.epoch = .str "python" := by
    obtain ⟨opt, p, tn, constit, m, W, rf, c1, c2, o, ho, hp, hs⟩ := (solve_ok _ _ _ _ _ _ _).1 hc
    have : opt = exOpt false := by
      have := exOpt_eq false
      exact (Except.ok.inj (ho.symm.trans this))
    rw [hs.head.opt]
    show p.opt.epoch = _
    rw [hp.hopt, this]; rfl
  have hn : ∀ xs : List Fl, normalizeTime idealEnv.dt64 (.float xs) (.str "python") = .ok xs := by
    intro xs
    show (Except.ok (xs.map _) : Except PyErr (List Fl)) = _
    congr 1
    exact List.map_id xs
  have f1 : finiteTimes [.fin 0, .fin 1, .fin 2] = [0, 1, 2] := rfl
  have f2 : finiteTimes (blankTimes [false, false, true] [.fin 0, .fin 1, .fin 2]) = [0, 1] := rfl
  have h1 := C68_reftime_even _ _ _ _ _ _ (by simp [TimeArg.WF, TimeArr.length]) (by simp [Series.WF]) (by simp) c hc
    _ (by rw [hopt]; exact hn _) (by rw [f1]; simp) (by
      rw [f1]
      refine ⟨1, fun i a b h1 h2 => ?_⟩
      match i with
      | 0 => simp at h1 h2; subst h1 h2; norm_num
      | 1 => simp at h1 h2; subst h1 h2; norm_num
      | n + 2 => simp at h2)
  have h2 := C68_reftime_even _ _ _ _ _ _ (by simp [TimeArg.WF, TimeArr.length]) (by simp [Series.WF]) (by simp) c' hc'
    _ (by rw [← hcc, hopt]; exact hn _) (by rw [f2]; simp) (by
      rw [f2]
      refine ⟨1, fun i a b h1 h2 => ?_⟩
      match i with
      | 0 => simp at h1 h2; subst h1 h2; norm_num
      | n + 1 => simp at h2)
  rw [f1] at h1
  rw [f2] at h2
  obtain ⟨a, b, ha, hb, hab⟩ := h1
  obtain ⟨a', b', ha', hb', hab'⟩ := h2
  simp at ha hb ha' hb'
  subst ha hb ha' hb'
  rw [hcc, hab'] at hab
  norm_num at hab

/-- C30, the part that holds: if the masked entries are NaN as well, they count as missing. -/
theorem C30_partial (E : Env) (xs : List Fl) (mask : List Bool) (u : Series) (v : Option Series)
    (lat : Option ℝ) (opts : Dict PyVal) (hl : mask.length = xs.length)
    (hm : ∀ p ∈ mask.zip xs, p.1 = true → p.2 = Fl.nan) :
    solve E ⟨[xs.length], .float xs, mask⟩ u v lat opts =
      solve E ⟨[xs.length], .float (blankTimes mask xs), xs.map fun _ => false⟩ u v lat opts := by
  have : blankTimes mask xs = xs := by
    induction xs generalizing mask with
    | nil => simp [blankTimes]
    | cons x xs ih =>
      cases mask with
      | nil => simp at hl
      | cons m mask =>
        have h1 := hm (m, x) (by simp)
        have h2 := ih mask (by simpa using hl) (fun p hp => hm p (by simp [hp]))
        unfold blankTimes at h2 ⊢
        rw [List.zipWith_cons_cons, h2]
        cases m with
        | false => rfl
        | true => simp [show x = Fl.nan from h1 rfl]
  rw [this]
  rfl

end

end UTide.Props
