import Verif.Props.FillProps

/-!
# What errors in the data do to the fitted curve: C104
-/

namespace UTide.Props

noncomputable section

open Classical

local notation "conj" => starRingEnd ℂ

/-! ## Specification -/

/-- Entry `i`, zero if missing. -/
def entry (a : List (Option ℂ)) (i : ℕ) : ℂ := (a[i]?.getD none).getD 0

/-- The rows with a finite time and a value. -/
def usableRows (tn : List Fl) (xs : List (Option ℂ)) : Finset ℕ := (Finset.range tn.length).filter (UsableRow tn xs)

/-- The same samples are missing. -/
def SameGaps (tn : List Fl) (xs xs' : List (Option ℂ)) : Prop := ∀ i, UsableRow tn xs' i ↔ UsableRow tn xs i

/-! ## Lemmas -/

theorem usableRow_succ (t : Fl) (tn : List Fl) (x : Option ℂ) (xs : List (Option ℂ)) (i : ℕ) :
    UsableRow (t :: tn) (x :: xs) (i + 1) ↔ UsableRow tn xs i := by
  simp [UsableRow]

theorem usableRow_zero (t : Fl) (tn : List Fl) (x : Option ℂ) (xs : List (Option ℂ)) :
    UsableRow (t :: tn) (x :: xs) 0 ↔ ∃ τ z, t = .fin τ ∧ x = some z := by
  simp [UsableRow]

/-- Pairing the samples of two series with the same gaps. -/
theorem samples_pair (tn : List Fl) (xs ys : List (Option ℂ)) (hx : tn.length = xs.length) (hy : tn.length = ys.length)
    (h : SameGaps tn xs ys) : ∃ l : List (ℝ × ℂ × ℂ), samples tn xs = l.map (fun s => (s.1, s.2.1)) ∧
      samples tn ys = l.map (fun s => (s.1, s.2.2)) ∧
      ∀ {α : Type} [AddCommMonoid α] (f : ℕ → α) (g : ℝ × ℂ × ℂ → α),
        (∀ i τ x y, tn[i]? = some (.fin τ) → xs[i]? = some (some x) → ys[i]? = some (some y) → f i = g (τ, x, y)) →
        ∑ i ∈ usableRows tn xs, f i = (l.map g).sum := by
  unfold usableRows
  induction tn generalizing xs ys with
  | nil => exact ⟨[], by simp [samples], by simp [samples], by simp⟩
  | cons t tn ih =>
    cases xs with
    | nil => simp at hx
    | cons x xs =>
      cases ys with
      | nil => simp at hy
      | cons y ys =>
        obtain ⟨l, h1, h2, h3⟩ := ih xs ys (by simpa using hx) (by simpa using hy)
          (fun i => by simpa only [usableRow_succ] using h (i + 1))
        have h0 := h 0
        rw [usableRow_zero, usableRow_zero] at h0
        have hsum : ∀ {α : Type} [AddCommMonoid α] (f : ℕ → α),
            ∑ i ∈ (Finset.range (t :: tn).length).filter (UsableRow (t :: tn) (x :: xs)), f i =
              ∑ i ∈ (Finset.range tn.length).filter (UsableRow tn xs), f (i + 1) +
                if UsableRow (t :: tn) (x :: xs) 0 then f 0 else 0 := by
          intro α _ f
          rw [Finset.sum_filter, Finset.sum_filter, List.length_cons, Finset.sum_range_succ']
          simp only [usableRow_succ]
        simp only [samples] at h1 h2 ⊢
        simp only [List.zip_cons_cons, List.filterMap_cons]
        by_cases hu : UsableRow (t :: tn) (x :: xs) 0
        · obtain ⟨τ, z, rfl, rfl⟩ := (usableRow_zero _ _ _ _).1 hu
          obtain ⟨τ', w, e, rfl⟩ := h0.2 ⟨τ, z, rfl, rfl⟩
          refine ⟨(τ, z, w) :: l, by simpa [Fl.toReal?] using h1, by simpa [Fl.toReal?] using h2, ?_⟩
          intro α _ f g hf
          rw [hsum, if_pos hu, h3 (fun i => f (i + 1)) g fun i τ x y e1 e2 e3 => hf (i + 1) τ x y (by simpa using e1)
            (by simpa using e2) (by simpa using e3), List.map_cons, List.sum_cons, add_comm, hf 0 τ z w rfl rfl rfl]
        · have hn : ¬ ∃ τ z, t = .fin τ ∧ x = some z := fun hc => hu ((usableRow_zero _ _ _ _).2 hc)
          have hn' : ¬ ∃ τ z, t = .fin τ ∧ y = some z := fun hc => hn (h0.1 hc)
          have key : ∀ w : Option ℂ, (¬ ∃ τ z, t = .fin τ ∧ w = some z) →
              (t.toReal?.bind fun τ => w.map fun x => (τ, x)) = none := by
            intro w hw
            cases t with
            | fin τ =>
              cases w with
              | none => rfl
              | some w => exact absurd ⟨τ, w, rfl, rfl⟩ hw
            | nan => rfl
            | pinf => rfl
            | ninf => rfl
          refine ⟨l, by simp only [key x hn]; exact h1, by simp only [key y hn']; exact h2, ?_⟩
          intro α _ f g hf
          rw [hsum, if_neg hu, add_zero]
          exact h3 (fun i => f (i + 1)) g fun i τ x y e1 e2 e3 => hf (i + 1) τ x y (by simpa using e1)
            (by simpa using e2) (by simpa using e3)

theorem sum_map_sub' {α : Type} (l : List α) (f g : α → ℂ) :
    (l.map fun s => f s - g s).sum = (l.map f).sum - (l.map g).sum := by
  induction l with
  | nil => simp
  | cons a l ih => simp only [List.map_cons, List.sum_cons, ih]; ring

/-- Two analyses of series with the same gaps: the change of the fitted curve is orthogonal to what it does not explain of
the change of the data. -/
theorem change_orthogonal (E : Env) (t : TimeArg) (u u' : Series) (v v' : Option Series) (lat : Option ℝ)
    (opts : Dict PyVal) (R : Ready E t u v) (R' : Ready E t u' v') (hv : v'.isSome = v.isSome) (hnd : opts.keys.Nodup)
    (hm : ∃ x, requested opts "method" = some x ∧ IsStr x "ols")
    (c c' : Coef) (h : solve E t u v lat opts = .ok c) (h' : solve E t u' v' lat opts = .ok c') (hk : AllKept c)
    (sp : Option InferSpec) (hi : readInfer c.opt.infer = .ok sp) (hex : ∀ s, sp = some s → s.approximate = false)
    (tn : List Fl) (htn : normalizeTime E.dt64 t.arr c.opt.epoch = .ok tn)
    (hg : SameGaps tn (sampleValues u.data (v.map Series.data)) (sampleValues u'.data (v'.map Series.data)))
    (a : RecArgs) (hae : a.epoch = c.opt.epoch) (hall : RecArgs.Everything a) (r r' : List (Option ℂ))
    (hr : reconstruct E t.arr c a = .ok r) (hr' : reconstruct E t.arr c' a = .ok r') :
    ∑ i ∈ usableRows tn (sampleValues u.data (v.map Series.data)), conj (entry r' i - entry r i) *
      ((entry (sampleValues u'.data (v'.map Series.data)) i - entry (sampleValues u.data (v.map Series.data)) i) -
        (entry r' i - entry r i)) = 0 := by
  obtain ⟨p, constit, m, W, rf, full, o, ind, F, hols, rfl, hex'⟩ := run_facts R hnd hm h sp hi hex tn htn
  obtain ⟨opt', p', tn', constit', m', W', rf', full', o', ind', F'⟩ := solve_facts R' h'
  obtain ⟨rfl, rfl, rfl, hinf⟩ := same_tn F F' hv
  obtain ⟨l1, a2, a3⟩ := F.samples R
  obtain ⟨l2, b2, b3⟩ := F'.samples R'
  obtain ⟨l, s1, s2, s3⟩ := samples_pair _ _ _ (sampleValues_length _ _ _ l1) (sampleValues_length _ _ _ l2) hg
  rw [usable_samples _ _ _ l1, s1, List.map_map] at a2 a3
  rw [usable_samples _ _ _ l2, s2, List.map_map] at b2 b3
  have G := sameGrid F F' R R' hinf (by
    rw [usable_samples _ _ _ l1, usable_samples _ _ _ l2, s1, s2, List.map_map, List.map_map]; rfl)
  have hk' : AllKept c' := by
    have hcc : c'.opt = c.opt := by rw [F'.copt, F.copt]
    refine hk.transfer (same_names F F' R R' hnd G.sel hk rfl) (by rw [hcc]) ?_
    rw [F'.counts, F.counts, G.sel]
  have hrr := F.reconstructed R hnd hk a hae hall r hr
  have hrr' := F'.reconstructed R' hnd hk' a (by rw [hae, F'.copt]) hall r' hr'
  have hh := F.prep.height R.ht R.hu R.hv
  have hh' := F'.prep.height R'.ht R'.hu R'.hv
  have o1 := F.minNorm R hols
  have o2 := F'.minNorm R' hols
  rw [G.nm, G.B] at o2
  rw [G.B] at hh'
  have hd : m'.length = (vscale (-1) m).length := by rw [vscale_length, F'.mlen, G.nm, F.mlen]
  have hdl : (vadd m' (vscale (-1) m)).length = p.nm := by
    rw [vadd_length, ← hd, min_self, F'.mlen, G.nm]
  have k1 := o1.orthogonal hh _ hdl
  have k2 := o2.orthogonal hh' _ hdl
  rw [F.rows, a2, a3, List.map_map, zipWith_map_same] at k1
  rw [F.rows, a2, b3, List.map_map, zipWith_map_same] at k2
  rw [s3 (α := ℂ) _ (fun s => conj (dot (rowAt p s.1) m' - dot (rowAt p s.1) m) *
    (s.2.2 - dot (rowAt p s.1) m') - conj (dot (rowAt p s.1) m' - dot (rowAt p s.1) m) * (s.2.1 - dot (rowAt p s.1) m))]
  · rw [sum_map_sub']
    have e : ∀ τ, dot (rowAt p τ) (vadd m' (vscale (-1) m)) = dot (rowAt p τ) m' - dot (rowAt p τ) m := by
      intro τ
      rw [dot_vadd _ _ _ hd, dot_vscale]; ring
    simp only [Function.comp, e] at k1 k2
    rw [k1, k2, sub_zero]
  · intro i τ x y e1 e2 e3
    have hτ : τ ∈ p.ed.t := by
      rw [(F.samples R).2.1, usable_samples _ _ _ l1]
      exact List.mem_map.2 ⟨(τ, x), (mem_samples _ _ _).2 ⟨i, e1, e2⟩, rfl⟩
    have hτ' : τ ∈ p'.ed.t := by rw [G.t]; exact hτ
    have r1 : entry r i = dot (rowAt p τ) m := by
      unfold entry
      rw [hrr, List.getElem?_map, e1]
      simp only [Option.map_some, Fl.toReal?, Option.getD_some]
      exact F.curve_eq R hnd hols hex' _ hτ
    have r2 : entry r' i = dot (rowAt p τ) m' := by
      unfold entry
      rw [hrr', List.getElem?_map, e1]
      simp only [Option.map_some, Fl.toReal?, Option.getD_some]
      rw [F'.curve_eq R' hnd hols (by rw [hinf]; exact hex') _ hτ']
      congr 1
      unfold rowAt
      rw [G.tref, G.lor, G.lat, G.sel, hinf, F'.prep.hopt, F.prep.hopt]
    have r3 : entry (sampleValues u.data (v.map Series.data)) i = x := by simp [entry, e2]
    have r4 : entry (sampleValues u'.data (v'.map Series.data)) i = y := by simp [entry, e3]
    rw [r1, r2, r3, r4]
    ring

/-- From orthogonality: the changed curve is no larger than the changed data. -/
theorem contraction_of_orthogonal (U : Finset ℕ) (d e : ℕ → ℂ) (h : ∑ i ∈ U, conj (d i) * (e i - d i) = 0) :
    ∑ i ∈ U, ‖d i‖ ^ 2 ≤ ∑ i ∈ U, ‖e i‖ ^ 2 := by
  have key : ∀ i, ‖e i‖ ^ 2 = ‖d i‖ ^ 2 + ‖e i - d i‖ ^ 2 + 2 * (conj (d i) * (e i - d i)).re := by
    intro i
    simp only [← Complex.normSq_eq_norm_sq, Complex.normSq_apply, Complex.mul_re, Complex.conj_re, Complex.conj_im,
      Complex.sub_re, Complex.sub_im]
    ring
  have hre : ∑ i ∈ U, (conj (d i) * (e i - d i)).re = 0 := by
    rw [← Complex.re_sum, h, Complex.zero_re]
  simp only [key]
  rw [Finset.sum_add_distrib, Finset.sum_add_distrib, ← Finset.mul_sum, hre]
  have : 0 ≤ ∑ i ∈ U, ‖e i - d i‖ ^ 2 := Finset.sum_nonneg fun i _ => by positivity
  linarith

/-- From orthogonality, when one entry of the data changes. -/
theorem leverage_of_orthogonal (U : Finset ℕ) (d e : ℕ → ℂ) (j : ℕ) (hj : j ∈ U) (he : ∀ i ∈ U, i ≠ j → e i = 0)
    (h : ∑ i ∈ U, conj (d i) * (e i - d i) = 0) :
    ∃ q : ℝ, 0 ≤ q ∧ q ≤ 1 ∧ d j = q * e j ∧ ∑ i ∈ U, ‖d i‖ ^ 2 = q * ‖e j‖ ^ 2 := by
  have h1 : conj (d j) * e j = ((∑ i ∈ U, ‖d i‖ ^ 2 : ℝ) : ℂ) := by
    have e1 : ∑ i ∈ U, conj (d i) * e i = conj (d j) * e j := by
      refine Finset.sum_eq_single_of_mem j hj fun i hi hn => ?_
      rw [he i hi hn, mul_zero]
    have e2 : ∑ i ∈ U, conj (d i) * d i = ((∑ i ∈ U, ‖d i‖ ^ 2 : ℝ) : ℂ) := by
      push_cast
      refine Finset.sum_congr rfl fun i _ => ?_
      rw [mul_comm, Complex.mul_conj, Complex.normSq_eq_norm_sq]; push_cast; rfl
    simp only [mul_sub, Finset.sum_sub_distrib, e1, e2] at h
    exact sub_eq_zero.1 h
  have hle := contraction_of_orthogonal U d e h
  have hs : ∑ i ∈ U, ‖e i‖ ^ 2 = ‖e j‖ ^ 2 := by
    refine Finset.sum_eq_single_of_mem j hj fun i hi hn => ?_
    rw [he i hi hn]; simp
  rw [hs] at hle
  have hnn : 0 ≤ ∑ i ∈ U, ‖d i‖ ^ 2 := Finset.sum_nonneg fun i _ => by positivity
  by_cases h0 : e j = 0
  · have hz : ∑ i ∈ U, ‖d i‖ ^ 2 = 0 := le_antisymm (by simpa [h0] using hle) hnn
    have hdj := (Finset.sum_eq_zero_iff_of_nonneg fun i _ => by positivity).1 hz j hj
    refine ⟨0, le_refl _, zero_le_one, ?_, by rw [hz]; ring⟩
    simpa using hdj
  · have hp : 0 < ‖e j‖ ^ 2 := by positivity
    refine ⟨(∑ i ∈ U, ‖d i‖ ^ 2) / ‖e j‖ ^ 2, by positivity, (div_le_one hp).2 hle, ?_, by field_simp⟩
    have h2 : d j * conj (e j) = ((∑ i ∈ U, ‖d i‖ ^ 2 : ℝ) : ℂ) := by
      have := congrArg conj h1
      simpa using this
    have h3 : e j * conj (e j) = ((‖e j‖ ^ 2 : ℝ) : ℂ) := by
      rw [Complex.mul_conj, Complex.normSq_eq_norm_sq]
    have hc : conj (e j) ≠ 0 := by simpa using h0
    apply mul_right_cancel₀ hc
    rw [h2, mul_assoc, h3, ← Complex.ofReal_mul, div_mul_cancel₀ _ hp.ne']

/-! ## C104 -/

/-- **C104.** With `method='ols'`: changing the values of a series, without changing which are missing, changes the
reconstruction at the samples by no more, in root mean square, than the values were changed. -/
theorem C104_contraction (E : Env) (t : TimeArg) (u u' : Series) (v v' : Option Series) (lat : Option ℝ)
    (opts : Dict PyVal) (R : Ready E t u v) (R' : Ready E t u' v') (hv : v'.isSome = v.isSome) (hnd : opts.keys.Nodup)
    (hm : ∃ x, requested opts "method" = some x ∧ IsStr x "ols")
    (c c' : Coef) (h : solve E t u v lat opts = .ok c) (h' : solve E t u' v' lat opts = .ok c') (hk : AllKept c)
    (sp : Option InferSpec) (hi : readInfer c.opt.infer = .ok sp) (hex : ∀ s, sp = some s → s.approximate = false)
    (tn : List Fl) (htn : normalizeTime E.dt64 t.arr c.opt.epoch = .ok tn)
    (hg : SameGaps tn (sampleValues u.data (v.map Series.data)) (sampleValues u'.data (v'.map Series.data)))
    (a : RecArgs) (hae : a.epoch = c.opt.epoch) (hall : RecArgs.Everything a) (r r' : List (Option ℂ))
    (hr : reconstruct E t.arr c a = .ok r) (hr' : reconstruct E t.arr c' a = .ok r') :
    ∑ i ∈ usableRows tn (sampleValues u.data (v.map Series.data)), ‖entry r' i - entry r i‖ ^ 2 ≤
      ∑ i ∈ usableRows tn (sampleValues u.data (v.map Series.data)),
        ‖entry (sampleValues u'.data (v'.map Series.data)) i - entry (sampleValues u.data (v.map Series.data)) i‖ ^ 2 :=
  contraction_of_orthogonal _ (fun i => entry r' i - entry r i)
    (fun i => entry (sampleValues u'.data (v'.map Series.data)) i - entry (sampleValues u.data (v.map Series.data)) i)
    (change_orthogonal E t u u' v v' lat opts R R' hv hnd hm c c' h h' hk sp hi hex tn htn hg a hae hall r r' hr hr')

/-- **C104.** With `method='ols'`: changing one value by `δ` moves the reconstruction at that sample by `q δ` for some
real `q` between 0 and 1, the same direction and never further than the value, and at all samples together by `√q |δ|` in
root sum of squares. -/
theorem C104_single (E : Env) (t : TimeArg) (u u' : Series) (v v' : Option Series) (lat : Option ℝ)
    (opts : Dict PyVal) (R : Ready E t u v) (R' : Ready E t u' v') (hv : v'.isSome = v.isSome) (hnd : opts.keys.Nodup)
    (hm : ∃ x, requested opts "method" = some x ∧ IsStr x "ols")
    (c c' : Coef) (h : solve E t u v lat opts = .ok c) (h' : solve E t u' v' lat opts = .ok c') (hk : AllKept c)
    (sp : Option InferSpec) (hi : readInfer c.opt.infer = .ok sp) (hex : ∀ s, sp = some s → s.approximate = false)
    (tn : List Fl) (htn : normalizeTime E.dt64 t.arr c.opt.epoch = .ok tn)
    (hg : SameGaps tn (sampleValues u.data (v.map Series.data)) (sampleValues u'.data (v'.map Series.data)))
    (j : ℕ) (hj : UsableRow tn (sampleValues u.data (v.map Series.data)) j)
    (hone : ∀ i, i ≠ j → entry (sampleValues u'.data (v'.map Series.data)) i =
      entry (sampleValues u.data (v.map Series.data)) i)
    (a : RecArgs) (hae : a.epoch = c.opt.epoch) (hall : RecArgs.Everything a) (r r' : List (Option ℂ))
    (hr : reconstruct E t.arr c a = .ok r) (hr' : reconstruct E t.arr c' a = .ok r') :
    ∃ q : ℝ, 0 ≤ q ∧ q ≤ 1 ∧
      entry r' j - entry r j = q * (entry (sampleValues u'.data (v'.map Series.data)) j -
        entry (sampleValues u.data (v.map Series.data)) j) ∧
      ∑ i ∈ usableRows tn (sampleValues u.data (v.map Series.data)), ‖entry r' i - entry r i‖ ^ 2 =
        q * ‖entry (sampleValues u'.data (v'.map Series.data)) j -
          entry (sampleValues u.data (v.map Series.data)) j‖ ^ 2 :=
  leverage_of_orthogonal _ (fun i => entry r' i - entry r i)
    (fun i => entry (sampleValues u'.data (v'.map Series.data)) i - entry (sampleValues u.data (v.map Series.data)) i) j
    (Finset.mem_filter.2 ⟨Finset.mem_range.2 (by
      obtain ⟨τ, x, h1, _⟩ := hj
      exact (List.getElem?_eq_some_iff.1 h1).1), hj⟩)
    (fun i _ hn => by rw [hone i hn, sub_self])
    (change_orthogonal E t u u' v v' lat opts R R' hv hnd hm c c' h h' hk sp hi hex tn htn hg a hae hall r r' hr hr')

end

end UTide.Props
