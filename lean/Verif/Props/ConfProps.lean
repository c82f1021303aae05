import Verif.Lemmas.Result
import Verif.Lemmas.Ideal
import Verif.Lemmas.Median
import Verif.Props.ResultProps
import Verif.Props.EllipseProps

/-!
# Confidence intervals: C51, C53-C56
-/

namespace UTide.Props

noncomputable section

open Classical

/-! ## C55 -/

/-- C55: `cluster` moves every angle by whole turns to within half a turn of the first one, which it leaves alone;
it needs at least one angle. -/
theorem C55_cluster (ang : ℝ) (hang : 0 < ang) (x : List ℝ) :
    (x = [] → cluster ang x = .error .indexError) ∧
    ∀ a l, x = a :: l → ∃ y, cluster ang x = .ok y ∧ y.length = x.length ∧ y[0]? = some a ∧
      ∀ (i : ℕ) xi yi, x[i]? = some xi → y[i]? = some yi →
        (∃ n : ℤ, yi = xi + n * ang) ∧ a - ang / 2 ≤ yi ∧ yi < a + ang / 2 := by
  refine ⟨fun h => by subst h; rfl, ?_⟩
  rintro a l rfl
  refine ⟨_, rfl, by simp, ?_, ?_⟩
  · simp only [List.map_cons, List.getElem?_cons_zero, Option.some.injEq]
    have : pymod (a + (-a + ang / 2)) ang = ang / 2 :=
      pymod_unique _ _ _ hang (by linarith) (by linarith) ⟨0, by simp⟩
    rw [this]; ring
  · intro i xi yi hx hy
    rw [List.getElem?_map, hx] at hy
    cases hy
    dsimp only
    have h0 := pymod_nonneg (xi + (-a + ang / 2)) hang
    have h1 := pymod_lt (xi + (-a + ang / 2)) hang
    obtain ⟨n, hn⟩ := pymod_eq_sub (xi + (-a + ang / 2)) ang
    refine ⟨⟨-n, ?_⟩, by linarith, by linarith⟩
    rw [hn]; push_cast; ring

/-- These conditions determine the result. -/
theorem cluster_eq (ang : ℝ) (hang : 0 < ang) (a : ℝ) (l y : List ℝ) (hl : y.length = l.length + 1)
    (h : ∀ (i : ℕ) xi yi, (a :: l)[i]? = some xi → y[i]? = some yi →
      (∃ n : ℤ, yi = xi + n * ang) ∧ a - ang / 2 ≤ yi ∧ yi < a + ang / 2) : cluster ang (a :: l) = .ok y := by
  unfold cluster
  dsimp only
  congr 1
  refine List.ext_getElem (by simp [hl]) fun i h1 h2 => ?_
  rw [List.getElem_map]
  have h3 : i < (a :: l).length := by simpa using h1
  obtain ⟨⟨n, hn⟩, hlo, hhi⟩ := h i _ _ (List.getElem?_eq_getElem h3) (List.getElem?_eq_getElem h2)
  rw [pymod_unique _ (y[i] + (-a + ang / 2)) ang hang (by linarith) (by linarith) ⟨-n, by rw [hn]; push_cast; ring⟩]
  ring

/-- 10 and 300 degrees seen from 350 degrees. -/
example : cluster 360 [350, 10, 300] = .ok [350, 370, 300] := by
  refine cluster_eq 360 (by norm_num) _ _ _ rfl ?_
  intro i xi yi hx hy
  match i with
  | 0 => cases hx; cases hy; exact ⟨⟨0, by norm_num⟩, by norm_num, by norm_num⟩
  | 1 => cases hx; cases hy; exact ⟨⟨1, by norm_num⟩, by norm_num, by norm_num⟩
  | 2 => cases hx; cases hy; exact ⟨⟨0, by norm_num⟩, by norm_num, by norm_num⟩
  | i + 3 => simp at hx

/-! ## C56 -/

theorem madCi_shift (x : List ℝ) (h : x ≠ []) (d : ℝ) : madCi (x.map (· + d)) = madCi x := by
  unfold madCi
  rw [median_map_add x h, List.map_map]
  congr 3
  refine List.map_congr_left fun a _ => ?_
  simp only [Function.comp_apply]
  congr 1
  ring

/-- The spread of an angle only depends on the differences of the samples from the first, modulo whole turns. -/
theorem angleCi_congr (a a' : ℝ) (x x' : List ℝ) (d : ℝ) (hd : a' = a + d) (hl : x'.length = x.length)
    (h : ∀ (i : ℕ) xi xi', x[i]? = some xi → x'[i]? = some xi' → ∃ n : ℤ, xi' = xi + d + n * 360) :
    angleCi a' x' = angleCi a x := by
  cases x with
  | nil =>
    have h0 : x' = [] := List.length_eq_zero_iff.1 (by simpa using hl)
    rw [h0]; rfl
  | cons b l =>
    cases x' with
    | nil => simp at hl
    | cons b' l' =>
      obtain ⟨-, h2⟩ := C55_cluster 360 (by norm_num) (a :: l)
      obtain ⟨y, hy, hlen, -, hspec⟩ := h2 a l rfl
      have hc : cluster 360 (a' :: l') = .ok (y.map (· + d)) := by
        refine cluster_eq 360 (by norm_num) a' l' _ (by simp at hl hlen ⊢; omega) ?_
        intro i xi yi hx hyi
        rw [List.getElem?_map] at hyi
        obtain ⟨yi0, hy0, rfl⟩ := Option.map_eq_some_iff.1 hyi
        have hi : i < (a :: l).length := by
          rw [← hlen]; exact (List.getElem?_eq_some_iff.1 hy0).1
        obtain ⟨⟨n, hn⟩, hlo, hhi⟩ := hspec i _ yi0 (List.getElem?_eq_getElem hi) hy0
        refine ⟨?_, by linarith, by linarith⟩
        cases i with
        | zero =>
          simp only [List.getElem?_cons_zero, Option.some.injEq] at hx
          simp only [List.getElem_cons_zero] at hn
          exact ⟨n, by rw [hn, ← hx, hd]; ring⟩
        | succ i =>
          simp only [List.getElem?_cons_succ] at hx
          simp only [List.getElem_cons_succ] at hn
          obtain ⟨k, hk⟩ := h (i + 1) (l[i]'(by simpa using hi)) xi (by
            simp only [List.getElem?_cons_succ]; exact List.getElem?_eq_getElem _) (by simpa using hx)
          exact ⟨n - k, by rw [hn, hk]; push_cast; ring⟩
      have hne : y ≠ [] := by rintro rfl; simp at hlen
      unfold angleCi
      simp only [setFirst, ok_bind]
      rw [hc, hy]
      simp only [ok_bind]
      rw [madCi_shift y hne]

/-- Cosine and sine coefficients `(Xu, Yu, Xv, Yv)` of a constituent, seen in axes turned by `-φ` degrees. -/
def turn (φ : ℝ) (r : Fin 4 → ℝ) : Fin 4 → ℝ :=
  let c := Real.cos (φ * Real.pi / 180)
  let s := Real.sin (φ * Real.pi / 180)
  ![c * r 0 - s * r 2, c * r 1 - s * r 3, s * r 0 + c * r 2, s * r 1 + c * r 3]

/-- Ellipse of four coefficients. -/
def ellRow (r : Fin 4 → ℝ) : Ell := cs2cep2 (r 0) (r 1) (r 2) (r 3)

/-- C56, stated as independence of the axes: turning the axes turns the mean and all samples, which should not change
the spread of the orientation. -/
def C56_full : Prop :=
  ∀ (N N' : Num) (c : ℕ) (x : Fin 4 → ℝ) (G H G' H' : Matrix (Fin 2) (Fin 2) ℂ) (φ : ℝ) (r r' : Ci1),
    N'.mvn c 4 (turn φ x) (mcCov G' H') nrlzn = (N.mvn c 4 x (mcCov G H) nrlzn).map (turn φ) →
    monteCarlo2 N c none (x 0) (x 1) (x 2) (x 3) (ellRow x).g (ellRow x).theta G H = .ok r →
    monteCarlo2 N' c none (turn φ x 0) (turn φ x 1) (turn φ x 2) (turn φ x 3) (ellRow (turn φ x)).g
      (ellRow (turn φ x)).theta G' H' = .ok r' →
    r'.theta = r.theta

/-- What the Monte-Carlo branch computes. -/
theorem monteCarlo2_white (N : Num) (c : ℕ) (x : Fin 4 → ℝ) (g theta : ℝ) (G H : Matrix (Fin 2) (Fin 2) ℂ) (r : Ci1) :
    monteCarlo2 N c none (x 0) (x 1) (x 2) (x 3) g theta G H = .ok r ↔
      ∃ tci gci, angleCi theta (((N.mvn c 4 x (mcCov G H) nrlzn).map ellRow).map Ell.theta) = .ok tci ∧
        angleCi g (((N.mvn c 4 x (mcCov G H) nrlzn).map ellRow).map Ell.g) = .ok gci ∧
        r = ⟨.fin (madCi (((N.mvn c 4 x (mcCov G H) nrlzn).map ellRow).map Ell.Lsmaj)),
          .fin (madCi (((N.mvn c 4 x (mcCov G H) nrlzn).map ellRow).map Ell.Lsmin)), tci, gci⟩ := by
  have hx : ![x 0, x 1, x 2, x 3] = x := by funext i; fin_cases i <;> rfl
  unfold monteCarlo2
  rw [hx]
  simp only [bind_eq_ok, pure_eq_ok, Except.ok.injEq]
  constructor
  · rintro ⟨M, rfl, t, ht, g', hg, rfl⟩
    exact ⟨t, g', ht, hg, rfl⟩
  · rintro ⟨t, g', ht, hg, rfl⟩
    exact ⟨_, rfl, t, ht, g', hg, rfl⟩

/-- Motion along a line of direction `θ` degrees. -/
def line (θ : ℝ) : Fin 4 → ℝ := ![Real.cos (θ * Real.pi / 180), 0, Real.sin (θ * Real.pi / 180), 0]

theorem turn_line (φ θ : ℝ) : turn φ (line θ) = line (θ + φ) := by
  have h : (θ + φ) * Real.pi / 180 = θ * Real.pi / 180 + φ * Real.pi / 180 := by ring
  unfold turn line
  rw [h, Real.cos_add, Real.sin_add]
  funext i
  fin_cases i <;> simp <;> ring

theorem line_theta (θ : ℝ) : (ellRow (line θ)).theta = pymod θ 180 := by
  have h : ∀ z : ℂ, z = cisd θ / 2 → ∃ n : ℤ, angleDeg z = θ + 360 * n := by
    rintro z rfl
    have h1 := norm_mul_cisd_angle (cisd θ / 2)
    rw [norm_div, norm_cisd] at h1
    have h2 : cisd (angleDeg (cisd θ / 2)) = cisd θ := by
      have : ((1 / ‖(2 : ℂ)‖ : ℝ) : ℂ) = 1 / 2 := by norm_num
      rw [this] at h1
      linear_combination 2 * h1
    obtain ⟨n, hn⟩ := (cisd_eq_iff _ _).1 h2
    exact ⟨n, by linarith⟩
  unfold ellRow line cs2cep2
  simp only [Matrix.cons_val_zero, Matrix.cons_val_one, Matrix.cons_val]
  obtain ⟨n, hn⟩ := h (((Real.cos (θ * Real.pi / 180) + 0 : ℝ) + Complex.I * (Real.sin (θ * Real.pi / 180) - 0 : ℝ)) / 2)
    (by
      rw [cisd_eq, add_zero, sub_zero]
      apply Complex.ext <;> simp [-Complex.ofReal_cos, -Complex.ofReal_sin])
  obtain ⟨k, hk⟩ := h (((Real.cos (θ * Real.pi / 180) - 0 : ℝ) + Complex.I * (Real.sin (θ * Real.pi / 180) + 0 : ℝ)) / 2)
    (by
      rw [cisd_eq, add_zero, sub_zero]
      apply Complex.ext <;> simp [-Complex.ofReal_cos, -Complex.ofReal_sin])
  rw [hn, hk]
  refine pymod_congr _ _ _ (by norm_num) ⟨n + k, ?_⟩
  push_cast; ring

/-- Half of the samples with orientation `a`, half with `b`. -/
def halves {α : Type} (n : ℕ) (a b : α) : List α := List.replicate n a ++ List.replicate n b

theorem halves_map {α β : Type} (n : ℕ) (f : α → β) (a b : α) : (halves n a b).map f = halves n (f a) (f b) := by
  simp [halves]

theorem median_halves (n : ℕ) (hn : 1 ≤ n) (a b : ℝ) (h : a ≤ b) : median (halves n a b) = (a + b) / 2 := by
  rw [median_eq (halves n a b) (halves n a b) (List.Perm.refl _) ?_]
  · have hl : (halves n a b).length = 2 * n := by simp [halves]; omega
    have h1 : (halves n a b).getD (n - 1) 0 = a := by
      unfold halves
      rw [List.getD_append _ _ _ _ (by simp; omega), List.getD_eq_getElem _ _ (by simp; omega), List.getElem_replicate]
    have h2 : (halves n a b).getD n 0 = b := by
      unfold halves
      rw [List.getD_append_right _ _ _ _ (by simp), List.getD_eq_getElem _ _ (by simp; omega), List.getElem_replicate]
    unfold middle
    rw [hl, if_neg (by omega), show 2 * n / 2 = n by omega, h1, h2]
  · unfold halves
    rw [List.pairwise_append]
    refine ⟨by simp, by simp, ?_⟩
    intro x hx y hy
    rw [List.eq_of_mem_replicate hx, List.eq_of_mem_replicate hy]
    exact h

theorem median_halves' (n : ℕ) (hn : 1 ≤ n) (a b : ℝ) : median (halves n a b) = (a + b) / 2 := by
  rcases le_total a b with h | h
  · exact median_halves n hn a b h
  · have hp : (halves n a b).Perm (halves n b a) := List.perm_append_comm
    rw [median_eq (halves n a b) _ (hp.trans (List.mergeSort_perm _ (fun a b => decide (a ≤ b))).symm) (sort_pairwise _)]
    have := median_halves n hn b a h
    unfold median at this
    rw [this]; ring

theorem madCi_halves (n : ℕ) (hn : 1 ≤ n) (a b : ℝ) : madCi (halves n a b) = 1.96 * (|a - b| / 2) / 0.6745 := by
  unfold madCi
  rw [halves_map, median_halves' n hn, median_halves' n hn]
  congr 2
  rw [show a - (a + b) / 2 = (a - b) / 2 by ring, show b - (a + b) / 2 = -((a - b) / 2) by ring, abs_neg, abs_div,
    abs_of_pos (by norm_num : (0 : ℝ) < 2)]
  ring

theorem angleCi_halves (n : ℕ) (a b : ℝ) (h1 : a - 180 ≤ b) (h2 : b < a + 180) :
    angleCi a (halves (n + 1) a b) = .ok (.fin (1.96 * (|a - b| / 2) / 0.6745)) := by
  have hs : halves (n + 1) a b = a :: (List.replicate n a ++ List.replicate (n + 1) b) := rfl
  have hc : cluster 360 (halves (n + 1) a b) = .ok (halves (n + 1) a b) := by
    conv_lhs => rw [hs]
    refine cluster_eq 360 (by norm_num) a _ _ (by simp [halves]; omega) ?_
    rw [← hs]
    intro i xi yi hx hy
    rw [hx] at hy
    cases hy
    refine ⟨⟨0, by simp⟩, ?_⟩
    have := List.mem_of_getElem? hx
    unfold halves at this
    rw [List.mem_append, List.mem_replicate, List.mem_replicate] at this
    rcases this with ⟨-, rfl⟩ | ⟨-, rfl⟩ <;> constructor <;> linarith
  unfold angleCi
  have hf : setFirst a (halves (n + 1) a b) = .ok (halves (n + 1) a b) := rfl
  rw [hf, ok_bind, hc, ok_bind, madCi_halves _ (by omega)]
  rfl

/-- A generator that returns half of the samples along direction `a`, half along `b`. -/
def halvesNum (a b : ℝ) : Num :=
  { idealNum with mvn := fun _ n _ _ _ => match n with
    | 4 => halves 100 (line a) (line b)
    | _ => [] }

theorem C56_false : ¬ C56_full := by
  intro h
  have m0 : pymod 0 180 = 0 := pymod_unique _ _ _ (by norm_num) (by norm_num) (by norm_num) ⟨0, by simp⟩
  have m135 : pymod 135 180 = 135 := pymod_unique _ _ _ (by norm_num) (by norm_num) (by norm_num) ⟨0, by simp⟩
  have m45 : pymod (0 + 45) 180 = 45 := pymod_unique _ _ _ (by norm_num) (by norm_num) (by norm_num) ⟨0, by simp⟩
  have m180 : pymod (135 + 45) 180 = 0 :=
    pymod_unique _ _ _ (by norm_num) (by norm_num) (by norm_num) ⟨1, by norm_num⟩
  have run : ∀ a b, pymod a 180 - 180 ≤ pymod b 180 → pymod b 180 < pymod a 180 + 180 →
      ∃ r, monteCarlo2 (halvesNum a b) 0 none (line a 0) (line a 1) (line a 2) (line a 3) (ellRow (line a)).g
        (ellRow (line a)).theta 0 0 = .ok r ∧
        r.theta = .fin (1.96 * (|pymod a 180 - pymod b 180| / 2) / 0.6745) := by
    intro a b h1 h2
    have hm : (halvesNum a b).mvn 0 4 (line a) (mcCov 0 0) nrlzn = halves 100 (line a) (line b) := rfl
    have ht : angleCi (ellRow (line a)).theta ((((halvesNum a b).mvn 0 4 (line a) (mcCov 0 0) nrlzn).map ellRow).map
        Ell.theta) = .ok (.fin (1.96 * (|pymod a 180 - pymod b 180| / 2) / 0.6745)) := by
      rw [hm, halves_map, halves_map, line_theta, line_theta]
      exact angleCi_halves 99 _ _ h1 h2
    obtain ⟨gci, hg⟩ : ∃ gci, angleCi (ellRow (line a)).g ((((halvesNum a b).mvn 0 4 (line a) (mcCov 0 0) nrlzn).map
        ellRow).map Ell.g) = .ok gci := by
      rw [hm, halves_map, halves_map]
      exact ⟨_, rfl⟩
    exact ⟨_, (monteCarlo2_white _ 0 (line a) _ _ 0 0 _).2 ⟨_, _, ht, hg, rfl⟩, rfl⟩
  obtain ⟨r, hr, hr'⟩ := run 0 135 (by rw [m0, m135]; norm_num) (by rw [m0, m135]; norm_num)
  obtain ⟨q, hq, hq'⟩ := run (0 + 45) (135 + 45) (by rw [m45, m180]; norm_num) (by rw [m45, m180]; norm_num)
  have := h (halvesNum 0 135) (halvesNum (0 + 45) (135 + 45)) 0 (line 0) 0 0 0 0 45 r q (by
    rw [turn_line]
    show halves 100 _ _ = (halves 100 _ _).map _
    rw [halves_map, turn_line, turn_line]) hr (by rw [turn_line]; exact hq)
  rw [hr', hq', m0, m135, m45, m180] at this
  have h2 := Fl.fin.inj this
  norm_num at h2

/-- C56, what holds: the spread of an angle is computed modulo 360 degrees. Adding the same angle to the reference and
all samples, and whole turns to any sample, does not change it; for orientations this gives independence of the axes
only as long as no orientation passes 180 degrees. -/
theorem C56_partial (a d : ℝ) (x : List ℝ) :
    angleCi (pymod (a + d) 360) (x.map fun t => pymod (t + d) 360) = angleCi a x ∧
    (∀ n : List ℤ, n.length = x.length → angleCi a (List.zipWith (fun t (k : ℤ) => t + k * 360) x n) = angleCi a x) ∧
    ((∃ n : ℤ, pymod (a + d) 180 = a + d - 180 * n ∧ ∀ t ∈ x, pymod (t + d) 180 = t + d - 180 * n) →
      angleCi (pymod (a + d) 180) (x.map fun t => pymod (t + d) 180) = angleCi a x) := by
  refine ⟨?_, ?_, ?_⟩
  · obtain ⟨n, hn⟩ := pymod_eq_sub (a + d) 360
    refine angleCi_congr a _ x _ (d - 360 * n) (by rw [hn]; ring) (by simp) ?_
    intro i xi xi' hx hx'
    rw [List.getElem?_map, hx] at hx'
    cases hx'
    obtain ⟨k, hk⟩ := pymod_eq_sub (xi + d) 360
    exact ⟨n - k, by dsimp only; rw [hk]; push_cast; ring⟩
  · intro n hn
    refine angleCi_congr a _ x _ 0 (by ring) (by simp [hn]) ?_
    intro i xi xi' hx hx'
    rw [List.getElem?_zipWith, hx] at hx'
    cases hk : n[i]? with
    | none => rw [hk] at hx'; simp at hx'
    | some k =>
      rw [hk] at hx'
      simp only [Option.some.injEq] at hx'
      exact ⟨k, by rw [← hx']; ring⟩
  · rintro ⟨n, ha, hx⟩
    refine angleCi_congr a _ x _ (d - 180 * n) (by rw [ha]; ring) (by simp) ?_
    intro i xi xi' hi hi'
    rw [List.getElem?_map, hi] at hi'
    cases hi'
    refine ⟨0, ?_⟩
    dsimp only
    rw [hx xi (List.mem_of_getElem? hi)]
    simp; ring

end

end UTide.Props
