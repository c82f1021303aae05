import Verif.Props.ConstitProps
import Verif.Props.NyquistProps
import Verif.Props.BoundProps
import Verif.Props.ReduceProps
import Verif.Props.ReturnProps
import Verif.Props.ShuffleExamples

/-!
# From one correction convention to another: C119
-/

namespace UTide.Props

noncomputable section

open Classical

local notation "conj" => starRingEnd ℂ

/-! ## Specification -/

/-- The Greenwich argument of catalogue entry `k` at `t`, in cycles: the equilibrium argument of a primary line; for a
compound the weighted sum of those of its parents. -/
def greenwich (t : ℝ) (k : ℕ) : ℝ := match kindOf k with
  | some (.primary d s) => equilibrium d s t
  | some (.shallow parts) => (parts.map fun q => (q.2.num : ℝ) * match kindOf q.1 with
      | some (.primary d s) => equilibrium d s t
      | _ => 0).sum
  | none => 0

/-- The nodal correction of catalogue entry `k` at `t`: the modulation of a primary line by its satellites; for a
compound the product over its parents, as often as the weights say, those with negative weights conjugated. -/
def nodalCorrection (lat t : ℝ) (k : ℕ) : ℂ := match kindOf k with
  | some (.primary _ _) => modulation lat t k
  | some (.shallow parts) => (parts.map fun q => powW (modulation lat t q.1) q.2.num).prod
  | none => 1

/-- The corrections that the results contain in each mode, other than those varying with time. -/
def nodalIn (m : Mode) (lat tref : ℝ) (k : ℕ) : ℂ := match m with
  | .atReference => nodalCorrection lat tref k
  | _ => 1

def argumentIn (m : Mode) (tref : ℝ) (k : ℕ) : ℝ := match m with
  | .atReference => greenwich tref k
  | _ => 0

/-- Factor between the harmonics in the modes `mn'`, `mp'` and those in the modes `mn`, `mp`. -/
def conversion (mn mp mn' mp' : Mode) (lat tref : ℝ) (k : ℕ) : ℂ :=
  (if mn = mn' then 1 else nodalIn mn' lat tref k / nodalIn mn lat tref k) *
    phasor (argumentIn mp' tref k - argumentIn mp tref k)

/-- Ellipse `e` is ellipse `e'` with the axes multiplied by `‖z‖` and the phase set back by the angle of `z`. -/
structure ConvertedBy (z : ℂ) (e' e : Ell) : Prop where
  major : e.Lsmaj = ‖z‖ * e'.Lsmaj
  minor : e.Lsmin = ‖z‖ * e'.Lsmin
  theta : |e'.Lsmin| < e'.Lsmaj → e.theta = e'.theta
  phase : |e'.Lsmin| < e'.Lsmaj → (‖z‖ : ℂ) * cisd (-e.g) = z * cisd (-e'.g)

/-- Two ordinary least-squares analyses of the same record, without inference, that differ only in the options `nodal`
and `phase`; both results have all constituents, each once. -/
structure OtherCorrections (E : Env) (t : TimeArg) (u : Series) (v : Option Series) (lat : Option ℝ)
    (opts opts' : Dict PyVal) (c c' : Coef) : Prop where
  keys : opts.keys.Nodup
  keys' : opts'.keys.Nodup
  same : ∀ k, k ≠ "nodal" → k ≠ "phase" → requested opts k = requested opts' k
  ols : ∃ x, requested opts "method" = some x ∧ IsStr x "ols"
  infer : requested opts "infer" = some .none
  run : solve E t u v lat opts = .ok c
  run' : solve E t u v lat opts' = .ok c'
  kept : AllKept c
  kept' : AllKept c'
  names : c.name.Nodup

/-! ## Rows -/

theorem convert_dot {tref : ℝ} {sel sel' : Sel} (S : SameSel sel sel') (hr : sel.refs = []) (h : SelAligned tref sel)
    (h' : SelAligned tref sel') (fl fl' : Flags) (lat lor : ℝ) (trend ap ap' : Bool) (t : ℝ) (z : String → ℂ)
    (hz : ∀ n ∈ sel.nrName, nameBasis fl' tref lat t n = z n * nameBasis fl tref lat t n) (P M : String → ℂ)
    (mean slope : ℂ) :
    dot (modelRow fl' tref lat lor trend ap' sel' t) (nameCoef sel' trend P M mean slope) =
      dot (modelRow fl tref lat lor trend ap sel t)
        (nameCoef sel trend (fun n => z n * P n) (fun n => conj (z n) * M n) mean slope) := by
  rw [dot_row_nameCoef h, dot_row_nameCoef h', S.refs, hr, (S.nr.map _).sum_eq, (S.nr.map _).sum_eq]
  have e1 : (sel.nrName.map fun n => nameBasis fl' tref lat t n * P n) =
      sel.nrName.map fun n => nameBasis fl tref lat t n * (z n * P n) :=
    List.map_congr_left fun n hn => by rw [hz n hn]; ring
  have e2 : (sel.nrName.map fun n => conj (nameBasis fl' tref lat t n) * M n) =
      sel.nrName.map fun n => conj (nameBasis fl tref lat t n) * (conj (z n) * M n) :=
    List.map_congr_left fun n hn => by rw [hz n hn, map_mul]; ring
  rw [e1, e2]
  simp only [List.map_nil, List.sum_nil]

theorem convert_cost {tref : ℝ} {sel sel' : Sel} (S : SameSel sel sel') (hr : sel.refs = [])
    (h : SelAligned tref sel) (h' : SelAligned tref sel') (fl fl' : Flags) (lat lor : ℝ) (trend ap ap' : Bool)
    (ts : List ℝ) (x : List ℂ) (z : String → ℂ)
    (hz : ∀ n ∈ sel.nrName, ∀ t, nameBasis fl' tref lat t n = z n * nameBasis fl tref lat t n) (P M : String → ℂ)
    (mean slope : ℂ) :
    cost (ts.map (modelRow fl' tref lat lor trend ap' sel')) x (nameCoef sel' trend P M mean slope) =
      cost (ts.map (modelRow fl tref lat lor trend ap sel)) x
        (nameCoef sel trend (fun n => z n * P n) (fun n => conj (z n) * M n) mean slope) := by
  unfold UTide.cost
  rw [List.zipWith_map_left, List.zipWith_map_left]
  simp only [convert_dot S hr h h' fl fl' lat lor trend ap ap' _ z (fun n hn => hz n hn _)]

theorem convert_normSq {sel sel' : Sel} (S : SameSel sel sel') (hr : sel.refs = []) (trend : Bool)
    (z : String → ℂ) (hz : ∀ n, ‖z n‖ = 1) (P M : String → ℂ) (mean slope : ℂ) :
    normSq (nameCoef sel trend (fun n => z n * P n) (fun n => conj (z n) * M n) mean slope) =
      normSq (nameCoef sel' trend P M mean slope) := by
  rw [S.normSq]
  unfold nameCoef UTide.normSq
  rw [hr]
  simp only [List.map_append, List.map_map, Function.comp_def, norm_mul, RCLike.norm_conj, hz, one_mul]

theorem nameCoef_undo (sel : Sel) (trend : Bool) (z : String → ℂ) (hz : ∀ n, z n ≠ 0) (P M : String → ℂ) (mean slope : ℂ) :
    nameCoef sel trend P M mean slope = nameCoef sel trend (fun n => z n * (P n / z n))
      (fun n => conj (z n) * (M n / conj (z n))) mean slope := by
  have e1 : (fun n => z n * (P n / z n)) = P := funext fun n => mul_div_cancel₀ _ (hz n)
  have e2 : (fun n => conj (z n) * (M n / conj (z n))) = M :=
    funext fun n => mul_div_cancel₀ _ (by simpa using hz n)
  rw [e1, e2]

/-- The converted coefficients fit best. -/
theorem convert_optimal {tref : ℝ} {sel sel' : Sel} (S : SameSel sel sel') (hr : sel.refs = [])
    (h : SelAligned tref sel) (h' : SelAligned tref sel') (hn : sel.name.Nodup) (fl fl' : Flags) (lat lor : ℝ)
    (trend ap ap' : Bool) (ts : List ℝ) (x : List ℂ) (z : String → ℂ) (h0 : ∀ n, z n ≠ 0)
    (hz : ∀ n ∈ sel.nrName, ∀ t, nameBasis fl' tref lat t n = z n * nameBasis fl tref lat t n) (P M : String → ℂ)
    (mean slope : ℂ)
    (hmin : IsMinNormSol (numCols trend sel') (ts.map (modelRow fl' tref lat lor trend ap' sel')) x
      (nameCoef sel' trend P M mean slope)) (y : List ℂ) (hy : y.length = numCols trend sel) :
    cost (ts.map (modelRow fl tref lat lor trend ap sel)) x
        (nameCoef sel trend (fun n => z n * P n) (fun n => conj (z n) * M n) mean slope) ≤
      cost (ts.map (modelRow fl tref lat lor trend ap sel)) x y := by
  obtain ⟨P', M', mean', slope', -, -, rfl⟩ := exists_nameCoef h hn trend y hy
  rw [nameCoef_undo sel trend z h0 P' M', ← convert_cost S hr h h' fl fl' lat lor trend ap ap' ts x z hz,
    ← convert_cost S hr h h' fl fl' lat lor trend ap ap' ts x z hz]
  exact hmin.optimal _ (nameCoef_blocks h' trend _ _ _ _).length

/-- Turned coefficients are the minimum-norm solution. -/
theorem convert_minNorm {tref : ℝ} {sel sel' : Sel} (S : SameSel sel sel') (hr : sel.refs = [])
    (h : SelAligned tref sel) (h' : SelAligned tref sel') (hn : sel.name.Nodup) (fl fl' : Flags) (lat lor : ℝ)
    (trend ap ap' : Bool) (ts : List ℝ) (x : List ℂ) (z : String → ℂ) (h1 : ∀ n, ‖z n‖ = 1)
    (hz : ∀ n ∈ sel.nrName, ∀ t, nameBasis fl' tref lat t n = z n * nameBasis fl tref lat t n) (P M : String → ℂ)
    (mean slope : ℂ)
    (hmin : IsMinNormSol (numCols trend sel') (ts.map (modelRow fl' tref lat lor trend ap' sel')) x
      (nameCoef sel' trend P M mean slope)) :
    IsMinNormSol (numCols trend sel) (ts.map (modelRow fl tref lat lor trend ap sel)) x
        (nameCoef sel trend (fun n => z n * P n) (fun n => conj (z n) * M n) mean slope) := by
  have h0 : ∀ n, z n ≠ 0 := fun n => norm_ne_zero_iff.1 (by rw [h1]; exact one_ne_zero)
  refine ⟨(nameCoef_blocks h trend _ _ _ _).length,
    convert_optimal S hr h h' hn fl fl' lat lor trend ap ap' ts x z h0 hz P M mean slope hmin, ?_⟩
  intro y hy hc
  obtain ⟨P', M', mean', slope', -, -, rfl⟩ := exists_nameCoef h hn trend y hy
  rw [nameCoef_undo sel trend z h0 P' M'] at hc ⊢
  rw [← convert_cost S hr h h' fl fl' lat lor trend ap ap' ts x z hz,
    ← convert_cost S hr h h' fl fl' lat lor trend ap ap' ts x z hz] at hc
  rw [convert_normSq S hr trend z h1, convert_normSq S hr trend z h1]
  exact hmin.minimal _ (nameCoef_blocks h' trend _ _ _ _).length hc

/-! ## Ellipses -/

theorem norm_ccw (e : Ell) (h : |e.Lsmin| ≤ e.Lsmaj) : ‖ccw e‖ = (e.Lsmaj + e.Lsmin) / 2 := by
  unfold ccw
  rw [norm_mul, norm_cisd, mul_one, Complex.norm_real, Real.norm_eq_abs, abs_of_nonneg (by linarith [(abs_le.1 h).1])]

theorem norm_cw (e : Ell) (h : |e.Lsmin| ≤ e.Lsmaj) : ‖cw e‖ = (e.Lsmaj - e.Lsmin) / 2 := by
  unfold cw
  rw [norm_mul, norm_cisd, mul_one, Complex.norm_real, Real.norm_eq_abs, abs_of_nonneg (by linarith [(abs_le.1 h).2])]

theorem convertedBy_of_rotary (z : ℂ) (hz : z ≠ 0) (e e' : Ell) (h : |e.Lsmin| ≤ e.Lsmaj) (h' : |e'.Lsmin| ≤ e'.Lsmaj)
    (ht : 0 ≤ e.theta ∧ e.theta < 180) (ht' : 0 ≤ e'.theta ∧ e'.theta < 180)
    (hp : ccw e = z * ccw e') (hm : cw e = conj z * cw e') : ConvertedBy z e' e := by
  have n1 := congrArg norm hp
  have n2 := congrArg norm hm
  rw [norm_mul, norm_ccw e h, norm_ccw e' h'] at n1
  rw [norm_mul, RCLike.norm_conj, norm_cw e h, norm_cw e' h'] at n2
  have m1 : e.Lsmaj = ‖z‖ * e'.Lsmaj := by linarith
  have m2 : e.Lsmin = ‖z‖ * e'.Lsmin := by linarith
  have hn : (‖z‖ : ℂ) ≠ 0 := by exact_mod_cast norm_ne_zero_iff.2 hz
  have angles : |e'.Lsmin| < e'.Lsmaj → (‖z‖ : ℂ) * cisd (e.theta - e.g) = z * cisd (e'.theta - e'.g) ∧
      (‖z‖ : ℂ) * cisd (e.theta + e.g) = conj z * cisd (e'.theta + e'.g) := by
    intro hlt
    obtain ⟨l1, l2⟩ := abs_lt.1 hlt
    constructor
    · have : (((e'.Lsmaj + e'.Lsmin) / 2 : ℝ) : ℂ) ≠ 0 := by
        have : (e'.Lsmaj + e'.Lsmin) / 2 ≠ 0 := by linarith
        exact_mod_cast this
      refine mul_left_cancel₀ this ?_
      have h3 := hp
      unfold ccw at h3
      rw [show (e.Lsmaj + e.Lsmin) / 2 = ‖z‖ * ((e'.Lsmaj + e'.Lsmin) / 2) by rw [m1, m2]; ring, Complex.ofReal_mul] at h3
      linear_combination h3
    · have : (((e'.Lsmaj - e'.Lsmin) / 2 : ℝ) : ℂ) ≠ 0 := by
        have : (e'.Lsmaj - e'.Lsmin) / 2 ≠ 0 := by linarith
        exact_mod_cast this
      refine mul_left_cancel₀ this ?_
      have h3 := hm
      unfold cw at h3
      rw [show (e.Lsmaj - e.Lsmin) / 2 = ‖z‖ * ((e'.Lsmaj - e'.Lsmin) / 2) by rw [m1, m2]; ring, Complex.ofReal_mul] at h3
      linear_combination h3
  have theta : |e'.Lsmin| < e'.Lsmaj → e.theta = e'.theta := by
    intro hlt
    obtain ⟨a1, a2⟩ := angles hlt
    have hzz : z * conj z = (‖z‖ : ℂ) * (‖z‖ : ℂ) := by
      rw [Complex.mul_conj, Complex.normSq_eq_norm_sq]; push_cast; ring
    have h3 : cisd (2 * e.theta) = cisd (2 * e'.theta) := by
      rw [show 2 * e.theta = (e.theta - e.g) + (e.theta + e.g) by ring,
        show 2 * e'.theta = (e'.theta - e'.g) + (e'.theta + e'.g) by ring,
        cisd_add (e.theta - e.g), cisd_add (e'.theta - e'.g)]
      refine mul_left_cancel₀ (mul_ne_zero hn hn) ?_
      calc (‖z‖ : ℂ) * ‖z‖ * (cisd (e.theta - e.g) * cisd (e.theta + e.g))
          = (‖z‖ * cisd (e.theta - e.g)) * (‖z‖ * cisd (e.theta + e.g)) := by ring
        _ = (z * conj z) * (cisd (e'.theta - e'.g) * cisd (e'.theta + e'.g)) := by rw [a1, a2]; ring
        _ = _ := by rw [hzz]
    obtain ⟨k, hk⟩ := (cisd_eq_iff _ _).1 h3
    have hk0 : k = 0 := by
      have b1 : (k : ℝ) < 1 := by linarith
      have b2 : (-1 : ℝ) < k := by linarith
      have c1 : k < 1 := by exact_mod_cast b1
      have c2 : -1 < k := by exact_mod_cast b2
      omega
    rw [hk0] at hk
    push_cast at hk
    linarith
  refine ⟨m1, m2, theta, fun hlt => ?_⟩
  obtain ⟨a1, -⟩ := angles hlt
  rw [theta hlt, sub_eq_add_neg, sub_eq_add_neg, cisd_add, cisd_add] at a1
  refine mul_left_cancel₀ (cisd_ne_zero e'.theta) ?_
  linear_combination a1

theorem ell2_minor (a b : ℂ) : |(ell2 a b).Lsmin| ≤ (ell2 a b).Lsmaj := by
  rw [ell2_eq, abs_le]
  dsimp only
  have h1 := norm_nonneg a
  have h2 := norm_nonneg b
  constructor <;> linarith

theorem getOpt_rmin {opts opts' : Dict PyVal} (hnd : opts.keys.Nodup) (hnd' : opts'.keys.Nodup) {is2D : Bool} {q q' : Opt}
    (h : getOpt opts is2D = .ok q) (h' : getOpt opts' is2D = .ok q')
    (g : requested opts "Rayleigh_min" = requested opts' "Rayleigh_min") : q'.rmin = q.rmin := by
  obtain ⟨-, -, -, -, -, -, -, -, -, ray, -, -, -, -, -, -, -, -, -, -, -, -, h9, -, -, -, -, -, -, -, -, -, -, -, -,
      -, -, -, -, -, -, -, r⟩ := getOpt_ok opts hnd is2D q h
  obtain ⟨-, -, -, -, -, -, -, -, -, ray', -, -, -, -, -, -, -, -, -, -, -, -, h9', -, -, -, -, -, -, -, -, -, -, -, -,
      -, -, -, -, -, -, -, r'⟩ := getOpt_ok opts' hnd' is2D q' h'
  rw [requested_eq, requested_eq, h9, h9'] at g
  cases Option.some.inj g
  rcases r with r | ⟨b, r, hb⟩ <;> rcases r' with r' | ⟨b', r', hb'⟩ <;> rw [r] at r'
  · exact (PyVal.num.inj r').symm
  · cases r'
  · cases r'
  · rw [hb, hb', PyVal.bool.inj r']

/-! ## The factors -/

theorem powW_mul_phasor (z : ℂ) (x : ℝ) (n : ℤ) : powW (phasor x * z) n = phasor (n * x) * powW z n := by
  have hc : conj (phasor x) = phasor (-x) := by
    unfold phasor
    rw [← Complex.exp_conj]
    congr 1
    simp [map_ofNat]
  have hp : ∀ (y : ℝ) (k : ℕ), phasor y ^ k = phasor (k * y) := by
    intro y k
    unfold phasor
    rw [← Complex.exp_nat_mul]
    congr 1
    push_cast
    ring
  unfold powW
  split
  · rename_i h
    rw [mul_pow, hp]
    congr 2
    have : ((n.toNat : ℕ) : ℝ) = (n : ℝ) := by
      have h1 : ((n.toNat : ℕ) : ℤ) = n := Int.toNat_of_nonneg h
      exact_mod_cast congrArg (Int.cast : ℤ → ℝ) h1
    rw [this]
  · rename_i h
    rw [map_mul, mul_pow, hc, hp]
    congr 2
    have : (((-n).toNat : ℕ) : ℝ) = -(n : ℝ) := by
      have h1 : (((-n).toNat : ℕ) : ℤ) = -n := Int.toNat_of_nonneg (by omega)
      have := congrArg (Int.cast : ℤ → ℝ) h1
      push_cast at this
      exact_mod_cast this
    rw [this]
    ring

theorem powW_mul (z w : ℂ) (n : ℤ) : powW (z * w) n = powW z n * powW w n := by
  unfold powW
  split
  · rw [mul_pow]
  · rw [map_mul, mul_pow]

theorem phasor_add (x y : ℝ) : phasor (x + y) = phasor x * phasor y := by
  unfold phasor
  rw [← Complex.exp_add]
  congr 1
  push_cast
  ring

theorem phasor_zero : phasor 0 = 1 := by unfold phasor; simp

theorem phasor_ne_zero (x : ℝ) : phasor x ≠ 0 := Complex.exp_ne_zero _

theorem phasor_cisd (x : ℝ) : phasor x = cisd (360 * x) := by
  unfold phasor cisd
  congr 1
  push_cast
  ring

/-- Greenwich phases at the reference time instead of raw ones. -/
theorem textbook_phase (mn : Mode) (tref lat t : ℝ) (k : ℕ) :
    textbook mn .atReference tref lat t k = phasor (greenwich tref k) * textbook mn .off tref lat t k := by
  have line : ∀ j d s, kindOf j = some (.primary d s) → tidalLine mn .atReference tref lat t j =
      phasor (equilibrium d s tref) * tidalLine mn .off tref lat t j := by
    intro j d s hj
    unfold tidalLine argumentAt
    rw [hj]
    dsimp only
    rw [phasor_add]
    ring
  unfold textbook greenwich
  cases hk : kindOf k with
  | none => simp
  | some kd =>
    cases kd with
    | primary d s => exact line _ _ _ hk
    | shallow parts =>
      dsimp only
      have hh := fun q (hq : q ∈ parts) => kindOf_parent hk hq
      clear hk
      induction parts with
      | nil => simp [phasor_zero]
      | cons q parts ih =>
        rw [List.map_cons, List.map_cons, List.map_cons, List.prod_cons, List.prod_cons, List.sum_cons, phasor_add,
          ih fun x hx => hh x (by simp [hx])]
        obtain ⟨d, s, hq⟩ := hh q (by simp)
        rw [line _ _ _ hq, powW_mul_phasor, hq]
        dsimp only
        ring

/-- Nodal corrections at the reference time instead of none. -/
theorem textbook_nodal (mp : Mode) (tref lat t : ℝ) (k : ℕ) :
    textbook .atReference mp tref lat t k = nodalCorrection lat tref k * textbook .off mp tref lat t k := by
  have line : ∀ j d s, kindOf j = some (.primary d s) → tidalLine .atReference mp tref lat t j =
      modulation lat tref j * tidalLine .off mp tref lat t j := by
    intro j d s hj
    unfold tidalLine nodalAt
    rw [hj]
    dsimp only
    rw [one_mul]
  unfold textbook nodalCorrection
  cases hk : kindOf k with
  | none => simp
  | some kd =>
    cases kd with
    | primary d s => exact line _ _ _ hk
    | shallow parts =>
      dsimp only
      have hh := fun q (hq : q ∈ parts) => kindOf_parent hk hq
      clear hk
      induction parts with
      | nil => simp
      | cons q parts ih =>
        rw [List.map_cons, List.map_cons, List.map_cons, List.prod_cons, List.prod_cons, List.prod_cons,
          ih fun x hx => hh x (by simp [hx])]
        obtain ⟨d, s, hq⟩ := hh q (by simp)
        rw [line _ _ _ hq, powW_mul]
        ring

/-! ## Two runs -/

section
variable {E : Env} {t : TimeArg} {u : Series} {v : Option Series} {lat : Option ℝ} {opts opts' : Dict PyVal} {c c' : Coef}

/-- What the two runs share. -/
theorem OtherCorrections.shared (C : OtherCorrections E t u v lat opts opts' c c') (R : Ready E t u v) :
    c'.name.Perm c.name ∧ c'.reftime = c.reftime ∧ c'.lat = c.lat := by
  obtain ⟨opt, p, tn0, constit, m, W, rf, full, o, ind, F⟩ := solve_facts R C.run
  obtain ⟨opt', p', tn1, constit', m', W', rf', full', o', ind', F'⟩ := solve_facts R C.run'
  have hq := getOpt_requests _ C.keys _ _ F.hopt
  have hq' := getOpt_requests _ C.keys' _ _ F'.hopt
  obtain ⟨-, e2, -, e4⟩ := getOpt_fields opts opts' C.keys C.keys' _ _ _ F.hopt F'.hopt
  have e2 := e2 (C.same _ (by decide) (by decide))
  have e4 := e4 (C.same _ (by decide) (by decide))
  have hcon : opt'.cnstit = opt.cnstit := by
    obtain ⟨x, hx⟩ := Option.isSome_iff_exists.1 (hq.some "constit" (by simp))
    rw [hq.constit x hx, hq'.constit x (by rw [← C.same _ (by decide) (by decide)]; exact hx)]
  have hrm : opt'.rmin = opt.rmin := getOpt_rmin C.keys C.keys' F.hopt F'.hopt (C.same _ (by decide) (by decide))
  have hinf : p.infer = none := by
    have h1 := F.prep.hinfer
    have h2 := hq.infer _ C.infer
    have h3 : opt.infer = .none := (Except.ok.inj h2).symm
    rw [h3] at h1
    exact (Except.ok.inj h1).symm
  have hinf' : p'.infer = none := by
    have := F'.prep.hinfer
    rw [e4, F.prep.hinfer] at this
    rw [← hinf]
    exact (Except.ok.inj this).symm
  have htn := F'.prep.init.time
  rw [e2, F.prep.init.time] at htn
  cases Except.ok.inj htn
  have hed : p'.ed = p.ed := Except.ok.inj (F'.prep.init.edit.symm.trans F.prep.init.edit)
  have hlat : p'.lat = p.lat := Option.some.inj (F'.prep.init.hlat.symm.trans F.prep.init.hlat)
  have href : c'.reftime = c.reftime := by rw [F.creftime, F'.creftime, hed]
  have hcl : c'.lat = c.lat := by rw [F.clat, F'.clat, hlat]
  have hcc : constit' = constit := by
    have := F'.prep.cons
    rw [hcon, F.prep.cons] at this
    exact (Except.ok.inj this).symm
  have hsel : p'.sel = p.sel := by
    have := F'.prep.hsel
    rw [hed, hinf', hrm, hcc, ← hinf, F.prep.hsel] at this
    exact (Except.ok.inj this).symm
  have hpn' := F'.perm_names R C.keys' C.kept'
  rw [hsel] at hpn'
  exact ⟨hpn'.trans (F.perm_names R C.keys C.kept).symm, href, hcl⟩

/-- What the coefficients of one become in the other if the harmonics differ by factors. -/
theorem OtherCorrections.converted (C : OtherCorrections E t u v lat opts opts' c c') (R : Ready E t u v)
    (z : String → ℂ) (h0 : ∀ n, z n ≠ 0) (hz : ∀ n ∈ c.name, ∀ τ, harmonic c' n τ = z n * harmonic c n τ)
    (hu : (∀ n, ‖z n‖ = 1) ∨ ∀ tn, normalizeTime E.dt64 t.arr c.opt.epoch = .ok tn →
      Separated c none v.isSome (SampleTime tn u.data (v.map Series.data))) :
    c'.name.Perm c.name ∧ c'.mean = c.mean ∧ c'.reftime = c.reftime ∧ c'.lat = c.lat ∧
    (∀ i j n, c.name[i]? = some n → c'.name[j]? = some n →
      ∃ e e', ellipseAt c.ell i = some e ∧ ellipseAt c'.ell j = some e' ∧ ccw e = z n * ccw e' ∧
        cw e = conj (z n) * cw e' ∧ ConvertedBy (z n) e' e) ∧
    ∀ (E' : Env) (t' : TimeArr) (a : RecArgs), RecArgs.Everything a → reconstruct E' t' c' a = reconstruct E' t' c a := by
  obtain ⟨opt, p, tn0, constit, m, W, rf, full, o, ind, F⟩ := solve_facts R C.run
  obtain ⟨opt', p', tn1, constit', m', W', rf', full', o', ind', F'⟩ := solve_facts R C.run'
  have hq := getOpt_requests _ C.keys _ _ F.hopt
  have hq' := getOpt_requests _ C.keys' _ _ F'.hopt
  obtain ⟨-, e2, e3, e4⟩ := getOpt_fields opts opts' C.keys C.keys' _ _ _ F.hopt F'.hopt
  have e2 := e2 (C.same _ (by decide) (by decide))
  have e3 := e3 (C.same _ (by decide) (by decide))
  have e4 := e4 (C.same _ (by decide) (by decide))
  have hols : opt.method = .ols := by
    obtain ⟨x, hx, hs⟩ := C.ols
    exact hq.ols x hx ((eqStr_iff _ _).2 hs)
  have hols' : opt'.method = .ols := by
    obtain ⟨x, hx, hs⟩ := C.ols
    rw [C.same _ (by decide) (by decide)] at hx
    exact hq'.ols x hx ((eqStr_iff _ _).2 hs)
  have hcon : opt'.cnstit = opt.cnstit := by
    obtain ⟨x, hx⟩ := Option.isSome_iff_exists.1 (hq.some "constit" (by simp))
    rw [hq.constit x hx, hq'.constit x (by rw [← C.same _ (by decide) (by decide)]; exact hx)]
  have hrm : opt'.rmin = opt.rmin := getOpt_rmin C.keys C.keys' F.hopt F'.hopt (C.same _ (by decide) (by decide))
  have hinf : p.infer = none := by
    have h1 := F.prep.hinfer
    have h2 := hq.infer _ C.infer
    have h3 : opt.infer = .none := (Except.ok.inj h2).symm
    rw [h3] at h1
    exact (Except.ok.inj h1).symm
  have hinf' : p'.infer = none := by
    have := F'.prep.hinfer
    rw [e4, F.prep.hinfer] at this
    rw [← hinf]
    exact (Except.ok.inj this).symm
  have htn := F'.prep.init.time
  rw [e2, F.prep.init.time] at htn
  cases Except.ok.inj htn
  have hed : p'.ed = p.ed := Except.ok.inj (F'.prep.init.edit.symm.trans F.prep.init.edit)
  have hlat : p'.lat = p.lat := Option.some.inj (F'.prep.init.hlat.symm.trans F.prep.init.hlat)
  have href : c'.reftime = c.reftime := by rw [F.creftime, F'.creftime, hed]
  have hcl : c'.lat = c.lat := by rw [F.clat, F'.clat, hlat]
  have hcc : constit' = constit := by
    have := F'.prep.cons
    rw [hcon, F.prep.cons] at this
    exact (Except.ok.inj this).symm
  have hsel : p'.sel = p.sel := by
    have := F'.prep.hsel
    rw [hed, hinf', hrm, hcc, ← hinf, F.prep.hsel] at this
    exact (Except.ok.inj this).symm
  have hrefs : p.sel.refs = [] := by
    have := F.prep.hsel
    rw [hinf] at this
    exact (cnstitsel_none _ _ _ _ this).2.2.1
  have S : SameSel p.sel p.sel := ⟨List.Perm.refl _, rfl⟩
  have hal := F.prep.aligned
  have hpn := F.perm_names R C.keys C.kept
  have hpn' := F'.perm_names R C.keys' C.kept'
  rw [hsel] at hpn'
  have hp : c'.name.Perm c.name := hpn'.trans hpn.symm
  have hn1 : p.sel.name.Nodup := hpn.nodup_iff.1 C.names
  obtain ⟨P, M, mean, slope, hP, hM, hs, hmc⟩ := F'.exists_coef (by rw [hsel]; exact hn1) m' F'.mlen
  obtain ⟨r1, r2⟩ := F'.read C.keys' P M mean slope hP hM hmc
  have hmin := F'.minNorm R hols'
  rw [F'.prep.nm, F'.prep.B, hmc, hed, hlat, hsel, e3] at hmin
  have hzb : ∀ n ∈ p.sel.nrName, ∀ t, nameBasis opt'.flags p.ed.tref p.lat t n =
      z n * nameBasis opt.flags p.ed.tref p.lat t n := by
    intro n hn τ
    have := hz n (hpn.mem_iff.2 (by rw [hal.names]; simp [hn])) τ
    rw [F.harmonic_eq, F'.harmonic_eq, hed, hlat] at this
    exact this
  have hmin0 := F.minNorm R hols
  have hheight := F.prep.height R.ht R.hu R.hv
  have hm0 : m = nameCoef p.sel (!opt.notrend) (fun n => z n * P n) (fun n => conj (z n) * M n) mean
      (slope * (p.ed.lor : ℂ)) := by
    rcases hu with hu | hsep
    · have := convert_minNorm S hrefs hal hal hn1 opt.flags _ _ _ _ (approxOf p.infer) _ _ _ z hu hzb _ _ _ _ hmin
      rw [F.prep.nm, F.prep.B] at hmin0
      rw [F.prep.B] at hheight
      exact IsMinNormSol.unique hheight hmin0 this
    · have := convert_optimal S hrefs hal hal hn1 opt.flags _ _ _ _ (approxOf p.infer) _ _ _ z h0 hzb _ _ _ _ hmin
      have hs1 := hsep tn0 (by rw [F.copt]; exact F.prep.init.time)
      refine optimal_unique p.nm p.B (xraw p.ed) _ _ hheight
        (F.indep R C.keys C.kept (by rw [hinf]; rfl) (by rw [hinf]; exact hs1))
        hmin0.length ?_ hmin0.optimal ?_
      · rw [F.prep.nm]; exact (nameCoef_blocks hal _ _ _ _ _).length
      · rw [F.prep.nm, F.prep.B]; exact this
  have hP' : TiedBy p.sel InfCon.Rp fun n => z n * P n := fun r hr => by rw [hrefs] at hr; simp at hr
  have hM' : TiedBy p.sel InfCon.Rm fun n => conj (z n) * M n := fun r hr => by rw [hrefs] at hr; simp at hr
  obtain ⟨r3, r4⟩ := F.read C.keys _ _ mean slope hP' hM' hm0
  have hmean : c'.mean = c.mean := by rw [r2, r4, e3]
  have hlev : ∀ τ, level c' τ = level c τ := by
    intro τ
    unfold level
    rw [hmean, href]
  have hell : ∀ (i j : ℕ) (n : String), c.name[i]? = some n → c'.name[j]? = some n →
      ∃ e e', ellipseAt c.ell i = some e ∧ ellipseAt c'.ell j = some e' ∧ ccw e = z n * ccw e' ∧
        cw e = conj (z n) * cw e' ∧ ConvertedBy (z n) e' e := by
    intro i j n hi hj
    refine ⟨_, _, by rw [r3, ellipseAt_map, hi]; rfl, by rw [r1, ellipseAt_map, hj]; rfl, ?_⟩
    cases v.isSome with
    | true =>
      simp only [if_true]
      have g1 : ccw (ell2 (z n * P n) (conj (z n) * M n)) = z n * ccw (ell2 (P n) (M n)) := by rw [ccw_ell2, ccw_ell2]
      have g2 : cw (ell2 (z n * P n) (conj (z n) * M n)) = conj (z n) * cw (ell2 (P n) (M n)) := by
        rw [cw_ell2, cw_ell2]
      refine ⟨g1, g2, convertedBy_of_rotary _ (h0 n) _ _ ?_ ?_ ?_ ?_ g1 g2⟩
      · exact ell2_minor _ _
      · exact ell2_minor _ _
      · rw [ell2_eq]; exact ⟨pymod_nonneg _ (by norm_num), pymod_lt _ (by norm_num)⟩
      · rw [ell2_eq]; exact ⟨pymod_nonneg _ (by norm_num), pymod_lt _ (by norm_num)⟩
    | false =>
      simp only [Bool.false_eq_true, if_false]
      have g1 : ccw (ell1 (z n * P n) (conj (z n) * M n)) = z n * ccw (ell1 (P n) (M n)) := by
        rw [ccw_ell1, ccw_ell1, map_mul, Complex.conj_conj]; ring
      have g2 : cw (ell1 (z n * P n) (conj (z n) * M n)) = conj (z n) * cw (ell1 (P n) (M n)) := by
        rw [cw_ell1, cw_ell1, ← map_mul, map_mul (starRingEnd ℂ) (conj (z n)), Complex.conj_conj]; congr 1; ring
      refine ⟨g1, g2, convertedBy_of_rotary _ (h0 n) _ _ ?_ ?_ ?_ ?_ g1 g2⟩
      all_goals simp [ell1_eq]
  refine ⟨hp, hmean, href, hcl, hell, ?_⟩
  intro E' t' a ha
  obtain ⟨A, B, -, -, -, -, -, hAB, -⟩ := F'.components R C.keys' C.kept' (hp.nodup_iff.2 C.names)
  rw [predicted R C.keys' C.run' C.kept' A B hAB a ha E' t', predicted R C.keys C.run C.kept (fun n => z n * A n)
    (fun n => conj (z n) * B n) (by
      intro i n hi
      obtain ⟨j, hj⟩ := List.mem_iff_getElem?.1 (hp.mem_iff.2 (List.mem_of_getElem? hi))
      obtain ⟨e', g1, g2, g3⟩ := hAB j n hj
      obtain ⟨e, e'', k1, k2, k3, k4, -⟩ := hell i j n hi hj
      cases Option.some.inj (k2.symm.trans g1)
      exact ⟨e, k1, by rw [k3, g2], by rw [k4, g3]⟩) a ha E' t']
  congr 1
  funext tn
  refine List.map_congr_left fun x _ => ?_
  congr 1
  funext τ
  rw [hlev, (hp.map _).sum_eq]
  congr 2
  refine List.map_congr_left fun n hn => ?_
  rw [hz n hn, map_mul]
  ring

theorem textbook_convert (mn mp mn' mp' : Mode) (tref lat t : ℝ) (k : ℕ)
    (hpp : mp = mp' ∨ (mp ≠ .exact ∧ mp' ≠ .exact))
    (hnn : mn = mn' ∨ (mn ≠ .exact ∧ mn' ≠ .exact ∧ nodalCorrection lat tref k ≠ 0)) :
    textbook mn' mp' tref lat t k = conversion mn mp mn' mp' lat tref k * textbook mn mp tref lat t k := by
  have h1 : ∀ m, textbook m mp' tref lat t k =
      phasor (argumentIn mp' tref k - argumentIn mp tref k) * textbook m mp tref lat t k := by
    intro m
    rcases hpp with rfl | ⟨a, b⟩
    · rw [sub_self, phasor_zero, one_mul]
    · cases mp <;> cases mp' <;> simp only [ne_eq, reduceCtorEq, not_true_eq_false, not_false_eq_true] at a b <;>
        simp only [argumentIn, sub_self, phasor_zero, one_mul, sub_zero, zero_sub]
      · exact textbook_phase m tref lat t k
      · rw [textbook_phase m tref lat t k, ← mul_assoc, ← phasor_add, neg_add_cancel, phasor_zero, one_mul]
  have h2 : textbook mn' mp tref lat t k =
      (if mn = mn' then 1 else nodalIn mn' lat tref k / nodalIn mn lat tref k) * textbook mn mp tref lat t k := by
    rcases hnn with rfl | ⟨a, b, h⟩
    · rw [if_pos rfl, one_mul]
    · cases mn <;> cases mn' <;> simp only [ne_eq, reduceCtorEq, not_true_eq_false, not_false_eq_true] at a b <;>
        simp only [nodalIn, if_true, if_false, one_mul, div_one, reduceCtorEq]
      · exact textbook_nodal mp tref lat t k
      · rw [textbook_nodal mp tref lat t k, ← mul_assoc, one_div_mul_cancel h, one_mul]
  rw [h1, h2]
  unfold conversion
  ring

theorem conversion_ne_zero (mn mp mn' mp' : Mode) (tref lat : ℝ) (k : ℕ)
    (hnn : mn = mn' ∨ nodalCorrection lat tref k ≠ 0) : conversion mn mp mn' mp' lat tref k ≠ 0 := by
  have h : ∀ m, nodalCorrection lat tref k ≠ 0 → nodalIn m lat tref k ≠ 0 := by
    intro m hm
    cases m <;> simp [nodalIn, hm]
  unfold conversion
  refine mul_ne_zero ?_ (phasor_ne_zero _)
  rcases hnn with rfl | hne
  · rw [if_pos rfl]; exact one_ne_zero
  · split
    · exact one_ne_zero
    · exact div_ne_zero (h _ hne) (h _ hne)

/-- **C119.** Analyses of the same record that differ in the correction modes only (each either the same in both, or
none in one and at the reference time in the other) describe the same tide: same mean, trend and reference time, same
prediction at every time; the axes of every constituent are multiplied by a factor known in advance, the inclination is
the same, the phase is shifted by an angle known in advance. (If the nodal mode differs, the record must determine the
coefficients.) -/
theorem C119_modes (C : OtherCorrections E t u v lat opts opts' c c') (R : Ready E t u v) (hM : "M7" ∉ c.name)
    (mn mp mn' mp' : Mode) (hn : (requested opts "nodal").bind nodalMode = some mn)
    (hp : (requested opts "phase").bind phaseMode = some mp) (hn' : (requested opts' "nodal").bind nodalMode = some mn')
    (hp' : (requested opts' "phase").bind phaseMode = some mp') (hlat : c.lat ≠ 0 ∨ (mn = .off ∧ mn' = .off))
    (hpp : mp = mp' ∨ (mp ≠ .exact ∧ mp' ≠ .exact))
    (hnn : mn = mn' ∨ (mn ≠ .exact ∧ mn' ≠ .exact ∧ (∀ n ∈ c.name, nodalCorrection c.lat c.reftime (constitNames.idxOf n) ≠ 0) ∧
      ∀ tn, normalizeTime E.dt64 t.arr c.opt.epoch = .ok tn →
        Separated c none v.isSome (SampleTime tn u.data (v.map Series.data)))) :
    c'.name.Perm c.name ∧ c'.mean = c.mean ∧ c'.reftime = c.reftime ∧
    (∀ i j n, c.name[i]? = some n → c'.name[j]? = some n →
      ∃ e e', ellipseAt c.ell i = some e ∧ ellipseAt c'.ell j = some e' ∧
        ConvertedBy (conversion mn mp mn' mp' c.lat c.reftime (constitNames.idxOf n)) e' e) ∧
    ∀ (E' : Env) (t' : TimeArr) (a : RecArgs), RecArgs.Everything a → reconstruct E' t' c' a = reconstruct E' t' c a := by
  obtain ⟨s1, s2, s3⟩ := C.shared R
  have hne : ∀ n ∈ c.name, conversion mn mp mn' mp' c.lat c.reftime (constitNames.idxOf n) ≠ 0 := fun n hn =>
    conversion_ne_zero _ _ _ _ _ _ _ (hnn.imp id fun h => h.2.2.1 n hn)
  obtain ⟨k1, k2, k3, -, k5, k6⟩ := C.converted R
    (fun n => if n ∈ c.name then conversion mn mp mn' mp' c.lat c.reftime (constitNames.idxOf n) else 1) (by
      intro n
      split
      · rename_i hn
        exact hne n hn
      · exact one_ne_zero) (by
      intro n hmem τ
      rw [if_pos hmem]
      obtain ⟨i, hi⟩ := List.mem_iff_getElem?.1 hmem
      obtain ⟨j, hj⟩ := List.mem_iff_getElem?.1 (s1.mem_iff.2 hmem)
      have h7 : n ≠ "M7" := fun e => hM (e ▸ hmem)
      rw [(C20_harmonics E t u v lat opts C.keys c C.run mn mp hn hp (hlat.imp id And.left) i n hi h7 τ).1,
        (C20_harmonics E t u v lat opts' C.keys' c' C.run' mn' mp' hn' hp' (by
          rw [s3]; exact hlat.imp id And.right) j n hj h7 τ).1, s2, s3]
      exact textbook_convert mn mp mn' mp' _ _ _ _ hpp (hnn.imp id fun h => ⟨h.1, h.2.1, h.2.2.1 n hmem⟩)) (by
      rcases hnn with rfl | h
      · left
        intro n
        split
        · unfold conversion
          rw [if_pos rfl, one_mul, norm_phasor]
        · exact norm_one
      · exact .inr h.2.2.2)
  refine ⟨k1, k2, k3, ?_, k6⟩
  intro i j n hi hj
  obtain ⟨e, e', g1, g2, -, -, g3⟩ := k5 i j n hi hj
  rw [if_pos (List.mem_of_getElem? hi)] at g3
  exact ⟨e, e', g1, g2, g3⟩

/-- **C119** for the option `phase`: the same axes and inclination whether the phases are raw (counted from the middle of
the record) or Greenwich phases at the reference time; the latter are larger by the Greenwich argument of the
constituent at the reference time. For every nodal mode and also if the record does not determine the coefficients. -/
theorem C119_phase (C : OtherCorrections E t u v lat opts opts' c c') (R : Ready E t u v) (hM : "M7" ∉ c.name)
    (mn : Mode) (hn : (requested opts "nodal").bind nodalMode = some mn)
    (hn' : requested opts' "nodal" = requested opts "nodal") (hlat : c.lat ≠ 0 ∨ mn = .off)
    (hp : (requested opts "phase").bind phaseMode = some .off)
    (hp' : (requested opts' "phase").bind phaseMode = some .atReference) :
    c'.mean = c.mean ∧
    (∀ i j n, c.name[i]? = some n → c'.name[j]? = some n →
      ∃ e e', ellipseAt c.ell i = some e ∧ ellipseAt c'.ell j = some e' ∧ e'.Lsmaj = e.Lsmaj ∧ e'.Lsmin = e.Lsmin ∧
        (|e.Lsmin| < e.Lsmaj → e'.theta = e.theta ∧
          ∃ k : ℤ, e'.g = e.g + 360 * greenwich c.reftime (constitNames.idxOf n) + 360 * k)) ∧
    ∀ (E' : Env) (t' : TimeArr) (a : RecArgs), RecArgs.Everything a → reconstruct E' t' c' a = reconstruct E' t' c a := by
  obtain ⟨-, k2, -, k4, k5⟩ := C119_modes C R hM mn .off mn .atReference hn hp (by rw [hn']; exact hn) hp'
    (hlat.imp id fun h => ⟨h, h⟩) (.inr ⟨by decide, by decide⟩) (.inl rfl)
  refine ⟨k2, ?_, k5⟩
  intro i j n hi hj
  obtain ⟨e, e', g1, g2, g3⟩ := k4 i j n hi hj
  have hc : conversion mn .off mn .atReference c.lat c.reftime (constitNames.idxOf n) =
      phasor (greenwich c.reftime (constitNames.idxOf n)) := by
    unfold conversion argumentIn
    rw [if_pos rfl, one_mul, sub_zero]
  rw [hc] at g3
  have m1 := g3.major
  have m2 := g3.minor
  rw [norm_phasor, one_mul] at m1 m2
  refine ⟨e, e', g1, g2, m1.symm, m2.symm, fun hlt => ?_⟩
  rw [m1, m2] at hlt
  refine ⟨(g3.theta hlt).symm, ?_⟩
  have h3 := g3.phase hlt
  rw [norm_phasor, Complex.ofReal_one, one_mul, phasor_cisd, ← cisd_add] at h3
  obtain ⟨k, hk⟩ := (cisd_eq_iff _ _).1 h3
  exact ⟨k, by linarith⟩

/-- **C119** for the option `nodal`: with nodal corrections at the reference time the axes are those of the uncorrected
analysis divided by the nodal factor of the constituent, the inclination is the same, the phase is larger by the nodal
angle. -/
theorem C119_nodal (C : OtherCorrections E t u v lat opts opts' c c') (R : Ready E t u v) (hM : "M7" ∉ c.name)
    (mp : Mode) (hp : (requested opts "phase").bind phaseMode = some mp)
    (hp' : requested opts' "phase" = requested opts "phase") (hlat : c.lat ≠ 0)
    (hn : (requested opts "nodal").bind nodalMode = some .off)
    (hn' : (requested opts' "nodal").bind nodalMode = some .atReference)
    (hne : ∀ n ∈ c.name, nodalCorrection c.lat c.reftime (constitNames.idxOf n) ≠ 0)
    (hsep : ∀ tn, normalizeTime E.dt64 t.arr c.opt.epoch = .ok tn →
        Separated c none v.isSome (SampleTime tn u.data (v.map Series.data))) :
    c'.mean = c.mean ∧
    (∀ i j n, c.name[i]? = some n → c'.name[j]? = some n → ∀ f : ℂ, f = nodalCorrection c.lat c.reftime (constitNames.idxOf n) →
      ∃ e e', ellipseAt c.ell i = some e ∧ ellipseAt c'.ell j = some e' ∧ e'.Lsmaj = e.Lsmaj / ‖f‖ ∧
        e'.Lsmin = e.Lsmin / ‖f‖ ∧ (|e.Lsmin| < e.Lsmaj → e'.theta = e.theta ∧
          ∃ k : ℤ, e'.g = e.g + f.arg * 180 / Real.pi + 360 * k)) ∧
    ∀ (E' : Env) (t' : TimeArr) (a : RecArgs), RecArgs.Everything a → reconstruct E' t' c' a = reconstruct E' t' c a := by
  obtain ⟨-, k2, -, k4, k5⟩ := C119_modes C R hM .off mp .atReference mp hn hp hn' (by rw [hp']; exact hp)
    (.inl hlat) (.inl rfl) (.inr ⟨by decide, by decide, hne, hsep⟩)
  refine ⟨k2, ?_, k5⟩
  intro i j n hi hj f hf
  obtain ⟨e, e', g1, g2, g3⟩ := k4 i j n hi hj
  have h0 : f ≠ 0 := by rw [hf]; exact hne n (List.mem_of_getElem? hi)
  have hc : conversion .off mp .atReference mp c.lat c.reftime (constitNames.idxOf n) = f := by
    unfold conversion nodalIn
    rw [if_neg (by decide), sub_self, phasor_zero, mul_one, hf, div_one]
  rw [hc] at g3
  have hpos : 0 < ‖f‖ := norm_pos_iff.2 h0
  have m1 := g3.major
  have m2 := g3.minor
  refine ⟨e, e', g1, g2, by rw [m1]; field_simp, by rw [m2]; field_simp, fun hlt => ?_⟩
  rw [m1, m2, abs_mul, abs_of_pos hpos] at hlt
  have hlt := lt_of_mul_lt_mul_left hlt hpos.le
  refine ⟨(g3.theta hlt).symm, ?_⟩
  have h3 := g3.phase hlt
  have hf2 := norm_mul_cisd_angle f
  rw [← hf2, mul_assoc, ← cisd_add, hf2] at h3
  obtain ⟨k, hk⟩ := (cisd_eq_iff _ _).1 (mul_left_cancel₀ (by exact_mod_cast hpos.ne') h3)
  refine ⟨k, ?_⟩
  have : angleDeg f = f.arg * 180 / Real.pi := by unfold angleDeg; ring
  linarith

end

/-! ## Examples -/

/-- M2 from one day, without trend and intervals, with any correction modes. -/
def modeOpts (no ph : PyVal) : Dict PyVal :=
  [("constit", .seq .list [.str "M2"]), ("conf_int", .str "none"), ("trend", .bool false), ("nodal", no),
   ("phase", ph), ("order_constit", .str "frequency"), ("epoch", .str "python")]

theorem mode_run (no ph : PyVal) (hn : (nodalMode no).isSome = true) (hp : (phaseMode ph).isSome = true) (a b d : ℝ) :
    ∃ c, solve idealEnv dayT (daySeries a b d) none (some 45) (modeOpts no ph) = .ok c ∧ c.name = ["M2"] ∧ AllKept c ∧
      c.lat = 45 ∧ c.opt.epoch = .str "python" := by
  obtain ⟨mn, hn⟩ := Option.isSome_iff_exists.1 hn
  obtain ⟨mp, hp⟩ := Option.isSome_iff_exists.1 hp
  have R := day_ready a b d none (.inl rfl)
  have D : Documented (modeOpts no ph) :=
    { nodup := show ["constit", "conf_int", "trend", "nodal", "phase", "order_constit", "epoch"].Nodup by decide
      names := show ∀ k ∈ ["constit", "conf_int", "trend", "nodal", "phase", "order_constit", "epoch"], _ by decide
      conf := ⟨"none", rfl, by decide⟩
      nodal := ⟨_, mn, rfl, hn⟩
      phase := ⟨_, mp, rfl, hp⟩
      method := ⟨_, rfl⟩
      robust := ⟨_, _, rfl⟩
      trend := ⟨_, rfl⟩
      white := ⟨_, rfl⟩
      verbose := ⟨_, rfl⟩
      rayleigh := ⟨_, rfl⟩
      infer := rfl
      order := .inr (.inr (.inl rfl)) }
  obtain ⟨c, hc⟩ := C75_returns idealEnv dayT (daySeries a b d) none 45 (modeOpts no ph)
    { options := D
      ols := rfl
      noConf := rfl
      order := .inr (.inr rfl)
      constit := .inr ⟨.list, ["M2"], by simp, by simp, rfl, by simpa using M2_known⟩
      shapes := ⟨rfl, rfl, by simp⟩
      ht := R.ht
      hu := R.hu
      hv := R.hv
      times := ⟨_, _, rfl, day_times, day_usable_ne a b d⟩
      latitude := .inl ⟨by norm_num, by norm_num, by norm_num⟩
      length := fun h => absurd (Option.some.inj (show some (PyVal.bool false) = some (.bool true) from h)) (by simp) }
  have hname := (C17_honoured idealEnv dayT _ none (some 45) (modeOpts no ph) R D.nodup .list (by simp) ["M2"] rfl rfl
    (.str "frequency") rfl c hc).1 (.inr ⟨_, rfl⟩)
  obtain ⟨opt, p, tn, constit, m, W, rf, full, o, ind, F⟩ := solve_facts R hc
  have hq := getOpt_requests _ D.nodup _ _ F.hopt
  refine ⟨c, hc, List.perm_singleton.1 hname, ?_, ?_, ?_⟩
  · left; right; left; left
    rw [F.copt]
    exact (Except.ok.inj (hq.order _ rfl)).symm
  · rw [F.clat]; exact (Option.some.inj F.prep.init.hlat).symm
  · rw [F.copt]; exact hq.epoch _ rfl

theorem mode_other (no ph no' ph' : PyVal) (hn : (nodalMode no).isSome = true) (hp : (phaseMode ph).isSome = true)
    (hn' : (nodalMode no').isSome = true) (hp' : (phaseMode ph').isSome = true) (a b d : ℝ) :
    ∃ c c', OtherCorrections idealEnv dayT (daySeries a b d) none (some 45) (modeOpts no ph) (modeOpts no' ph') c c' ∧
      c.name = ["M2"] ∧ c'.name = ["M2"] ∧ c.lat = 45 ∧ c.opt.epoch = .str "python" := by
  obtain ⟨c, h1, h2, h3, h4, h5⟩ := mode_run no ph hn hp a b d
  obtain ⟨c', h1', h2', h3', h4', h5'⟩ := mode_run no' ph' hn' hp' a b d
  refine ⟨c, c', ⟨show ["constit", "conf_int", "trend", "nodal", "phase", "order_constit", "epoch"].Nodup by decide,
    show ["constit", "conf_int", "trend", "nodal", "phase", "order_constit", "epoch"].Nodup by decide, ?_, ⟨_, rfl, .inl rfl⟩, rfl,
    h1, h1', h3, h3', by rw [h2]; simp⟩, h2, h2', h4, h5⟩
  intro k hk1 hk2
  have e1 : ("nodal" == k) = false := by simpa using fun h => hk1 h.symm
  have e2 : ("phase" == k) = false := by simpa using fun h => hk2 h.symm
  unfold requested modeOpts
  simp only [List.find?_cons, e1, e2]

/-- Three values: raw and Greenwich phases at the reference time, with exact nodal corrections in both. The phases
differ by the equilibrium argument of M2. -/
example : ∃ c c' e e', solve idealEnv dayT (daySeries 1 5 3) none (some 45) (modeOpts (.bool true) (.str "raw")) = .ok c ∧
    solve idealEnv dayT (daySeries 1 5 3) none (some 45) (modeOpts (.bool true) (.str "linear_time")) = .ok c' ∧
    ellipseAt c.ell 0 = some e ∧ ellipseAt c'.ell 0 = some e' ∧ e'.Lsmaj = e.Lsmaj ∧ (|e.Lsmin| < e.Lsmaj →
      ∃ k : ℤ, e'.g = e.g + 360 * greenwich c.reftime (constitNames.idxOf "M2") + 360 * k) := by
  obtain ⟨c, c', C, n1, n2, hl, -⟩ := mode_other (.bool true) (.str "raw") (.bool true) (.str "linear_time") rfl rfl rfl rfl
    1 5 3
  obtain ⟨-, h2, -⟩ := C119_phase C (day_ready 1 5 3 none (.inl rfl)) (by rw [n1]; decide) .exact rfl rfl
    (.inl (by rw [hl]; norm_num)) rfl rfl
  obtain ⟨e, e', g1, g2, g3, -, g5⟩ := h2 0 0 "M2" (by rw [n1]; rfl) (by rw [n2]; rfl)
  exact ⟨c, c', e, e', C.run, C.run', g1, g2, g3, fun h => (g5 h).2⟩

/-- Three values: the amplitude of M2 with nodal corrections at the reference time is that without them, divided by the
nodal factor; the predictions agree. -/
example : ∃ c c' e e', solve idealEnv dayT (daySeries 1 5 3) none (some 45) (modeOpts (.bool false) (.str "raw")) = .ok c ∧
    solve idealEnv dayT (daySeries 1 5 3) none (some 45) (modeOpts (.str "linear_time") (.str "raw")) = .ok c' ∧
    ellipseAt c.ell 0 = some e ∧ ellipseAt c'.ell 0 = some e' ∧
    e'.Lsmaj = e.Lsmaj / ‖nodalCorrection 45 c.reftime (constitNames.idxOf "M2")‖ ∧
    reconstruct idealEnv dayT.arr c' recAll = reconstruct idealEnv dayT.arr c recAll := by
  obtain ⟨c, c', C, n1, n2, hl, hep⟩ := mode_other (.bool false) (.str "raw") (.str "linear_time") (.str "raw") rfl rfl rfl rfl
    1 5 3
  have R := day_ready 1 5 3 none (.inl rfl)
  obtain ⟨co, hco, D⟩ := day_run 1 5 3 none (.inl rfl)
  have hcc : co = c := Except.ok.inj (hco.symm.trans C.run)
  subst hcc
  obtain ⟨s0, s5, s1⟩ := day_sampleTime 1 5 3
  have hM2 : nameAt (constitNames.idxOf "M2") = "M2" := by decide +kernel
  obtain ⟨-, h2, h3⟩ := C119_nodal C R (by rw [n1]; decide) .off rfl rfl (by rw [hl]; norm_num) rfl rfl (by
      intro n hn
      rw [n1, List.mem_singleton] at hn
      subst hn
      intro h0
      have h1 := utE_steady_ne ⟨true, false, false, true⟩ co.reftime co.lat co.reftime
        (linFreqs co.reftime (constitNames.idxOf "M2")) (constitNames.idxOf "M2")
        (.inr ⟨by rw [hl]; exact ⟨by norm_num, by norm_num, by norm_num⟩, by decide +kernel, by rw [hM2]; decide⟩)
      rw [C73_basis_function ⟨true, false, false, true⟩ .atReference .off rfl rfl _ _ _ (.inl (by rw [hl]; norm_num)) _
        (by decide +kernel) (by decide +kernel), textbook_nodal, h0, zero_mul] at h1
      exact h1 rfl) (by
      intro tn htn
      rw [hep, day_times] at htn
      cases Except.ok.inj htn
      exact day_separated D _ _ s0 s5 s1)
  obtain ⟨e, e', g1, g2, g3, -⟩ := h2 0 0 "M2" (by rw [n1]; rfl) (by rw [n2]; rfl) _ rfl
  exact ⟨co, c', e, e', C.run, C.run', g1, g2, by rw [← hl]; exact g3, h3 _ _ _ ⟨rfl, rfl, rfl⟩⟩

end

end UTide.Props
