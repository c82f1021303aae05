import Verif.Props.InferCiProps

/-!
# A run with inference and intervals whose numbers are known

Eight samples 1.5 hours apart; S2, whose period is exactly 12 hours, and S4 are fitted, S6 is inferred from S2 with
amplitude ratio one and phase offset zero. Raw phases, no nodal corrections, no trend. The data are
`cos(s2) + cos(s4) + cos(s6)` plus a residual of alternating sign that is orthogonal to everything fitted.
-/

namespace UTide.Props

noncomputable section

open Classical

local notation "conj" => starRingEnd ℂ

/-! ## Frequencies -/

theorem kind_S2 : kindOf 56 = some (.primary ⟨2, 2, -2, 0, 0, 0⟩ ⟨0, 0⟩) := by rfl

theorem kind_S4 : kindOf 88 = some (.shallow [(56, ⟨2, 0⟩)]) := by rfl

theorem kind_S6 : kindOf 114 = some (.shallow [(56, ⟨3, 0⟩)]) := by rfl

theorem freq_S2 (tref : ℝ) : linFreqs tref 56 = 1 / 12 := by
  rw [linFreqs_primary tref kind_S2]
  unfold Doodson.dot ader
  norm_num
  ring

theorem freq_S4 (tref : ℝ) : linFreqs tref 88 = 1 / 6 := by
  rw [linFreqs_shallow tref kind_S4]
  simp only [List.map_cons, List.map_nil, List.sum_cons, List.sum_nil, freq_S2]
  simp [Dy.toReal]
  norm_num

theorem freq_S6 (tref : ℝ) : linFreqs tref 114 = 1 / 4 := by
  rw [linFreqs_shallow tref kind_S6]
  simp only [List.map_cons, List.map_nil, List.sum_cons, List.sum_nil, freq_S2]
  simp [Dy.toReal]
  norm_num

/-! ## Values of the basis functions -/

/-- Cosine and sine of an eighth of π, and of a quarter. -/
def oC : ℝ := Real.cos (Real.pi / 8)
def oS : ℝ := Real.sin (Real.pi / 8)
def oK : ℝ := Real.cos (Real.pi / 4)

theorem oCS : oC ^ 2 + oS ^ 2 = 1 := Real.cos_sq_add_sin_sq _

theorem oK_sq : oK ^ 2 = 1 / 2 := by
  unfold oK
  rw [Real.cos_pi_div_four, div_pow, Real.sq_sqrt (by norm_num)]; norm_num

theorem oK_eq1 : oC ^ 2 - oS ^ 2 = oK := by
  unfold oC oS oK
  rw [show Real.pi / 4 = 2 * (Real.pi / 8) by ring, Real.cos_two_mul']

theorem oK_eq2 : 2 * oC * oS = oK := by
  unfold oC oS oK
  rw [Real.cos_pi_div_four, ← Real.sin_pi_div_four, show Real.pi / 4 = 2 * (Real.pi / 8) by ring, Real.sin_two_mul]
  ring

/-- The unit circle at `k` eighths of a half turn. -/
def octTurn (x : ℝ) : ℂ := Complex.exp (((Real.pi / 8 * x : ℝ) : ℂ) * Complex.I)

theorem octTurn_eq (x : ℝ) : octTurn x = ⟨Real.cos (Real.pi / 8 * x), Real.sin (Real.pi / 8 * x)⟩ := by
  apply Complex.ext
  · exact Complex.exp_ofReal_mul_I_re _
  · exact Complex.exp_ofReal_mul_I_im _

theorem octTurn_add (x y : ℝ) : octTurn (x + y) = octTurn x * octTurn y := by
  unfold octTurn
  rw [← Complex.exp_add]; congr 1; push_cast; ring

theorem octTurn_four : octTurn 4 = Complex.I := by
  rw [octTurn_eq, show Real.pi / 8 * 4 = Real.pi / 2 by ring, Real.cos_pi_div_two, Real.sin_pi_div_two]
  rfl

theorem octTurn_one : octTurn 1 = ⟨oC, oS⟩ := by rw [octTurn_eq, mul_one]; rfl

theorem octTurn_neg (x : ℝ) : octTurn (-x) = conj (octTurn x) := by
  rw [octTurn_eq, octTurn_eq, mul_neg, Real.cos_neg, Real.sin_neg]; rfl

theorem octTurn_mul (n : ℕ) (x : ℝ) : octTurn (n * x) = octTurn x ^ n := by
  unfold octTurn
  rw [← Complex.exp_nat_mul]; congr 1; push_cast; ring

theorem octTurn_step (x : ℝ) : octTurn (x + 4) = ⟨-(octTurn x).im, (octTurn x).re⟩ := by
  rw [octTurn_add, octTurn_four]
  apply Complex.ext <;> simp

theorem octTurn_three : octTurn 3 = ⟨oS, oC⟩ := by
  rw [show (3 : ℝ) = -1 + 4 by norm_num, octTurn_step, octTurn_neg, octTurn_one]
  apply Complex.ext <;> simp

theorem octTurn_five : octTurn 5 = ⟨-oS, oC⟩ := by
  rw [show (5 : ℝ) = 1 + 4 by norm_num, octTurn_step, octTurn_one]

theorem octTurn_seven : octTurn 7 = ⟨-oC, oS⟩ := by
  rw [show (7 : ℝ) = 3 + 4 by norm_num, octTurn_step, octTurn_three]

theorem octTurn_two : octTurn 2 = ⟨oK, oK⟩ := by
  rw [octTurn_eq, show Real.pi / 8 * 2 = Real.pi / 4 by ring, Real.sin_pi_div_four, ← Real.cos_pi_div_four]; rfl

theorem octTurn_six : octTurn 6 = ⟨-oK, oK⟩ := by
  rw [show (6 : ℝ) = 2 + 4 by norm_num, octTurn_step, octTurn_two]

theorem octTurn_ten : octTurn 10 = ⟨-oK, -oK⟩ := by
  rw [show (10 : ℝ) = 6 + 4 by norm_num, octTurn_step, octTurn_six]

theorem octTurn_fourteen : octTurn 14 = ⟨oK, -oK⟩ := by
  rw [show (14 : ℝ) = 10 + 4 by norm_num, octTurn_step, octTurn_ten]; simp

theorem octTurn_nine : octTurn 9 = ⟨-oC, -oS⟩ := by
  rw [show (9 : ℝ) = 5 + 4 by norm_num, octTurn_step, octTurn_five]

theorem octTurn_fifteen : octTurn 15 = ⟨oC, -oS⟩ := by
  rw [show (15 : ℝ) = (7 + 4) + 4 by norm_num, octTurn_step, octTurn_step, octTurn_seven]; simp

theorem octTurn_twentyone : octTurn 21 = ⟨-oS, oC⟩ := by
  rw [show (21 : ℝ) = ((9 + 4) + 4) + 4 by norm_num, octTurn_step, octTurn_step, octTurn_step, octTurn_nine]; simp

/-! ## The matrix of the problem -/

/-- Sum and difference of the two. -/
def oA : ℝ := oC + oS
def oB : ℝ := oC - oS

theorem oAB : oA ^ 2 + oB ^ 2 = 2 := by
  unfold oA oB; linear_combination 2 * oCS

/-- Real and imaginary parts of the basis function of S4, and of the sum of those of S2 and S6, at the eight times. -/
def octQ : List (ℝ × ℝ × ℝ × ℝ) :=
  [(oK, oK, -oA, -oA), (-oK, oK, oB, -oB), (-oK, -oK, -oB, -oB), (oK, -oK, oA, -oA), (oK, oK, oA, oA),
   (-oK, oK, -oB, oB), (-oK, -oK, oB, oB), (oK, -oK, -oA, oA)]

def octB : List (List ℂ) :=
  octQ.map fun q => [⟨q.1, q.2.1⟩, ⟨q.1, -q.2.1⟩, ⟨q.2.2.1, q.2.2.2⟩, ⟨q.2.2.1, -q.2.2.2⟩, 1]

/-- The residual. -/
def octR : List ℝ := [1, -1, 1, -1, 1, -1, 1, -1]

/-- The data. -/
def octY : List ℝ := List.zipWith (fun q r => q.1 + q.2.2.1 + r) octQ octR

/-- The coefficients. -/
def octM : List ℂ := [1 / 2, 1 / 2, 1 / 2, 1 / 2, 0]

def octW : List ℝ := List.replicate 8 1

theorem oct_gramC : gram true 5 octB octW = Matrix.diagonal ![8, 8, 16, 16, 8] := by
  have h1 := oAB
  have h2 := oK_sq
  ext i j
  fin_cases i <;> fin_cases j <;>
    simp [gram, octB, octQ, octW, Complex.ext_iff] <;>
    (try constructor) <;> first | ring1 | linear_combination 16 * h2 | linear_combination 8 * h1

theorem oct_gramP : gram false 5 octB octW =
    !![0, 8, 0, 0, 0; 8, 0, 0, 0, 0; 0, 0, 0, 16, 0; 0, 0, 16, 0, 0; 0, 0, 0, 0, 8] := by
  have h1 := oAB
  have h2 := oK_sq
  ext i j
  fin_cases i <;> fin_cases j <;>
    simp [gram, octB, octQ, octW, Complex.ext_iff] <;>
    (try constructor) <;> first | ring1 | linear_combination 16 * h2 | linear_combination 8 * h1

theorem oct_orthogonal (x : List ℂ) (hx : x.length = 5) :
    (List.zipWith (fun r (y : ℂ) => conj (dot r x) * (y - dot r octM)) octB (octY.map fun y : ℝ => (y : ℂ))).sum = 0 := by
  match x, hx with
  | [a, b, c, d, e], _ =>
    simp [octB, octQ, octY, octR, octM, dot, Complex.ext_iff]
    constructor <;> ring

/-- Any inverse that satisfies the contract gives the inverse matrix. -/
theorem inv_given {N : Num} (hI : InvOk N.inv) {n : ℕ} (M M' : Matrix (Fin n) (Fin n) ℂ) (h : M * M' = 1) :
    N.inv n M = some M' := by
  rw [inv_some hI (Matrix.isUnit_det_of_right_inverse h).ne_zero, Matrix.inv_eq_right_inv h]

def octIC : Matrix (Fin 5) (Fin 5) ℂ := Matrix.diagonal ![1 / 8, 1 / 8, 1 / 16, 1 / 16, 1 / 8]

def octIP : Matrix (Fin 5) (Fin 5) ℂ :=
  !![0, 1 / 8, 0, 0, 0; 1 / 8, 0, 0, 0, 0; 0, 0, 0, 1 / 16, 0; 0, 0, 1 / 16, 0, 0; 0, 0, 0, 0, 1 / 8]

theorem oct_invC {N : Num} (hI : InvOk N.inv) : N.inv 5 (gram true 5 octB octW) = some octIC := by
  apply inv_given hI
  rw [oct_gramC, octIC, Matrix.diagonal_mul_diagonal, ← Matrix.diagonal_one]
  congr 1
  funext i
  fin_cases i <;> norm_num

theorem oct_invP {N : Num} (hI : InvOk N.inv) : N.inv 5 (gram false 5 octB octW) = some octIP := by
  apply inv_given hI
  rw [oct_gramP, octIP]
  ext i j
  fin_cases i <;> fin_cases j <;> simp [Matrix.mul_apply, Fin.sum_univ_five]

/-! ## Selection and intervals -/

def octSpec : InferSpec := ⟨["S6"], ["S2"], [1], [0], false⟩

def octInf (tref : ℝ) : InfCon :=
  { name := "S6", lind := 114, frq := linFreqs tref 114,
    Rp := ((1 : ℚ) : ℂ) * Complex.exp (Complex.I * ((0 : ℚ) : ℂ) * Real.pi / 180),
    Rm := conj (((1 : ℚ) : ℂ) * Complex.exp (Complex.I * ((0 : ℚ) : ℂ) * Real.pi / 180)) }

def octRef (tref : ℝ) : RefCon := { name := "S2", lind := 56, frq := linFreqs tref 56, inf := [octInf tref] }

def octSel (tref : ℝ) : Sel :=
  { nrName := [nameAt 88], nrLind := [88], nrFrq := [linFreqs tref 88], refs := [octRef tref], nNR := 1, nR := 1, nI := 1,
    name := [nameAt 88, "S2", "S6"], lind := [88, 56, 114],
    frq := [linFreqs tref 88, linFreqs tref 56, linFreqs tref 114] }

theorem nameAt_S4 : nameAt 88 = "S4" := by decide +kernel

theorem oct_index : (["S2", "S4"].mapM constitIndex : Except PyErr (List ℕ)) = .ok [56, 88] := by kernel_rfl
theorem S2_index : constitIndex "S2" = .ok 56 := by kernel_rfl
theorem S6_index : constitIndex "S6" = .ok 114 := by kernel_rfl
theorem oct_index' : (["S6", "S2"].mapM constitIndex : Except PyErr (List ℕ)) = .ok [114, 56] := by kernel_rfl

theorem oct_sel (tref : ℝ) (mr : Fl) : cnstitsel tref mr (.names ["S2", "S4"]) (some octSpec) = .ok (octSel tref) := by
  have h1 : mkInf octSpec tref 0 = .ok (octInf tref) := by
    have e1 : getIdx octSpec.amp 0 = .ok 1 := rfl
    have e2 : getIdx octSpec.phase 0 = .ok 0 := rfl
    have e3 : getIdx octSpec.inferred 0 = .ok "S6" := rfl
    have e4 : ∀ R, inferRm octSpec 0 R = .ok (conj R) := fun R => if_neg (by simp [octSpec])
    unfold mkInf
    rw [e1, ok_bind, e2, ok_bind]
    dsimp only
    rw [e4, ok_bind, e3, ok_bind, S6_index, ok_bind]
    rfl
  have h2 : mkRef octSpec tref "S2" = .ok (octRef tref) := by
    have e : refPositions octSpec.reference "S2" = [0] := by decide
    unfold mkRef
    rw [S2_index, ok_bind, e, List.mapM_cons, h1, ok_bind, List.mapM_nil]
    rfl
  have h3 : removeRI (some octSpec) [56, 88] = .ok [88] := by
    unfold removeRI
    show (["S6", "S2"].mapM constitIndex >>= _) = _
    rw [oct_index']
    rfl
  unfold cnstitsel startLind
  dsimp only
  rw [oct_index, ok_bind, h3, ok_bind]
  have e : allRefs octSpec.reference = ["S2"] := by decide
  rw [e, List.mapM_cons, h2, ok_bind, List.mapM_nil]
  simp only [pure_bind, List.map_cons, List.map_nil, List.length_cons, List.length_nil, List.flatMap_cons, List.flatMap_nil]
  simp only [octRef, octInf, octSel, octSpec, List.map_cons, List.map_nil, List.cons_append, List.nil_append, List.length_cons,
    List.length_nil, zero_add]
  rfl

end

end UTide.Props
