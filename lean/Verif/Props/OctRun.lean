import Verif.Props.OctExample
import Verif.Props.AvailProps
import Verif.Lemmas.LstsqAdd

/-!
# The intervals of the run of `OctExample`
-/

namespace UTide.Props

noncomputable section

open Classical

local notation "conj" => starRingEnd ℂ

/-- The prepared problem. -/
def octPrep (q : Opt) (ed : Edited) : Prep := ⟨q, some octSpec, ed, 45, octSel ed.tref, 5, octB⟩

theorem oct_xmod : xmodOf false octB octM = octQ.map fun q => ((q.1 + q.2.2.1 : ℝ) : ℂ) := by
  simp [xmodOf, octB, octQ, octM, dot]
  (repeat' apply And.intro) <;> ring

def octG : Matrix (Fin 5) (Fin 5) ℂ := ((8 / 3 : ℝ) : ℂ) • octIC + ((8 / 3 : ℝ) : ℂ) • octIP
def octH : Matrix (Fin 5) (Fin 5) ℂ := ((8 / 3 : ℝ) : ℂ) • octIC - ((8 / 3 : ℝ) : ℂ) • octIP

theorem oct_cov {N : Num} (hI : InvOk N.inv) (q : Opt) (ed : Edited) (ht : q.twodim = false)
    (hx : xraw ed = octY.map fun y : ℝ => (y : ℂ)) :
    covariances N (confIn (octPrep q ed) octM octW) = .ok (octG, octH) := by
  have h1 : pseudoNum (confIn (octPrep q ed) octM octW) = 8 := by
    unfold pseudoNum confIn octPrep
    dsimp only
    rw [ht, oct_xmod, hx]
    simp [wdot, dot, octY, octQ, octR, octW]
    ring
  have h2 : msmNum (confIn (octPrep q ed) octM octW) = 8 := by
    unfold msmNum
    have : ∀ (l : List ℝ), (l.map fun y : ℝ => (y : ℂ)).map conj = l.map fun y : ℝ => (y : ℂ) := by
      intro l; simp
    have h3 : (confIn (octPrep q ed) octM octW).xraw.map conj = (confIn (octPrep q ed) octM octW).xraw := by
      show (xraw ed).map conj = xraw ed
      rw [hx, this]
    have h4 : (confIn (octPrep q ed) octM octW).xmod.map conj = (confIn (octPrep q ed) octM octW).xmod := by
      show (xmodOf q.twodim octB octM).map conj = xmodOf q.twodim octB octM
      rw [ht, oct_xmod]; simp
    rw [h3, h4]
    have := congrArg Complex.re h1
    unfold pseudoNum at this
    rw [this]; rfl
  unfold covariances
  dsimp only
  rw [h1, h2]
  have hl : ((confIn (octPrep q ed) octM octW).xraw.length : ℝ) - ((confIn (octPrep q ed) octM octW).nm : ℝ) = 3 := by
    show ((xraw ed).length : ℝ) - (5 : ℕ) = 3
    rw [hx]; simp [octY, octQ, octR]; norm_num
  rw [hl, if_neg (by norm_num)]
  have e1 : N.inv (confIn (octPrep q ed) octM octW).nm (gram true (confIn (octPrep q ed) octM octW).nm
      (confIn (octPrep q ed) octM octW).B (confIn (octPrep q ed) octM octW).W) = some octIC := oct_invC hI
  have e2 : N.inv (confIn (octPrep q ed) octM octW).nm (gram false (confIn (octPrep q ed) octM octW).nm
      (confIn (octPrep q ed) octM octW).B (confIn (octPrep q ed) octM octW).W) = some octIP := oct_invP hI
  rw [e1, e2]
  have e3 : ((8 : ℂ) / ((3 : ℝ) : ℂ)) = ((8 / 3 : ℝ) : ℂ) := by push_cast; rfl
  dsimp only
  rw [e3]
  rfl

theorem oct_block (c : ℕ) (hc : c < 2) : ∃ G H, block octG 2 c = .ok G ∧ block octH 2 c = .ok H ∧
    varXuOf G = 1 / 4 ∧ varYuOf H = 1 / 4 := by
  have h : c = 0 ∨ c = 1 := by omega
  rcases h with rfl | rfl
  · refine ⟨_, _, rfl, rfl, ?_, ?_⟩ <;>
      simp [varXuOf, varYuOf, octG, octH, octIC, octIP] <;> norm_num
  · refine ⟨_, _, rfl, rfl, ?_, ?_⟩ <;>
      simp [varXuOf, varYuOf, octG, octH, octIC, octIP] <;> norm_num

theorem fl_add (x y : ℝ) : Fl.fin x + Fl.fin y = .fin (x + y) := rfl
theorem fl_sub (x y : ℝ) : Fl.fin x - Fl.fin y = .fin (x - y) := rfl
theorem fl_mul (x y : ℝ) : Fl.fin x * Fl.fin y = .fin (x * y) := rfl
theorem fl_div (x y : ℝ) (h : y ≠ 0) : Fl.fin x / Fl.fin y = .fin (x / y) := if_neg h

/-- Linearised intervals at phase zero, amplitude one and equal variances of the two coefficients. -/
theorem linear1_unit (s : ℝ) (hs : 0 ≤ s) : (linear1 none 1 0 (s ^ 2) (s ^ 2)).1 =
    ⟨.fin (1.96 * s), .fin 0, .fin 0, .fin (1.96 * (180 / Real.pi * s))⟩ := by
  have h1 : (0.5 : ℝ) * Real.sqrt ((1 + 0) ^ 2 + (0 - 0) ^ 2) = 0.5 := by norm_num
  have h2 : (0.5 : ℝ) * Real.sqrt ((1 - 0) ^ 2 + (0 + 0) ^ 2) = 0.5 := by norm_num
  have h3 : (Fl.fin (s ^ 2)).sqrt = .fin s := by rw [fin_sqrt _ (sq_nonneg _), Real.sqrt_sq hs]
  have h4 : ∀ x : ℝ, (Fl.fin x).sq = .fin (x ^ 2) := fun x => by rw [pow_two]; rfl
  unfold linear1 utLinci
  dsimp only
  rw [if_pos rfl, h1, h2, h3]
  unfold linSum
  rw [fl_div _ _ (by norm_num), fl_div _ _ (by norm_num), fl_div _ _ (by norm_num), fl_div _ _ (by norm_num),
    fl_div _ _ (by norm_num), fl_div _ _ (by norm_num), fl_div _ _ (by norm_num), fl_div _ _ (by norm_num)]
  simp only [fl_add, fl_sub, fl_mul, h4]
  rw [fin_sqrt _ (by positivity), fin_sqrt _ (by positivity)]
  simp only [fl_mul]
  have e1 : Real.sqrt ((0.25 * ((1 + 0) / 0.5 + (1 - 0) / 0.5)) ^ 2 * s ^ 2 + (0.25 * ((0 - 0) / 0.5 + (0 + 0) / 0.5)) ^ 2 * s ^ 2 +
      (0.25 * ((0 + 0) / 0.5 - (0 - 0) / 0.5)) ^ 2 * 0 ^ 2 + (0.25 * ((1 + 0) / 0.5 - (1 - 0) / 0.5)) ^ 2 * 0 ^ 2) = s := by
    rw [← Real.sqrt_sq hs]
    congr 1
    rw [Real.sqrt_sq hs]
    norm_num
  have e2 : ∀ x : ℝ, x = s ^ 2 → Real.sqrt x = s := fun x hx => by rw [hx, Real.sqrt_sq hs]
  rw [e1, e2 _ (by norm_num)]

theorem oct_linear1 : (linear1 none 1 0 (1 / 4) (1 / 4)).1 =
    ⟨.fin (1.96 * (1 / 2)), .fin 0, .fin 0, .fin (1.96 * (180 / Real.pi * (1 / 2)))⟩ := by
  have := linear1_unit (1 / 2) (by norm_num)
  rwa [show ((1 / 2 : ℝ)) ^ 2 = 1 / 4 by norm_num] at this

/-- The intervals: those of S4 and S2 are the same. -/
theorem oct_confidence {N : Num} (hI : InvOk N.inv) (q : Opt) (ed : Edited) (ht : q.twodim = false) (hw : q.white = true)
    (hl : q.linci = true) (hx : xraw ed = octY.map fun y : ℝ => (y : ℂ)) :
    ∃ A g, confidence N (confIn (octPrep q ed) octM octW) =
      .ok (.one [.fin (1.96 * (1 / 2)), .fin (1.96 * (1 / 2)), A]
        [.fin (1.96 * (180 / Real.pi * (1 / 2))), .fin (1.96 * (180 / Real.pi * (1 / 2))), g]) := by
  have eX : (confIn (octPrep q ed) octM octW).Xu = [1, 1] := by
    show List.zipWith (fun a b : ℂ => (a + b).re) [1 / 2, 1 / 2] [1 / 2, 1 / 2] = _
    norm_num
  have eY : (confIn (octPrep q ed) octM octW).Yu = [0, 0] := by
    show List.zipWith (fun a b : ℂ => -(a - b).im) [1 / 2, 1 / 2] [1 / 2, 1 / 2] = _
    norm_num
  have hone : ∀ c, c < 2 → ciOne N (confIn (octPrep q ed) octM octW) none (octG, octH) 2 c =
      .ok (linear1 none 1 0 (1 / 4) (1 / 4)) := by
    intro c hc
    obtain ⟨G, H, h1, h2, h3, h4⟩ := oct_block c hc
    have hX : getIdx (confIn (octPrep q ed) octM octW).Xu c = .ok 1 := by
      rw [eX]
      have h : c = 0 ∨ c = 1 := by omega
      rcases h with rfl | rfl <;> rfl
    have hY : getIdx (confIn (octPrep q ed) octM octW).Yu c = .ok 0 := by
      rw [eY]
      have h : c = 0 ∨ c = 1 := by omega
      rcases h with rfl | rfl <;> rfl
    have hg : ∃ g, getIdx (confIn (octPrep q ed) octM octW).g c = .ok g :=
      ⟨_, getIdx_lt _ _ (by
        show c < ((ellOf q.twodim _ _).gs).length
        rw [ht]
        show c < 3
        omega)⟩
    obtain ⟨g, hg⟩ := hg
    have e1 : block (nm := (confIn (octPrep q ed) octM octW).nm) octG 2 c = .ok G := h1
    have e2 : block (nm := (confIn (octPrep q ed) octM octW).nm) octH 2 c = .ok H := h2
    unfold ciOne
    dsimp only
    rw [e1, ok_bind, e2, ok_bind, hX, ok_bind, hY, ok_bind, hg, ok_bind, ok_bind, if_neg (by
      show ¬ q.twodim = true
      rw [ht]; simp), if_pos (by show q.linci = true; exact hl), h3, h4]
    rfl
  unfold confidence
  rw [if_pos (by exact hw), ok_bind, oct_cov hI q ed ht hx, ok_bind]
  have hlen : (confIn (octPrep q ed) octM octW).Xu.length = 2 := rfl
  rw [hlen, show List.range 2 = [0, 1] from rfl, List.mapM_cons, hone 0 (by norm_num), ok_bind, List.mapM_cons, hone 1 (by norm_num),
    ok_bind, List.mapM_nil]
  have hinf : inferCi (confIn (octPrep q ed) octM octW)
      ([linear1 none 1 0 (1 / 4) (1 / 4), linear1 none 1 0 (1 / 4) (1 / 4)].map Prod.snd) =
      .ok [inferOne false (linear1 none 1 0 (1 / 4) (1 / 4)).2 1 0 0 0 (octInf ed.tref)] := by
    unfold inferCi
    rw [if_pos (show (confIn (octPrep q ed) octM octW).infer = true from rfl), if_pos (by exact hl)]
    have e : inferRef (confIn (octPrep q ed) octM octW)
        ([linear1 none 1 0 (1 / 4) (1 / 4), linear1 none 1 0 (1 / 4) (1 / 4)].map Prod.snd) (octRef ed.tref, 0) =
        .ok [inferOne false (linear1 none 1 0 (1 / 4) (1 / 4)).2 1 0 0 0 (octInf ed.tref)] := by
      unfold inferRef
      rw [eX, eY, show (confIn (octPrep q ed) octM octW).twodim = false from ht]
      rfl
    show ([(octRef ed.tref, 0)].mapM _ >>= _) = _
    rw [List.mapM_cons, e]
    rfl
  simp only [pure_bind]
  rw [hinf]
  have e : (confIn (octPrep q ed) octM octW).twodim = false := ht
  rw [e, ok_bind]
  refine ⟨(inferOne false (linear1 none 1 0 (1 / 4) (1 / 4)).2 1 0 0 0 (octInf ed.tref)).maj,
    (inferOne false (linear1 none 1 0 (1 / 4) (1 / 4)).2 1 0 0 0 (octInf ed.tref)).g, ?_⟩
  show Except.ok (CiArr.one [(linear1 none 1 0 (1 / 4) (1 / 4)).1.maj, (linear1 none 1 0 (1 / 4) (1 / 4)).1.maj, _]
    [(linear1 none 1 0 (1 / 4) (1 / 4)).1.g, (linear1 none 1 0 (1 / 4) (1 / 4)).1.g, _]) = _
  rw [oct_linear1]

/-! ## The run -/

def octTn : List Fl := [.fin 0, .fin (1 / 16), .fin (2 / 16), .fin (3 / 16), .fin (4 / 16), .fin (5 / 16), .fin (6 / 16), .fin (7 / 16)]
def octTimes : List ℝ := [0, 1 / 16, 2 / 16, 3 / 16, 4 / 16, 5 / 16, 6 / 16, 7 / 16]
def octT : TimeArg := ⟨[8], .float octTn, []⟩
def octU : Series := ⟨[8], octY.map fun y => ⟨.fin y, false⟩⟩

def octOpts (ci : String) : Dict PyVal :=
  [("constit", .seq .list [.str "S2", .str "S4"]), ("conf_int", .str ci), ("trend", .bool false), ("nodal", .bool false),
   ("phase", .str "raw"), ("order_constit", .str "frequency"), ("epoch", .str "python"), ("method", .str "ols"),
   ("white", .bool true),
   ("infer", .dict true [("inferred_names", .seq .list [.str "S6"]), ("reference_names", .seq .list [.str "S2"]),
     ("amp_ratios", .seq .list [.num 1]), ("phase_offsets", .seq .list [.num 0])])]

def octOpt (ci : Bool) : Opt := { exOpt false with
    cnstit := .seq .list [.str "S2", .str "S4"], ordercnstit := .str "frequency", white := true
    confInt := ci, linci := ci, nodiagn := !ci
    infer := .dict true [("inferred_names", .seq .list [.str "S6"]), ("reference_names", .seq .list [.str "S2"]),
      ("amp_ratios", .seq .list [.num 1]), ("phase_offsets", .seq .list [.num 0]), ("approximate", .bool false)] }

theorem octOpt_none : getOpt (octOpts "none") false = .ok (octOpt false) := by kernel_rfl
theorem octOpt_linear : getOpt (octOpts "linear") false = .ok (octOpt true) := by kernel_rfl

theorem oct_read (b : Bool) : readInfer (octOpt b).infer = .ok (some octSpec) := by cases b <;> rfl

theorem oct_ready : Ready idealEnv octT octU none :=
  idealReady _ _ _ (by simp [TimeArg.WF, TimeArr.length, octT, octTn]) (by simp [Series.WF, octU, octY, octQ, octR]) (by simp)

theorem oct_times : normalizeTime idealEnv.dt64 octT.arr (.str "python") = .ok octTn := by
  show (Except.ok (octTn.map _) : Except PyErr (List Fl)) = _
  congr 1

theorem oct_usable : usable octTn octU.data none = List.zipWith (fun τ (y : ℝ) => (τ, (y : ℂ))) octTimes octY := by
  simp [usable, octU, octY, octQ, octR, octTn, octTimes, goodSamples, Fl.toReal?, Cell.value?]

/-- The basis function of a constituent whose frequency is `n` twelfths of a cycle per hour. -/
theorem oct_utE (fl : Flags) (h : fl.nodsatnone = true ∧ fl.gwchnone = true) (lat τ : ℝ) (k n : ℕ) (hf : linFreqs (7 / 32) k = n / 12) :
    utE fl (7 / 32) lat τ (linFreqs (7 / 32) k) k = octTurn (n * (32 * τ - 7)) := by
  unfold utE octTurn
  rw [if_pos h, hf, Complex.ofReal_one, one_mul]
  congr 1
  push_cast
  ring

theorem oct_ratio : (((1 : ℚ) : ℂ) * Complex.exp (Complex.I * ((0 : ℚ) : ℂ) * Real.pi / 180)) = 1 := by
  simp

theorem octTurn_ne (x : ℝ) : octTurn x ≠ 0 := Complex.exp_ne_zero _

/-- One row of the matrix. -/
theorem oct_row (fl : Flags) (h : fl.nodsatnone = true ∧ fl.gwchnone = true) (lat lor τ : ℝ) :
    modelRow fl (7 / 32) lat lor false false (octSel (7 / 32)) τ =
      [octTurn (2 * (32 * τ - 7)), conj (octTurn (2 * (32 * τ - 7))),
       octTurn (32 * τ - 7) + octTurn (3 * (32 * τ - 7)), conj (octTurn (32 * τ - 7) + octTurn (3 * (32 * τ - 7))), 1] := by
  have h2 := oct_utE fl h lat τ 56 1 (by rw [freq_S2]; norm_num)
  have h4 := oct_utE fl h lat τ 88 2 (by rw [freq_S4]; norm_num)
  have h6 := oct_utE fl h lat τ 114 3 (by rw [freq_S6]; norm_num)
  simp only [Nat.cast_one, one_mul, Nat.cast_ofNat] at h2 h4 h6
  have ep : etilp fl (7 / 32) lat false τ (octRef (7 / 32)) = octTurn (32 * τ - 7) + octTurn (3 * (32 * τ - 7)) := by
    unfold etilp qsum octRef octInf
    simp only [List.map_cons, List.map_nil, List.sum_cons, List.sum_nil, h2, h6, oct_ratio]
    have := octTurn_ne (32 * τ - 7)
    field_simp
    simp
  have em : etilm fl (7 / 32) lat false τ (octRef (7 / 32)) = octTurn (32 * τ - 7) + octTurn (3 * (32 * τ - 7)) := by
    unfold etilm qsum octRef octInf
    simp only [List.map_cons, List.map_nil, List.sum_cons, List.sum_nil, h2, h6, oct_ratio, map_one]
    have := octTurn_ne (32 * τ - 7)
    field_simp
    simp
  unfold modelRow rowNR
  simp only [octSel, List.zipWith_cons_cons, List.zipWith_nil_left, List.map_cons, List.map_nil, h4, ep, em]
  rfl

theorem oct_B (fl : Flags) (h : fl.nodsatnone = true ∧ fl.gwchnone = true) (lat lor : ℝ) :
    octTimes.map (modelRow fl (7 / 32) lat lor false false (octSel (7 / 32))) = octB := by
  have e : modelRow fl (7 / 32) lat lor false false (octSel (7 / 32)) = _ := funext (oct_row fl h lat lor)
  rw [e]
  have hn : ∀ x y : ℝ, x = -y → octTurn x = conj (octTurn y) := fun x y h => by rw [h, octTurn_neg]
  have a0 := hn (32 * 0 - 7) 7 (by norm_num)
  have b0 := hn (2 * (32 * 0 - 7)) 14 (by norm_num)
  have c0 := hn (3 * (32 * 0 - 7)) 21 (by norm_num)
  have a1 := hn (32 * (1 / 16) - 7) 5 (by norm_num)
  have b1 := hn (2 * (32 * (1 / 16) - 7)) 10 (by norm_num)
  have c1 := hn (3 * (32 * (1 / 16) - 7)) 15 (by norm_num)
  have a2 := hn (32 * (2 / 16) - 7) 3 (by norm_num)
  have b2 := hn (2 * (32 * (2 / 16) - 7)) 6 (by norm_num)
  have c2 := hn (3 * (32 * (2 / 16) - 7)) 9 (by norm_num)
  have a3 := hn (32 * (3 / 16) - 7) 1 (by norm_num)
  have b3 := hn (2 * (32 * (3 / 16) - 7)) 2 (by norm_num)
  have c3 := hn (3 * (32 * (3 / 16) - 7)) 3 (by norm_num)
  have a4 : octTurn (32 * (4 / 16) - 7) = octTurn 1 := by norm_num
  have b4 : octTurn (2 * (32 * (4 / 16) - 7)) = octTurn 2 := by norm_num
  have c4 : octTurn (3 * (32 * (4 / 16) - 7)) = octTurn 3 := by norm_num
  have a5 : octTurn (32 * (5 / 16) - 7) = octTurn 3 := by norm_num
  have b5 : octTurn (2 * (32 * (5 / 16) - 7)) = octTurn 6 := by norm_num
  have c5 : octTurn (3 * (32 * (5 / 16) - 7)) = octTurn 9 := by norm_num
  have a6 : octTurn (32 * (6 / 16) - 7) = octTurn 5 := by norm_num
  have b6 : octTurn (2 * (32 * (6 / 16) - 7)) = octTurn 10 := by norm_num
  have c6 : octTurn (3 * (32 * (6 / 16) - 7)) = octTurn 15 := by norm_num
  have a7 : octTurn (32 * (7 / 16) - 7) = octTurn 7 := by norm_num
  have b7 : octTurn (2 * (32 * (7 / 16) - 7)) = octTurn 14 := by norm_num
  have c7 : octTurn (3 * (32 * (7 / 16) - 7)) = octTurn 21 := by norm_num
  simp only [octTimes, List.map_cons, List.map_nil, a0, a1, a2, a3, a4, a5, a6, a7, b0, b1, b2, b3, b4, b5, b6, b7,
    c0, c1, c2, c3, c4, c5, c6, c7, octTurn_one, octTurn_two, octTurn_three, octTurn_five, octTurn_six, octTurn_seven,
    octTurn_nine, octTurn_ten, octTurn_fourteen, octTurn_fifteen, octTurn_twentyone]
  simp only [octB, octQ, List.map_cons, List.map_nil, List.cons.injEq, and_true, oA, oB, Complex.ext_iff, Complex.add_re,
    Complex.add_im, Complex.conj_re, Complex.conj_im]
  (repeat' apply And.intro) <;> first | trivial | ring

/-- The data as read. -/
structure OctEdited (ed : Edited) : Prop where
  edit : editData octTn octU.data none = .ok ed
  t : ed.t = octTimes
  x : xraw ed = octY.map fun y : ℝ => (y : ℂ)
  tref : ed.tref = 7 / 32

theorem oct_edited : ∃ ed, OctEdited ed := by
  have hlen : SameLength octTn octU.data none := ⟨by simp [octTn, octU, octY, octQ, octR], by simp⟩
  have hus := oct_usable
  have e1 : (usable octTn octU.data none).map Prod.fst = octTimes := by
    rw [hus]; simp [octTimes, octY, octQ, octR]
  have e2 : (usable octTn octU.data none).map Prod.snd = octY.map fun y : ℝ => (y : ℂ) := by
    rw [hus]; simp [octTimes, octY, octQ, octR]
  obtain ⟨ed, hed⟩ := editData_total octTn octU.data none hlen (by
    intro h; rw [h] at e1; simp [octTimes] at e1)
  obtain ⟨-, h2, h3, -, h5⟩ := editData_usable _ _ _ hlen _ hed
  rw [e1] at h2 h5
  rw [e2] at h3
  refine ⟨ed, hed, h2, h3, ?_⟩
  have e3 : finiteTimes octTn = octTimes := by simp [finiteTimes, octTn, octTimes, Fl.toReal?]
  rw [e3] at h5
  unfold timeStats at h5
  by_cases he : isEqui octTimes
  · simp only [he, if_true] at h5
    have h6 := congrArg Prod.fst (Except.ok.inj h5)
    exact h6.symm.trans (by show (0.5 : ℝ) * (0 + 7 / 16) = 7 / 32; norm_num)
  · simp only [he] at h5
    have h6 := congrArg Prod.fst (Except.ok.inj h5)
    exact h6.symm.trans (by show (0.5 : ℝ) * (0 + 7 / 16) = 7 / 32; norm_num)

theorem oct_prep (b : Bool) (ed : Edited) (he : OctEdited ed) :
    PrepOk idealEnv (octOpt b) octT octU none (some 45) octTn (.names ["S2", "S4"]) (octPrep (octOpt b) ed) where
  init := ⟨rfl, ⟨rfl, rfl, by simp⟩, oct_times, he.edit⟩
  cons := readConstit_list .list (by simp) ["S2", "S4"]
  hinfer := oct_read b
  hsel := oct_sel _ _
  check := by
    have h : ∀ t f k, utE (octOpt b).flags ed.tref 45 t f k ≠ 0 := fun t f k => utE_raw_ne _ ⟨rfl, rfl⟩ _ _ _ _ _
    unfold checkMatrix
    simp only [octPrep, octSpec]
    have h2 : (usedLind (octSel ed.tref)).any (nodalSingular (octOpt b).flags 45) = false := by
      rw [List.any_eq_false]
      intro k _
      simp [nodalSingular, octOpt, exOpt]
    have e : ∀ f : ℝ → Bool, (∀ t, f t = false) → raiseIf (ed.t.any f) PyErr.nonFinite = .ok () := by
      intro f hf
      rw [show ed.t.any f = false from List.any_eq_false.2 fun t _ => by simp [hf]]
      rfl
    simp only [h2, Bool.false_eq_true, if_false]
    rw [e _ (by intro t; simp [h])]
    rfl
  hopt := rfl
  nm := rfl
  B := by
    show octB = ed.t.map (modelRow (octOpt b).flags ed.tref 45 ed.lor false false (octSel ed.tref))
    rw [he.t, he.tref]
    exact (oct_B _ ⟨rfl, rfl⟩ _ _).symm

/-- Independent columns and a residual orthogonal to them make a least-squares solution. -/
theorem minNorm_of_orthogonal {ncol : ℕ} {a : List (List ℂ)} {b m : List ℂ} (hab : a.length = b.length) (hm : m.length = ncol)
    (hi : IndepColumns ncol a)
    (ho : ∀ x : List ℂ, x.length = ncol → (List.zipWith (fun r (y : ℂ) => conj (dot r x) * (y - dot r m)) a b).sum = 0) :
    IsMinNormSol ncol a b m := by
  obtain ⟨f, rfl⟩ := list_eq_ofFn ncol m hm
  refine normalEq_minNorm hab (f := f) ⟨fun g => ?_, fun n hn => ?_⟩
  · rw [← inner_conj_symm, map_eq_zero, PiLp.inner_apply, ← List.sum_ofFn, ← ho (List.ofFn fun j => g j) (by simp)]
    congr 1
    apply List.ext_getElem
    · simp [hab]
    · intro i h1 h2
      simp only [List.getElem_zipWith, List.getElem_ofFn, RCLike.inner_apply, PiLp.sub_apply]
      rw [mul_comm]
      simp [rowsMap, dataVec]
  · have : n = 0 := by
      ext j
      refine hi (List.ofFn fun j => n j) (by simp) (fun r hr => ?_) (n j) (by simp)
      obtain ⟨i, h1, rfl⟩ := List.getElem_of_mem hr
      have := congrArg (fun v : EuclideanSpace ℂ (Fin a.length) => v ⟨i, h1⟩) hn
      simpa [rowsMap] using this
    rw [this, inner_zero_right]

theorem oct_indep : IndepColumns 5 octB := by
  obtain ⟨ed, he⟩ := oct_edited
  refine (covariances_ok idealNum_ok.inv (confIn (octPrep (octOpt true) ed) octM octW) ?_ ?_
    (oct_cov idealNum_ok.inv _ ed rfl he.x)).1
  · show octW = octB.map fun _ => 1
    simp [octW, octB, octQ]
  · show ∀ r ∈ octB, r.length = 5
    intro r hr
    simp only [octB, List.mem_map] at hr
    obtain ⟨_, -, rfl⟩ := hr
    rfl

theorem oct_minNorm (ed : Edited) (he : OctEdited ed) : IsMinNormSol 5 octB (xraw ed) octM := by
  rw [he.x]
  exact minNorm_of_orthogonal (by simp [octB, octY, octQ, octR]) rfl oct_indep oct_orthogonal

theorem oct_none : ∃ c, solve idealEnv octT octU none (some 45) (octOpts "none") = .ok c := by
  refine solve_total_infer idealEnv _ _ none 45 _ (octOpt false) octTn (.names ["S2", "S4"]) .frequency
    octSpec octOpt_none rfl rfl rfl (oct_read _) ⟨?_, rfl, .inl rfl, rfl⟩
    (readConstit_list .list (by simp) ["S2", "S4"]) ⟨?_, .inr ⟨rfl, rfl⟩⟩ (.inl ⟨rfl, rfl⟩) rfl (.inr rfl) ⟨rfl, rfl, by simp⟩
    oct_ready.ht oct_ready.hu (by simp) oct_times ?_ (fun k => by simp [nodalSingular, octOpt, exOpt])
    (fun h => by simp [octOpt, exOpt] at h)
    (fun _ _ _ _ _ _ _ _ => utE_raw_ne _ ⟨rfl, rfl⟩ _ _ _ _ _) (fun h => by simp [octSpec] at h)
  · show ∀ n ∈ ["S6", "S2"], n ∈ constitNames
    decide +kernel
  · decide +kernel
  · show usable octTn octU.data none ≠ []
    rw [oct_usable]
    simp [octTimes, octY, octQ, octR]

/-- What the run returns. -/
structure OctRun (c : Coef) (ci : CiArr) : Prop where
  returned : solve idealEnv octT octU none (some 45) (octOpts "linear") = .ok c
  opt : c.opt = octOpt true
  reftime : c.reftime = 7 / 32
  lat : c.lat = 45
  kept : AllKept c
  names : c.name.Perm ["S4", "S2", "S6"]
  hci : c.ci = some ci
  intervals : ∀ i, c.name[i]? = some "S4" ∨ c.name[i]? = some "S2" →
    intervalAt ci i = some ⟨.fin (1.96 * (1 / 2)), .fin 0, .fin 0, .fin (1.96 * (180 / Real.pi * (1 / 2)))⟩

theorem oct_run : ∃ c ci, OctRun c ci := by
  obtain ⟨ed, he⟩ := oct_edited
  obtain ⟨c0, hc0⟩ := oct_none
  obtain ⟨opt, p, tn, constit, m, W, rf, full, o, ind, F⟩ := solve_facts oct_ready hc0
  have hqq := Except.ok.inj (octOpt_none.symm.trans F.hopt)
  subst hqq
  have hp := prepOk_unique (oct_prep false ed he) F.prep
  subst hp
  have hm : m = octM := (F.minNorm oct_ready rfl).unique (by
    show octB.length = (xraw ed).length
    rw [he.x]; simp [octB, octY, octQ, octR]) (oct_minNorm ed he)
  have hW : W = octW := by
    rw [F.ones rfl]
    simp [octPrep, octW, octB, octQ]
  subst hm hW
  obtain ⟨A, g, hconf⟩ := oct_confidence idealNum_ok.inv (octOpt true) ed rfl rfl rfl he.x
  obtain ⟨c, hc⟩ := finish_total F.solved (octOpt true) rfl rfl rfl rfl _ hconf
  obtain ⟨m', W', rf', c1, c2, o', hs'⟩ := (stageSolution_ok idealEnv _ c).1 hc
  have hsol := (solve_ok idealEnv _ _ _ _ _ _).2 ⟨octOpt true, _, octTn, _, m', W', rf', c1, c2, o', octOpt_linear,
    oct_prep true ed he, hs'⟩
  obtain ⟨opt, p, tn, constit, m, W, rf, full, o, ind, F'⟩ := solve_facts oct_ready hsol
  have hqq := Except.ok.inj (octOpt_linear.symm.trans F'.hopt)
  subst hqq
  have hp := prepOk_unique (oct_prep true ed he) F'.prep
  subst hp
  have hm : m = octM := (F'.minNorm oct_ready rfl).unique (by
    show octB.length = (xraw ed).length
    rw [he.x]; simp [octB, octY, octQ, octR]) (oct_minNorm ed he)
  have hW : W = octW := by
    rw [F'.ones rfl]
    simp [octPrep, octW, octB, octQ]
  subst hm hW
  have hopt := F'.copt
  have hk : AllKept c := .inl (.inr (.inl (.inl (by rw [hopt]; rfl))))
  have hn : (octSel ed.tref).name = ["S4", "S2", "S6"] := by
    show [nameAt 88, "S2", "S6"] = _
    rw [nameAt_S4]
  have hname : c.name = gather ["S4", "S2", "S6"] ind := by
    rw [F'.solved.result]
    show gather full.name ind = _
    rw [F'.solved.name, ← hn]; rfl
  have hlt : ∀ i ∈ ind, i < 3 := F'.lt
  refine ⟨c, CiArr.permute ind (.one [.fin (1.96 * (1 / 2)), .fin (1.96 * (1 / 2)), A]
    [.fin (1.96 * (180 / Real.pi * (1 / 2))), .fin (1.96 * (180 / Real.pi * (1 / 2))), g]), hsol, hopt, ?_, ?_, hk, ?_, ?_, ?_⟩
  · rw [F'.solved.result]
    exact F'.solved.head.reftime.trans he.tref
  · rw [F'.solved.result]
    exact F'.solved.head.lat
  · have := F'.perm_names oct_ready (by decide) hk
    rw [← hn]; exact this
  · rw [F'.solved.result]
    show full.ci.map (CiArr.permute ind) = _
    rcases F'.solved.ci with ⟨h1, -⟩ | ⟨-, ci', h2, h3⟩
    · cases h1
    · rw [h3]
      have h2' : confidence idealNum (confIn (octPrep (octOpt true) ed) octM octW) = .ok ci' := h2
      rw [hconf] at h2'
      rw [← Except.ok.inj h2']
      rfl
  · intro i hi
    rw [intervalAt_permute (n := 3) (e := .one [.fin (1.96 * (1 / 2)), .fin (1.96 * (1 / 2)), A]
      [.fin (1.96 * (180 / Real.pi * (1 / 2))), .fin (1.96 * (180 / Real.pi * (1 / 2))), g]) (And.intro rfl rfl) _ hlt]
    rw [hname, gather_getElem? _ _ hlt] at hi
    cases hk : ind[i]? with
    | none => rw [hk] at hi; simp at hi
    | some k =>
      rw [hk] at hi
      have h3 := hlt k (List.mem_of_getElem? hk)
      rcases k with _ | _ | _ | k
      · rfl
      · rfl
      · simp at hi
      · omega

/-! ## C90 is false -/

theorem oct_position {c : Coef} {ci : CiArr} (O : OctRun c ci) (n : String) (hn : n ∈ ["S4", "S2", "S6"]) :
    ∃ i : ℕ, c.name[i]? = some n :=
  List.mem_iff_getElem?.1 (O.names.mem_iff.2 hn)

theorem oct_inferred {c : Coef} {ci : CiArr} (O : OctRun c ci) (i l : ℕ) (hi : c.name[i]? = some "S6")
    (hl : c.name[l]? = some "S2") : InferredRun idealEnv octT octU (some 45) (octOpts "linear") c ci "S6" "S2" 1 0 i l where
  returned := O.returned
  keys := by decide
  kept := O.kept
  distinct := O.names.nodup_iff.2 (by decide)
  linear := by rw [O.opt]; rfl
  intervals := O.hci
  posInferred := hi
  posReference := hl
  tie := ⟨octSpec, 0, by rw [O.opt]; exact oct_read true, rfl, rfl, rfl, rfl⟩

/-- S6, inferred from S2 with amplitude ratio one, should have the amplitude interval of S2; its own is smaller by the
square root of two. -/
theorem C90_false : ¬ C90_full := by
  intro h
  obtain ⟨c, ci, O⟩ := oct_run
  obtain ⟨i, hi⟩ := oct_position O "S6" (by simp)
  obtain ⟨l, hl⟩ := oct_position O "S2" (by simp)
  have H := oct_inferred O i l hi hl
  have e := O.intervals l (.inr hl)
  have h1 := h _ _ _ _ _ c ci _ _ _ _ i l oct_ready idealNum_ok H (by norm_num) _ _ e
  have h2 := C90_reduced_partial oct_ready H (by norm_num) 0 (by norm_num) _ _ e
  rw [h1] at h2
  have h3 := (Ci1.mk.inj (Option.some.inj h2)).1
  have h4 : ((1 : ℚ) : ℝ) * (1.96 * (1 / 2)) = ((1 : ℚ) : ℝ) / Real.sqrt 2 * (1.96 * (1 / 2)) := Fl.fin.inj h3
  have h5 : (1 : ℝ) < Real.sqrt 2 := by
    rw [show (1 : ℝ) = Real.sqrt 1 by simp]
    exact Real.sqrt_lt_sqrt (by norm_num) (by norm_num)
  have h6 : (1 : ℝ) / Real.sqrt 2 < 1 := by rw [div_lt_one (by linarith)]; exact h5
  push_cast at h4
  nlinarith

/-- Non-vacuity of `C90_reduced_partial`. -/
example : ∃ c ci i l, InferredRun idealEnv octT octU (some 45) (octOpts "linear") c ci "S6" "S2" 1 0 i l ∧
    intervalAt ci i = some ⟨.fin (((1 : ℚ) : ℝ) / Real.sqrt 2 * (1.96 * (1 / 2))), .fin 0, .fin 0,
      .fin (((1 : ℚ) : ℝ) / Real.sqrt 2 * (1.96 * (180 / Real.pi * (1 / 2))))⟩ := by
  obtain ⟨c, ci, O⟩ := oct_run
  obtain ⟨i, hi⟩ := oct_position O "S6" (by simp)
  obtain ⟨l, hl⟩ := oct_position O "S2" (by simp)
  have H := oct_inferred O i l hi hl
  exact ⟨c, ci, i, l, H, C90_reduced_partial oct_ready H (by norm_num) 0 (by norm_num) _ _ (O.intervals l (.inr hl))⟩

end

end UTide.Props
