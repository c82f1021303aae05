import Verif.Props.RelExamples

/-!
# A run with more samples than unknowns

Times 0, 0.5, 1 and 1 again (two observations at the last time), M2 only, raw phases, no nodal corrections, no trend.
-/

namespace UTide.Props

noncomputable section

open Classical

local notation "conj" => starRingEnd ℂ

def quadT : TimeArg := ⟨[4], .float [.fin 0, .fin 0.5, .fin 1, .fin 1], []⟩
def quadTn : List Fl := [.fin 0, .fin 0.5, .fin 1, .fin 1]

def quadSeries (a b c d : ℝ) : Series :=
  ⟨[4], [⟨.fin a, false⟩, ⟨.fin b, false⟩, ⟨.fin c, false⟩, ⟨.fin d, false⟩]⟩

theorem quad_ready (a b c d : ℝ) (v : Option Series) (hv : v = none ∨ ∃ a b c d, v = some (quadSeries a b c d)) :
    Ready idealEnv quadT (quadSeries a b c d) v :=
  idealReady _ _ _ (by simp [TimeArg.WF, TimeArr.length, quadT]) (by simp [Series.WF, quadSeries]) (by
    rintro w rfl
    rcases hv with h | ⟨d, e, f, g, h⟩
    · cases h
    · cases h; simp [Series.WF, quadSeries])

theorem quad_times : normalizeTime idealEnv.dt64 quadT.arr (.str "python") = .ok quadTn := by
  show (Except.ok (quadTn.map _) : Except PyErr (List Fl)) = _
  congr 1

theorem quad_usable (a b c d : ℝ) (v : Option Series) (hv : v = none ∨ ∃ a b c d, v = some (quadSeries a b c d)) :
    (usable quadTn (quadSeries a b c d).data (v.map Series.data)).map Prod.fst = [0, 0.5, 1, 1] := by
  rcases hv with rfl | ⟨d, e, f, g, rfl⟩
  · simp [usable, quadSeries, quadTn, goodSamples, Fl.toReal?, Cell.value?]
  · simp [usable, quadSeries, quadTn, goodSamples2, Fl.toReal?, Cell.value?]

/-- Options that differ from the example options only in the method, the order and the confidence intervals. -/
structure LikeEx (q : Opt) : Prop where
  flags : q.flags = ⟨false, true, false, true⟩
  cnstit : q.cnstit = .seq .list [.str "M2"]
  infer : q.infer = .none
  notrend : q.notrend = true
  epoch : q.epoch = .str "python"

/-- The prepared problem of the example. -/
structure QuadPrep (v : Option Series) (q : Opt) (a b c d : ℝ) (p : Prep) : Prop where
  prep : PrepOk idealEnv q quadT (quadSeries a b c d) v (some 45) quadTn (.names ["M2"]) p
  B : ∃ z : ℂ, z ≠ conj z ∧ z + conj z ≠ 2 ∧ p.B = [[z, conj z, 1], [1, 1, 1], [conj z, z, 1], [conj z, z, 1]]
  nm : p.nm = 3
  indep : IndepColumns p.nm p.B
  names : p.sel.name = ["M2"]
  infer : p.infer = none
  t : p.ed.t = [0, 0.5, 1, 1]

theorem quad_indep (z : ℂ) (h1 : z ≠ conj z) (h2 : z + conj z ≠ 2) :
    IndepColumns 3 [[z, conj z, 1], [1, 1, 1], [conj z, z, 1], [conj z, z, 1]] := by
  intro m hm hz x hx
  match m, hm with
  | [P, M, k], _ =>
    have k0 := hz [z, conj z, 1] (by simp)
    have k5 := hz [1, 1, 1] (by simp)
    have k1 := hz [conj z, z, 1] (by simp)
    simp only [dot_cons, dot_nil_left, add_zero, one_mul] at k0 k5 k1
    have a1 : (P - M) * (z - conj z) = 0 := by linear_combination k0 - k1
    have a2 : P = M := by
      rcases mul_eq_zero.1 a1 with h | h
      · exact sub_eq_zero.1 h
      · exact absurd (sub_eq_zero.1 h) h1
    rw [← a2] at k0 k5
    have a3 : P * (z + conj z - 2) = 0 := by linear_combination k0 - k5
    have a4 : P = 0 := by
      rcases mul_eq_zero.1 a3 with h | h
      · exact h
      · exact absurd (sub_eq_zero.1 h) h2
    have a5 : k = 0 := by rw [a4] at k5; simpa using k5
    simp only [List.mem_cons, List.not_mem_nil, or_false] at hx
    rcases hx with rfl | rfl | rfl
    · exact a4
    · rw [← a2]; exact a4
    · exact a5

theorem m2_index : (["M2"].mapM constitIndex : Except PyErr (List ℕ)) = .ok [47] := by kernel_rfl

/-- The selection of M2 alone. -/
def m2Sel (tref : ℝ) : Sel :=
  { nrName := [nameAt 47], nrLind := [47], nrFrq := [linFreqs tref 47], refs := [], nNR := 1, nR := 0, nI := 0,
    name := [nameAt 47], lind := [47], frq := [linFreqs tref 47] }

theorem m2_sel (tref : ℝ) (mr : Fl) : cnstitsel tref mr (.names ["M2"]) none = .ok (m2Sel tref) := by
  unfold cnstitsel startLind
  dsimp only
  rw [m2_index]
  rfl

theorem nameAt_M2 : nameAt 47 = "M2" := by decide +kernel

theorem quad_prep (a b c d : ℝ) (v : Option Series) (hv : v = none ∨ ∃ a b c d, v = some (quadSeries a b c d))
    (q : Opt) (hq : LikeEx q) : ∃ p, QuadPrep v q a b c d p := by
  have R := quad_ready a b c d v hv
  have hus := quad_usable a b c d v hv
  have hne : usable quadTn (quadSeries a b c d).data (v.map Series.data) ≠ [] := by
    intro h0; rw [h0] at hus; simp at hus
  have hlen : SameLength quadTn (quadSeries a b c d).data (v.map Series.data) := by
    refine ⟨rfl, fun w hw => ?_⟩
    rcases hv with rfl | ⟨d, e, f, g, rfl⟩
    · simp at hw
    · simp only [Option.map_some, Option.some.injEq] at hw; subst hw; rfl
  obtain ⟨ed, hed⟩ := editData_total quadTn (quadSeries a b c d).data (v.map Series.data) hlen hne
  have hshape : GoodShapes quadT (quadSeries a b c d) v := by
    refine ⟨rfl, rfl, ?_⟩
    rintro w rfl
    rcases hv with h | ⟨d, e, f, g, h⟩
    · cases h
    · cases h; rfl
  obtain ⟨-, h2, h3, -, h5⟩ := editData_usable _ _ _ hlen _ hed
  rw [hus] at h2 h5
  have href : ed.tref = 0.5 := by
    have e1 : finiteTimes quadTn = [0, 0.5, 1, 1] := by simp [finiteTimes, quadTn, Fl.toReal?]
    rw [e1] at h5
    unfold timeStats at h5
    by_cases he : isEqui [0, 0.5, 1, 1]
    · simp only [he, if_true] at h5
      have h6 := congrArg Prod.fst (Except.ok.inj h5)
      exact h6.symm.trans (by show (0.5 : ℝ) * (0 + 1) = 0.5; norm_num)
    · simp only [he] at h5
      have h6 := congrArg Prod.fst (Except.ok.inj h5)
      exact h6.symm.trans (by show (0.5 : ℝ) * (0 + 1) = 0.5; norm_num)
  obtain ⟨z, m0, m5, m1, hne1, hne2⟩ := m2_values
  have hrow : ∀ τ, modelRow q.flags ed.tref 45 ed.lor (!q.notrend) (approxOf none)
      (m2Sel ed.tref) τ = [m2 τ, conj (m2 τ), 1] := by
    intro τ
    have hm : utE q.flags ed.tref 45 τ (linFreqs ed.tref 47) 47 = m2 τ := by
      unfold m2 nameBasis
      have h47 : constitNames.idxOf "M2" = 47 := by decide +kernel
      rw [h47, hq.flags, href]
    unfold modelRow rowNR m2Sel
    simp only [List.zipWith_cons_cons, List.zipWith_nil_left, hm, hq.notrend]
    simp
  have hB : ed.t.map (modelRow q.flags ed.tref 45 ed.lor (!q.notrend) (approxOf none)
      (m2Sel ed.tref)) =
      [[z, conj z, 1], [1, 1, 1], [conj z, z, 1], [conj z, z, 1]] := by
    rw [h2]
    simp only [List.map_cons, List.map_nil, hrow, m0, m5, m1, map_one, Complex.conj_conj]
  have hnm : numCols (!q.notrend) (m2Sel ed.tref) = 3 := by
    rw [hq.notrend]; rfl
  refine ⟨⟨q, none, ed, 45, m2Sel ed.tref, _, _⟩, ?_, ⟨z, hne1, hne2, hB⟩, hnm, ?_, ?_, rfl, h2⟩
  · refine ⟨⟨rfl, hshape, by rw [hq.epoch]; exact quad_times, hed⟩, by rw [hq.cnstit]; rfl, by rw [hq.infer]; rfl,
      m2_sel _ _, ?_, rfl, rfl, rfl⟩
    unfold checkMatrix
    rw [hq.flags, hq.notrend]
    rfl
  · show IndepColumns (numCols _ _) (ed.t.map _)
    rw [hB, hnm]
    exact quad_indep z hne1 hne2
  · show [nameAt 47] = _
    rw [nameAt_M2]

end

end UTide.Props
