import Verif.Props.RecProps
import Verif.Props.ReturnProps
import Verif.Props.NodalProps
import Verif.Props.RobustScale
import Verif.Props.RobustEqs
import Verif.Props.RobustOls
import Verif.Props.ConfProps
import Verif.Props.SpdProps
import Verif.Props.LombProps
import Verif.Props.GridProps
import Verif.Props.PsdProps

/-!
# Concrete cases: options, selection, times, basis functions, robust fit, spectra

Each `example` applies the theorem named in its comment to particular, non-trivial data; the hypotheses are discharged.
-/

namespace UTide.Props

open Classical

noncomputable section

/-! ## Options and selection -/

/-- Two inferred constituents of `S2` and one of `K1`. -/
def caseSpec : InferSpec := ⟨["K2", "P1", "T2"], ["S2", "K1", "S2"], [1, 1, 1], [0, 0, 0], false⟩

/-- `C12_layout`, `C18_selection`, `C44_raw_paths_agree`: `M2` requested along with the reference `S2`. -/
example (tref lat t : ℝ) : ∃ s, cnstitsel tref .nan (.names ["M2", "S2"]) (some caseSpec) = .ok s ∧
    s.name = s.nrName ++ ["S2", "K1"] ++ ["K2", "T2", "P1"] ∧ "S2" ∉ s.nrName ∧
    (∀ (i : ℕ) (hi : i < s.lind.length), gwV ⟨false, true, false, true⟩ tref t s.lind[i] =
      24 * (t - tref) * linFreqs tref s.lind[i]) := by
  obtain ⟨s, hs⟩ := C12_total tref .nan (.names ["M2", "S2"]) caseSpec rfl (.inl rfl) rfl
    (by intro ns h; cases h; decide +kernel) (by decide +kernel)
  obtain ⟨h1, -, -, -, h2, -⟩ := C12_layout tref .nan _ caseSpec rfl s hs
  obtain ⟨-, h3, h4⟩ := C18_selection tref .nan _ _ s hs
  have e1 : inOrderOfFirstAppearance caseSpec.reference = ["S2", "K1"] := by decide +kernel
  have e2 : (["S2", "K1"]).flatMap (inferredOf caseSpec) = ["K2", "T2", "P1"] := by decide +kernel
  rw [e1, e2] at h1
  refine ⟨s, hs, h1, fun h => (h2 "S2" h).1 (by simp [caseSpec]), fun i hi => ?_⟩
  have hf : i < s.frq.length := by rw [h3]; exact hi
  obtain ⟨n, f, -, h5, -, h6⟩ := h4 i hi
  have h7 := (C44_raw_paths_agree tref .nan _ _ s hs i hi hf ⟨false, true, false, true⟩ rfl lat t).1
  rw [h7, ← h6, (List.getElem_eq_iff hf).2 h5]

/-- `C16_selection`: halving `minres`. -/
example (tref : ℝ) : ∃ s s', cnstitsel tref (.fin (1 / 24)) .auto none = .ok s ∧
    cnstitsel tref (.fin (1 / 48)) .auto none = .ok s' ∧ ∀ i ∈ s.lind, i ∈ s'.lind :=
  ⟨_, _, rfl, rfl, C16_selection tref tref _ _ (by norm_num) _ _ rfl rfl⟩

/-- `C14_missing_key`: no phase offsets. -/
example : validateInfer (.dict true [("inferred_names", .seq .list [.str "P1"]),
    ("reference_names", .seq .list [.str "K1"]), ("amp_ratios", .seq .list [.num (1/3)])]) false =
      .error .typeError :=
  (C14_missing_key _ false ⟨"phase_offsets", by decide, by decide⟩).2 (by decide)

/-- A specification with two reference names for one inferred constituent. -/
def badInfer : Dict PyVal := [("inferred_names", .seq .list [.str "P1"]),
  ("reference_names", .seq .list [.str "K1", .str "S2"]), ("amp_ratios", .seq .list [.num (1/3)]),
  ("phase_offsets", .seq .list [.num 0])]

theorem badInfer_refused : validateInfer (.dict true badInfer) false = .error .valueError := by
  refine (C14_validation_partial badInfer false ?_).2 ?_
  · intro k hk
    simp only [requiredKeys, List.mem_cons, List.not_mem_nil, or_false] at hk
    rcases hk with rfl | rfl | rfl | rfl <;> exact ⟨_, _, rfl⟩
  · rintro ⟨_, _, _, _, names, refs, _, _, h1, h2, -, -, h3, -⟩
    cases h1
    cases h2
    simp at h3

/-- `C14_validation_partial`, `C14_refused_before_computation`. -/
example : getOpt [("infer", .dict true badInfer), ("nodal", .bool false)] false = .error .valueError :=
  C14_refused_before_computation _ (by decide) false (.dict true badInfer) .valueError
    (by decide) rfl badInfer_refused

/-- `C19_values`, `C20_modes`: some options given, the rest at their defaults. -/
example : ∃ q, getOpt [("nodal", .bool false), ("phase", .str "linear_time"), ("trend", .bool false),
      ("Rayleigh_min", .num (9 / 10)), ("method", .str "robust")] false = .ok q ∧
    q.cnstit = .str "auto" ∧ q.notrend = true ∧ q.white = false ∧ q.rmin = 9 / 10 ∧ (∃ kw, q.method = .robust kw) ∧
    flagMode q.flags.nodsatlint q.flags.nodsatnone = some .off ∧
    flagMode q.flags.gwchlint q.flags.gwchnone = some .atReference := by
  obtain ⟨q, hq⟩ : ∃ q, getOpt [("nodal", .bool false), ("phase", .str "linear_time"), ("trend", .bool false),
      ("Rayleigh_min", .num (9 / 10)), ("method", .str "robust")] false = .ok q := ⟨_, rfl⟩
  obtain ⟨-, h1, -, ⟨v, h3, h3'⟩, ⟨w, h4, h4'⟩, -, ⟨x, h5, h5'⟩, ⟨m, h6, h6'⟩, -⟩ := C19_values _ (by decide) _ q hq
  obtain ⟨h7, h8⟩ := C20_modes _ (by decide) _ q hq
  cases h3
  cases h4
  cases h5
  cases h6
  refine ⟨q, hq, (Option.some.inj h1).symm, ?_, (Except.ok.inj h4').symm, h5' _ rfl, ?_, h7 _ rfl, h8 _ rfl⟩
  · have := Except.ok.inj h3'
    revert this
    cases q.notrend <;> simp
  · cases hm : q.method with
    | ols => rw [hm] at h6'; exact absurd (h6'.2 trivial) (by simp [IsStr])
    | robust kw => exact ⟨kw, rfl⟩

/-- `C21_conf_int`. -/
example : processOpts [("conf_int", .str "bootstrap"), ("white", .bool true)] true = .error .valueError :=
  C21_conf_int _ (by decide) true (.str "bootstrap") (.none) .none (by decide) rfl rfl rfl (by simp [IsStr])

/-- `C21_order_constit`: `SNR` without intervals; the default. -/
example : processOpts [("order_constit", .str "SNR"), ("conf_int", .str "none")] false = .error .valueError ∧
    ∀ q, getOpt [("trend", .bool false)] false = .ok q → q.ordercnstit = .str "PE" :=
  ⟨(C21_order_constit _ (by decide) false (.str "SNR") (.str "none") .none .none (by decide) rfl rfl rfl rfl).1
      "SNR" rfl (by simp) (by simp) (.inr rfl),
    fun q hq => ((C21_order_constit _ (by decide) false .none (.str "linear") .none .none (by decide) rfl rfl rfl
      rfl).2 q hq).1 rfl⟩

/-- `C22_calls_independent`: three calls, the second one wrong. -/
example (x : PyVal) : (session ⟨defaultOpts, x⟩ [⟨[("nodal", .bool false)], false, false⟩,
      ⟨[("nodel", .bool false)], false, true⟩, ⟨[], true, false⟩]).1 =
    [processOpts [("nodal", .bool false)] false,
      processOpts ([("nodel", PyVal.bool false), ("infer", x)]) false, processOpts [] true] :=
  (C22_calls_independent _ (by simp [Dict.keys]) x).1

/-- `C74_accepted`. -/
example : ∃ q, getOpt [("conf_int", .str "MC"), ("nodal", .str "linear_time"), ("method", .str "ols")] true = .ok q :=
  C74_accepted _ ⟨⟨by decide, by decide, ⟨"MC", rfl, by decide⟩, ⟨_, _, rfl, rfl⟩, ⟨_, _, rfl, rfl⟩, ⟨_, rfl⟩, ⟨_, _, rfl⟩,
    ⟨_, rfl⟩, ⟨_, rfl⟩, ⟨_, rfl⟩, ⟨_, rfl⟩, .inl rfl⟩, rfl⟩ true

/-! ## Times -/

/-- `C25_epoch_relabels`: 2000-01-01 (10957 days after 1970-01-01). -/
example : let dt64 : String → Option ℤ := fun s => if s = "2000-01-01" then some (10957 * 86400000) else none
    normalizeTime dt64 (.float [.fin 0, .fin (1 / 2)]) (.str "2000-01-01") = .ok [.fin 730120, .fin (730120 + 1 / 2)] ∧
    normalizeTime dt64 (.float [.fin 730486, .fin (730486 + 1 / 2)]) (.str "matlab") =
      .ok [.fin 730120, .fin (730120 + 1 / 2)] := by
  intro dt64
  obtain ⟨-, h1, -, h2⟩ := C25_epoch_relabels dt64 (10957 * 86400000) "2000-01-01" rfl (by decide) (by decide) [0, 1 / 2]
  have e : dayNumberOf (10957 * 86400000) = 730120 := by norm_num [dayNumberOf]
  rw [e] at h1 h2
  constructor
  · simp only [List.map_cons, List.map_nil] at h1
    rw [h1]; norm_num
  · simp only [List.map_cons, List.map_nil] at h2
    norm_num at h2 ⊢
    exact h2

/-- `C25_datetimes_agree`: six hours. -/
example (dt64 : String → Option ℤ) (E : ℤ) : normalizeTime dt64 (.date [some (E + 21600000)]) .none =
    normalizeTime dt64 (.float [.fin (1 / 4)]) (.date E) := by
  have h := C25_datetimes_agree dt64 E [21600000]
  simp only [List.map_cons, List.map_nil] at h
  rw [h]
  norm_num

/-- `C25_integers`. -/
example (dt64 : String → Option ℤ) : normalizeTime dt64 (.int [730120, 730121]) (.str "python") =
    normalizeTime dt64 (.float [.fin 730120, .fin 730121]) (.str "python") := by
  have h := C25_integers dt64 [730120, 730121] (.str "python") (by simp)
  simpa using h

/-! ## Percent energy -/

/-- `C32_shares`, `C32_units`: two current ellipses, in metres and in centimetres. -/
example : pe (.two [300, 400] [0, -100] [0, 0] [0, 0]) = pe (.two [3, 4] [0, -1] [0, 0] [0, 0]) ∧
    ∃ P : List ℝ, pe (.two [3, 4] [0, -1] [0, 0] [0, 0]) = P.map Fl.fin ∧ P.sum = 100 := by
  have hl : EllArr.Len 2 (.two [3, 4] [0, -1] [0, 0] [0, 0]) := ⟨rfl, rfl, rfl, rfl⟩
  have hz : Nonzero (.two [3, 4] [0, -1] [0, 0] [0, 0]) := .inl ⟨3, by simp, by norm_num⟩
  refine ⟨C32_units 2 _ _ hl ⟨rfl, rfl, rfl, rfl⟩ hz 100 (by norm_num) (by norm_num [Scaled]), ?_⟩
  obtain ⟨P, h1, -, -, h2, -⟩ := C32_shares 2 _ hl hz
  exact ⟨P, h1, h2⟩

/-! ## Basis functions -/

/-- `2SM2`: twice `S2` less `M2`. -/
theorem case_2SM2 : constitNames[62]? = some "2SM2" ∧ kindOf 62 = some (.shallow [(56, ⟨2, 0⟩), (47, ⟨-1, 0⟩)]) ∧
    constitNames[56]? = some "S2" ∧ constitNames[47]? = some "M2" :=
  ⟨rfl, rfl, rfl, rfl⟩

/-- `C39_frequency`, `C39_argument`, `C39_nodal`. -/
example (fl : Flags) (tref lat t : ℝ) : linFreqs tref 62 = 2 * linFreqs tref 56 - linFreqs tref 47 ∧
    gwV fl tref t 62 = 2 * gwV fl tref t 56 - gwV fl tref t 47 ∧
    nodU fl tref lat t 62 = 2 * nodU fl tref lat t 56 - nodU fl tref lat t 47 ∧
    nodF fl tref lat t 62 = nodF fl tref lat t 56 ^ (2 : ℝ) * nodF fl tref lat t 47 ^ (1 : ℝ) := by
  have h := case_2SM2.2.1
  refine ⟨?_, ?_, ?_, ?_⟩
  · rw [C39_frequency tref 62 _ h]; simp [weightedSum, Dy.toReal]; ring
  · rw [C39_argument fl tref t 62 _ h]; simp [weightedSum, Dy.toReal]; ring
  · rw [(C39_nodal fl tref lat t 62 _ h).1]; simp [weightedSum, Dy.toReal]; ring
  · rw [(C39_nodal fl tref lat t 62 _ h).2]; simp [Dy.toReal]

/-- `C39_order_irrelevant`: the catalogue read backwards. -/
example (v : ℕ → ℝ) : loopShallow sumStep shallowRows.reverse v = loopShallow sumStep shallowRows v :=
  (C39_order_irrelevant _ (List.reverse_perm _) v).1

/-- `C40_continuous_partial`: `2SM2`. -/
example (tref : ℝ) : Continuous fun t => utE ⟨false, false, false, false⟩ tref 45 t (linFreqs tref 62) 62 :=
  C40_continuous_partial _ tref 45 62 (by norm_num) (by rw [case_2SM2.1]; decide) (by simp [ExactPhase])

/-- `C40_shift_partial`. -/
example (v : ℕ → ℝ) : cis (loopShallow sumStep shallowRows (fun j => v j + j) 62) =
    cis (loopShallow sumStep shallowRows v 62) :=
  C40_shift_partial _ v (fun j => ⟨j, by push_cast; ring⟩) 62 (by rw [case_2SM2.1]; decide)

/-- `C41_first_order`: `O1`. -/
example (fl : Flags) (tref : ℝ) :
    FirstOrder (fun t => gwV (exactPhase fl) tref t 12) (fun t => gwV (linPhase fl) tref t 12) tref :=
  C41_first_order fl tref 12 ⟨1, -1, 0, 0, 0, 0⟩ ⟨-1, 2⟩ rfl

/-- `C42_raw_sinusoid`: half a period after the reference time. -/
example (tref lat : ℝ) (k : ℕ) : utE ⟨false, true, false, true⟩ tref lat (tref + 1 / 4) (1 / 12) k = -1 := by
  rw [(C42_raw_sinusoid ⟨false, true, false, true⟩ rfl rfl tref lat (1 / 12) k).1]
  have : (2 * Real.pi * Complex.I * ((24 * (1 / 12) * (tref + 1 / 4 - tref) : ℝ) : ℂ)) = Real.pi * Complex.I := by
    push_cast; ring
  rw [this, Complex.exp_pi_mul_I]

/-- `C43_defined_partial`, `C43_near_equator`, `C43_irrelevant`, `C43_elsewhere`. -/
example (fl : Flags) (tref t frq : ℝ) (k : ℕ) : nodalSingular fl (-35) k = false ∧
    utE fl tref 1 t frq k = utE fl tref 2 t frq k ∧
    utE ⟨false, true, false, false⟩ tref 0 t frq k = utE ⟨false, true, false, false⟩ tref 45 t frq k ∧
    slat (-30) = -(1 / 2) := by
  refine ⟨C43_defined_partial fl _ (by norm_num) (by norm_num) (by norm_num) k, ?_, (C43_irrelevant _ rfl tref t 0 45 frq k).1,
    ?_⟩
  · rw [(C43_near_equator fl tref t 1 frq k).1 (by norm_num) (by norm_num),
      (C43_near_equator fl tref t 2 frq k).1 (by norm_num) (by norm_num)]
  · rw [C43_elsewhere _ (by norm_num), show (-30 : ℝ) * Real.pi / 180 = -(Real.pi / 6) by ring, Real.sin_neg,
      Real.sin_pi_div_six]

/-- `C73_basis_function`: `2SM2` is the square of the line of `S2` over that of `M2`. `C73_M7`. -/
example (tref t : ℝ) :
    utE ⟨false, false, false, false⟩ tref 45 t (linFreqs tref 62) 62 = textbook .exact .exact tref 45 t 62 ∧
    utE ⟨false, false, false, false⟩ tref 45 t (linFreqs tref (constitNames.idxOf "M7")) (constitNames.idxOf "M7") ^ 2 =
      tidalLine .exact .exact tref 45 t (constitNames.idxOf "M2") ^ 7 :=
  ⟨C73_basis_function _ _ _ rfl rfl tref 45 t (.inl (by norm_num)) 62 (by norm_num) (by rw [case_2SM2.1]; decide),
    C73_M7 _ _ _ rfl rfl tref 45 t (.inl (by norm_num))⟩

/-- `C92_compound`, `C92_never_zero`: `2SM2` is modulated by less than 6 percent. -/
example (fl : Flags) (tref t frq : ℝ) : nodF fl tref 45 t 62 ≤ 1.06 ∧ utE fl tref 45 t frq 62 ≠ 0 := by
  have hg : GoodLat 45 := ⟨by norm_num, by norm_num, by norm_num⟩
  refine ⟨?_, (C92_never_zero fl tref 45 t frq hg 62 (by norm_num) ?_).2⟩
  · obtain ⟨b, h1, -, h2⟩ := C92_compound fl tref 45 t hg 62 _ case_2SM2.2.1
    have hS : b 56 = 0.003 := by
      have := h1 (56, ⟨2, 0⟩) (by simp)
      have e : nameAt 56 = "S2" := rfl
      simp only [e] at this
      simpa [modulationBound] using this
    have hM : b 47 = 0.044 := by
      have := h1 (47, ⟨-1, 0⟩) (by simp)
      have e : nameAt 47 = "M2" := rfl
      simp only [e] at this
      simpa [modulationBound] using this
    refine h2.trans ?_
    simp [hS, hM, Dy.toReal]
    norm_num
  · have e : nameAt 62 = "2SM2" := rfl
    rw [e]
    simp [strongSatellites]

/-! ## Robust fit -/

/-- `C45_weights`: `bisquare`. -/
example (w : List ℝ) (h : WFun.bisquare.apply [0, 1 / 2, -2] = .ok w) : w.length = 3 ∧ w[0]? = some 1 ∧
    WFun.bisquare.apply [0, -1 / 2, 2 * Complex.I] = .ok w := by
  obtain ⟨h1, -, h2, -, -, h3⟩ := C45_weights "bisquare" .bisquare (by simp [WFun.ofName]) _ w h
  exact ⟨h1, h3 (by simp) 0 rfl, h2 _ (by simp)⟩

/-- `C46_unusable`. -/
example (out : RobOut) : robustfit idealNum ⟨"huber", none, 1, 1 / 1000, 50⟩ 1 triX triY ≠ .ok out :=
  C46_unusable idealNum idealNum_ok.lstsq _ (.inr le_rfl) 1 le_rfl triX triY tri_rows rfl (by simp) out

/-- The residual sums of squares of the ideal routine are not negative. -/
theorem ideal_resid_nonneg (rc : Option ℚ) (n : ℕ) (A : List (List ℂ)) (b : List ℂ) (s : ℝ)
    (h : (idealNum.lstsq rc n A b).resid = some s) : 0 ≤ s := by
  have h' : (if IndepColumns n A ∧ n < A.length then some (cost A b (idealLstsq rc n A b).b) else none) = some s := h
  split_ifs at h'
  cases h'
  exact cost_nonneg _ _ _

/-- `C47_iteration`, `C48_partial`: the three points 0, 1, 3 with the `fair` weights; two fits are made. -/
example : ∃ out, robustfit idealNum fairArgs 1 triX triY = .ok out ∧
    (∀ b', b'.length = 1 → wcost out.w triX triY out.b ≤ wcost out.w triX triY b') ∧
    ∃ f w fit, WFun.ofName fairArgs.wfName = .ok f ∧ Irls idealNum fairArgs f 1 triX triY w fit ∧
      out.b = (fit 1).b ∧ meanSquare (fit 1) (w 1) ≤ meanSquare (fit 0) (w 0) := by
  obtain ⟨out, h, hw, hi⟩ := fair_run idealNum idealNum_ok
  obtain ⟨⟨w, -, h1, h2⟩, -⟩ := C48_partial idealNum idealNum_ok fairArgs 1 triX triY out (.inr le_rfl) tri_rows rfl h
  obtain ⟨f, v, fit, h3, h4, -, -, h5, -, h6, -⟩ := C47_iteration idealNum
    ideal_resid_nonneg fairArgs 1 triX triY out h
  rw [hi] at h5 h6
  refine ⟨out, h, ?_, f, v, fit, h3, h4, h5, (h6 0 (by norm_num)).2⟩
  rcases h2 with rfl | h2
  · exact h1
  · rw [hi] at h2; exact absurd h2 (by decide)

/-! ## Angles and covariances -/

/-- `C55_cluster`: 350 degrees lies next to 10. -/
example : ∃ y, cluster 360 [10, 350, 30] = .ok y ∧ y.length = 3 ∧ y[0]? = some 10 := by
  obtain ⟨y, h1, h2, h3, -⟩ := (C55_cluster 360 (by norm_num) [10, 350, 30]).2 10 [350, 30] rfl
  exact ⟨y, h1, h2, h3⟩

/-- `C57_nearest`, `C57_exact`, `C57_symmetric`: a matrix with a negative eigenvalue. -/
example : (nearestSPD idealNum !![1, 2; 2, 1]).PosDef ∧ (nearestSPD idealNum !![1, 2; 2, 1]).IsSymm ∧
    frob (!![1, 2; 2, 1] - spdStart idealNum !![1, 2; 2, 1]) ≤ frob (!![1, 2; 2, 1] - 1) := by
  refine ⟨(C57_exact idealNum idealNum_ok.svd idealNum_ok.cholesky idealNum_ok.nudge _).1, C57_symmetric _ _, ?_⟩
  obtain ⟨-, h⟩ := C57_nearest idealNum idealNum_ok.svd !![1, 2; 2, 1]
  by_cases he : (1 : Matrix (Fin 2) (Fin 2) ℝ) = spdStart idealNum !![1, 2; 2, 1]
  · rw [← he]
  · exact (h 1 Matrix.PosSemidef.one he).le

/-! ## Spectra -/

/-- A periodogram of five values, a constituent at 0.08 cycles per hour: bands, linearity, bounds
(`C58_mean`, `C58_linear`, `C58_between`, `C59_partial`). -/
example (P Q : List ℂ) (hP : P.length = 5) (hQ : Q.length = 5) :
    (∃ avs, fbndavg P [0, 0.04, 0.08, 0.12, 0.16] [0.08] = .ok avs ∧ avs.length = 9) ∧
    (∃ x y z, fbndavg P [0, 0.04, 0.08, 0.12, 0.16] [0.08] = .ok x ∧ fbndavg Q [0, 0.04, 0.08, 0.12, 0.16] [0.08] = .ok y ∧
      fbndavg (List.zipWith (fun p q => 2 * p + 3 * q) P Q) [0, 0.04, 0.08, 0.12, 0.16] [0.08] = .ok z) := by
  have hs : [0, 0.04, 0.08, 0.12, (0.16 : ℝ)].Pairwise (· ≤ ·) := by
    simp only [List.pairwise_cons, List.mem_cons, List.not_mem_nil, or_false, forall_eq_or_imp, forall_eq, false_imp_iff,
      implies_true, List.Pairwise.nil, and_true]
    norm_num
  obtain ⟨excl, -, h⟩ := C58_mean [0, 0.04, 0.08, 0.12, 0.16] [0.08] hs (by simp)
  obtain ⟨avs, h1, h2, -⟩ := h P hP
  obtain ⟨x, y, z, h3, h4, h5, -⟩ := C58_linear [0, 0.04, 0.08, 0.12, 0.16] [0.08] hs (by simp) P Q 2 3 hP hQ
  exact ⟨⟨avs, h1, by rw [h2]; simp [noiseBands]⟩, x, y, z, h3, h4, h5⟩

/-- `C60_parseval`: four samples, the Hann window. -/
example : ∃ S, S = (psd false ([1, -1, 2, 0].map fun a : ℝ => (a : ℂ)) [0, 1 / 2, 1, 1 / 2] 1).sum.re ∧
    S * (1 / 4) = energy (tapered [1, -1, 2, 0] [0, 1 / 2, 1, 1 / 2]) / energy [0, 1 / 2, 1, 1 / 2] := by
  obtain ⟨-, -, h⟩ := C60_parseval [1, -1, 2, 0] [0, 1 / 2, 1, 1 / 2] 1 2 (by norm_num) rfl rfl one_pos
    ⟨1, by simp, one_ne_zero⟩
  refine ⟨_, rfl, ?_⟩
  rw [← h]
  norm_num

/-- `C62_unambiguous`: `M2` is in the third band and in no other. -/
example (l : ℕ) (b : ℝ × ℝ) (hl : noiseBands[l]? = some b) (hb : InBand b 0.0805) : l = 2 :=
  (C62_unambiguous 0.0805 2 l (0.07218, 0.08884) b (by simp [noiseBands]) hl (by norm_num [InBand]) hb).symm

/-- `C63_grid`, `C63_sorted`: four irregular hours. -/
example : (lombFreqs [0, 1, 3, 4]).Pairwise (· ≤ ·) ∧
    ∃ grid : List (List ℝ), lombFreqs [0, 1, 3, 4] = grid.flatten ∧ grid.length = 9 := by
  have h : ([0, 1, 3, 4] : List ℝ).headD 0 < ([0, 1, 3, 4] : List ℝ).getLastD 0 := by simp
  obtain ⟨g, h1, h2, -⟩ := C63_grid _ h
  exact ⟨C63_sorted _ h, g, h1, by rw [h2]; simp [noiseBands]⟩

/-- `C81_robustfit`: the three points reversed, doubled and raised by ten. -/
example : ∃ out out', robustfit idealNum fairArgs 1 triX triY = .ok out ∧
    robustfit idealNum fairArgs 1 triX [10, 8, 4] = .ok out' ∧
    out'.b = List.zipWith (fun b d => ((-2 : ℝ) : ℂ) * b + d) out.b [10] ∧ out'.w = out.w := by
  obtain ⟨out, h, -⟩ := fair_run idealNum idealNum_ok
  obtain ⟨out', h1, h2, h3, -⟩ := (C81_robustfit idealNum idealNum_ok fairArgs (.inr le_rfl) 1 triX triY [10, 8, 4] [10]
    tri_rows rfl (-2) (by norm_num) rfl rfl (by
      intro i r x h1 h2
      match i with
      | 0 | 1 | 2 => simp [triX, triY] at h1 h2; subst h1; subst h2; norm_num
      | n + 3 => simp [triX] at h1)).1 out h
  exact ⟨out, out', h, h1, h2, h3⟩

end

end UTide.Props
