import Verif.Props.FourierProps
import Verif.Props.OrthoExample

/-!
# A case of C127: S2 and S4 in eight samples over half a day
-/

namespace UTide.Props

noncomputable section

open Classical

local notation "conj" => starRingEnd ℂ

/-- The options of `listOpts`, with linearised intervals and a white noise floor. -/
def listCiOpts (ns : List String) : Dict PyVal :=
  [("constit", .seq .list (ns.map .str)), ("conf_int", .str "linear"), ("trend", .bool false), ("nodal", .bool false),
   ("phase", .str "raw"), ("order_constit", .str "frequency"), ("epoch", .str "python"), ("white", .bool true)]

def listCiOpt (td : Bool) (ns : List String) : Opt :=
  { ciOpt td true true with cnstit := .seq .list (ns.map .str), ordercnstit := .str "frequency" }

theorem listCi_opt (td : Bool) (ns : List String) : getOpt (listCiOpts ns) td = .ok (listCiOpt td ns) := by
  cases td <;> kernel_rfl

theorem listCi_nodup (ns : List String) : (listCiOpts ns).keys.Nodup :=
  (by decide : ["constit", "conf_int", "trend", "nodal", "phase", "order_constit", "epoch", "white"].Nodup)

theorem octS_reftime {ys : Fin 8 → ℝ} {opts : Dict PyVal} {c : Coef}
    (h : solve idealEnv octT (octSeries ys) none (some 45) opts = .ok c) (he : c.opt.epoch = .str "python") :
    c.reftime = 7 / 32 := by
  have R := octS_ready ys
  obtain ⟨opt, p, tn, constit, m, W, rf, full, o, ind, F⟩ := solve_facts R h
  have htn : tn = octTn := by
    have := F.prep.init.time
    rw [← F.copt, he] at this
    exact Except.ok.inj (this.symm.trans oct_times)
  subst htn
  rw [F.creftime]
  obtain ⟨-, -, -, -, h5⟩ := editData_usable _ _ _ (F.samples R).1 _ F.prep.init.edit
  have e1 : finiteTimes octTn = octTimes := by simp [finiteTimes, Fl.toReal?, octTn, octTimes]
  rw [e1, show (usable octTn (octSeries ys).data (Option.map Series.data none)).map Prod.fst = octTimes from octS_usable ys] at h5
  unfold timeStats at h5
  by_cases he : isEqui octTimes
  · simp only [he, if_true] at h5
    have h6 := congrArg Prod.fst (Except.ok.inj h5)
    exact h6.symm.trans (by show (0.5 : ℝ) * (0 + 7 / 16) = 7 / 32; norm_num)
  · simp only [he, if_false] at h5
    have h6 := congrArg Prod.fst (Except.ok.inj h5)
    exact h6.symm.trans (by show (0.5 : ℝ) * (0 + 7 / 16) = 7 / 32; norm_num)

/-- In the eight samples S2 and S4 average out, whatever the values. -/
theorem octS_averages (ys : Fin 8 → ℝ) {c : Coef} (hn : c.name.Perm ["S2", "S4"]) (hr : c.reftime = 7 / 32)
    (hfl : c.opt.flags.nodsatnone = true ∧ c.opt.flags.gwchnone = true) (htr : c.opt.notrend = true) {n : String} (hm : n ∈ c.name) :
    AveragesOut c octTn (octSeries ys) none n 8 := by
  have hts : sampleTimes octTn (octSeries ys) none = octTimes := octS_usable ys
  have h2 : ∀ τ, harmonic c "S2" τ = octTurn (1 * (32 * τ - 7)) := by
    intro τ
    unfold harmonic nameBasis
    rw [idx_S2, hr, oct_utE c.opt.flags hfl c.lat τ 56 1 (by rw [freq_S2]; norm_num)]
    simp
  have h4 : ∀ τ, harmonic c "S4" τ = octTurn (2 * (32 * τ - 7)) := by
    intro τ
    unfold harmonic nameBasis
    rw [idx_S4, hr, oct_utE c.opt.flags hfl c.lat τ 88 2 (by rw [freq_S4]; norm_num)]
    simp
  have hnorm : ∀ x, ‖octTurn x‖ = 1 := fun x => by
    rw [octTurn_eq, Complex.norm_def, Complex.normSq_apply]
    show Real.sqrt (Real.cos _ * Real.cos _ + Real.sin _ * Real.sin _) = 1
    rw [← pow_two, ← pow_two, Real.cos_sq_add_sin_sq, Real.sqrt_one]
  obtain ⟨s1, s2, s3⟩ := octTurn_sums
  have hn2 : ∀ x y : ℝ, x = -y → octTurn x = conj (octTurn y) := fun x y h => by rw [h, octTurn_neg]
  have hp : ∀ x y : ℝ, x = y → octTurn x = octTurn y := fun x y h => by rw [h]
  have a0 := hn2 (32 * 0 - 7) 7 (by norm_num)
  have a1 := hn2 (32 * (1 / 16) - 7) 5 (by norm_num)
  have a2 := hn2 (32 * (2 / 16) - 7) 3 (by norm_num)
  have a3 := hn2 (32 * (3 / 16) - 7) 1 (by norm_num)
  have a4 := hp (32 * (4 / 16) - 7) 1 (by norm_num)
  have a5 := hp (32 * (5 / 16) - 7) 3 (by norm_num)
  have a6 := hp (32 * (6 / 16) - 7) 5 (by norm_num)
  have a7 := hp (32 * (7 / 16) - 7) 7 (by norm_num)
  have e : ∀ τ : ℝ, octTurn (2 * (32 * τ - 7)) = octTurn (32 * τ - 7) ^ 2 := fun τ => by
    have := octTurn_mul 2 (32 * τ - 7); push_cast at this; exact this
  have t1 : (octTimes.map fun τ : ℝ => octTurn (1 * (32 * τ - 7))).sum = 0 := by
    simp only [octTimes, List.map_cons, List.map_nil, List.sum_cons, List.sum_nil, one_mul, a0, a1, a2, a3, a4, a5, a6, a7,
      octTurn_one, octTurn_three, octTurn_five, octTurn_seven]
    apply Complex.ext <;> simp <;> ring
  have t2 : (octTimes.map fun τ : ℝ => octTurn (2 * (32 * τ - 7)) ^ 2).sum = 0 := by
    simp only [octTimes, List.map_cons, List.map_nil, List.sum_cons, List.sum_nil, e, a0, a1, a2, a3, a4, a5, a6, a7,
      octTurn_one, octTurn_three, octTurn_five, octTurn_seven]
    have h := octTurn_mul 2 1
    push_cast at h
    rw [mul_one, octTurn_two, octTurn_one, pow_two] at h
    have p := congrArg Complex.re h
    have q := congrArg Complex.im h
    simp only [Complex.mul_re, Complex.mul_im] at p q
    apply Complex.ext
    · simp [pow_two]
      linear_combination 8 * (oC * oC - oS * oS + 2 * oC * oS) * (q - p)
    · simp [pow_two]; ring
  have hsize : ∀ f : ℝ → ℝ, (octTimes.map fun τ : ℝ => ‖octTurn (f τ)‖ ^ 2).sum = 8 := by
    intro f
    simp only [hnorm, octTimes]
    norm_num
  have hm' := hn.mem_iff.1 hm
  simp only [List.mem_cons, List.not_mem_nil, or_false] at hm'
  rcases hm' with rfl | rfl
  · refine ⟨⟨?_, fun h => (by rw [htr] at h; cases h), fun k hk => ?_, fun k hk => ?_⟩, ?_, ?_, by norm_num⟩
    · rw [hts]; simp only [h2]; exact t1
    · have hk' := hn.mem_iff.1 (List.mem_filter.1 hk).1
      have hne : k ≠ "S2" := by simpa using (List.mem_filter.1 hk).2
      simp only [List.mem_cons, List.not_mem_nil, or_false] at hk'
      obtain rfl := hk'.resolve_left hne
      rw [hts]; simp only [h2, h4]
      have := congrArg conj s2
      rw [list_sum_conj, map_zero] at this
      simpa [mul_comm] using this
    · have hk' := hn.mem_iff.1 (List.mem_filter.1 hk).1
      have hne : k ≠ "S2" := by simpa using (List.mem_filter.1 hk).2
      simp only [List.mem_cons, List.not_mem_nil, or_false] at hk'
      obtain rfl := hk'.resolve_left hne
      rw [hts]; simp only [h2, h4, mul_comm (octTurn (2 * _))]
      exact s3
    · rw [hts]; simp only [h2, one_mul, ← e]; exact s1
    · rw [hts]; simp only [h2]; exact hsize _
  · refine ⟨⟨?_, fun h => (by rw [htr] at h; cases h), fun k hk => ?_, fun k hk => ?_⟩, ?_, ?_, by norm_num⟩
    · rw [hts]; simp only [h4]; exact s1
    · have hk' := hn.mem_iff.1 (List.mem_filter.1 hk).1
      have hne : k ≠ "S4" := by simpa using (List.mem_filter.1 hk).2
      simp only [List.mem_cons, List.not_mem_nil, or_false] at hk'
      obtain rfl := hk'.resolve_right hne
      rw [hts]; simp only [h2, h4]; exact s2
    · have hk' := hn.mem_iff.1 (List.mem_filter.1 hk).1
      have hne : k ≠ "S4" := by simpa using (List.mem_filter.1 hk).2
      simp only [List.mem_cons, List.not_mem_nil, or_false] at hk'
      obtain rfl := hk'.resolve_right hne
      rw [hts]; simp only [h2, h4]; exact s3
    · rw [hts]; simp only [h4]; exact t2
    · rw [hts]; simp only [h4]; exact hsize _

/-- Any eight values: the ellipses of S2 and S4 are averages. -/
example (ys : Fin 8 → ℝ) : ∃ c i e, OlsRun idealEnv (some 45) (listOpts ["S2", "S4"] (.str "frequency")) none octT (octSeries ys) none octTn c ∧
    c.name[i]? = some "S4" ∧ AveragesOut c octTn (octSeries ys) none "S4" 8 ∧ ellipseAt c.ell i = some e ∧
    ccw e = (1 / 8 : ℝ) * ((usable octTn (octSeries ys).data none).map fun s => conj (harmonic c "S4" s.1) * s.2).sum := by
  obtain ⟨c, hc⟩ := octS_returns ys
  obtain ⟨ho, hn, hr⟩ := octS_opt hc
  have H : OlsRun idealEnv (some 45) (listOpts ["S2", "S4"] (.str "frequency")) none octT (octSeries ys) none octTn c :=
    ⟨octS_ready ys, someOpts_nodup _ _, ⟨_, rfl, .inl rfl⟩, hc, list_kept (octS_ready ys) _ c hc, by rw [ho]; rfl, by simp,
      by rw [ho]; exact oct_times, hn.nodup_iff.2 (by simp)⟩
  have hm : "S4" ∈ c.name := hn.mem_iff.2 (by simp)
  have A := octS_averages ys hn hr (by rw [ho]; exact ⟨rfl, rfl⟩) (by rw [ho]; rfl) hm
  obtain ⟨i, hi⟩ := List.getElem?_of_mem hm
  obtain ⟨e, he, h1, -⟩ := C127_average H hi A
  exact ⟨c, i, e, H, hi, A, he, h1⟩

/-- The same values analysed with intervals. -/
theorem octS_white (ys : Fin 8 → ℝ) : ∃ c, WhiteRun idealEnv octT (octSeries ys) none (some 45) (listCiOpts ["S2", "S4"]) c octTn ∧
    c.name.Perm ["S2", "S4"] ∧ ∀ n ∈ c.name, AveragesOut c octTn (octSeries ys) none n 8 := by
  have R := octS_ready ys
  obtain ⟨c, hc⟩ := octS_returns ys
  obtain ⟨ho, hn, hr⟩ := octS_opt hc
  obtain ⟨h1, h2, h3⟩ := S2S4_nyquist (S2S4_frq hc hn)
  have hsep := C101_separated R (someOpts_nodup _ _) hc (list_steady _ _) (list_notVanishing _ _ _) h1 h2 (1 / 16)
    (by norm_num) h3 _ (octS_stretch (ys := ys) hn ho) none false
  have hts : sampleTimes octTn (octSeries ys) none = octTimes := octS_usable ys
  obtain ⟨c', hc'⟩ := C72_available (opts' := listCiOpts ["S2", "S4"]) R idealNum_ok.inv idealNum_ok.mvn (someOpts_nodup _ _)
    (listCi_nodup _) (by
      intro k hk
      simp only [intervalKeys, List.mem_cons, List.not_mem_nil, or_false, not_or] at hk
      obtain ⟨k1, k2, k3, k4⟩ := hk
      have b1 : (("conf_int" : String) == k) = false := by simpa using Ne.symm k1
      have b2 : (("white" : String) == k) = false := by simpa using Ne.symm k2
      simp only [requested, someOpts, listCiOpts, List.find?, b1, b2]) ⟨_, rfl, .inl rfl⟩ hc
    (by rw [ho]; rfl) (list_kept R _ c hc) (by rw [ho]; exact oct_times) ⟨hsep, by
      rw [hts]
      unfold numPar
      rw [hn.length_eq, ho]
      simp [octTimes, someOpt, exOpt]⟩ _ (listCi_opt false _) rfl (.inl rfl)
  obtain ⟨opt, p, tn, constit, m, W, rf, full, o, ind, F⟩ := solve_facts R hc'
  have ho' : c'.opt = listCiOpt false ["S2", "S4"] := by
    rw [F.copt]
    exact Except.ok.inj (F.hopt.symm.trans (listCi_opt false _))
  have hn' : c'.name.Perm ["S2", "S4"] :=
    (C17_honoured idealEnv octT _ none (some 45) _ R (listCi_nodup _) .list (by simp) _ rfl rfl _ rfl c' hc').1 (.inr ⟨_, rfl⟩)
  refine ⟨c', ⟨hc', listCi_nodup _, ⟨_, rfl, .inl rfl⟩, by rw [ho']; rfl, by rw [ho']; rfl, by rw [ho']; rfl, by rw [ho']; rfl, ?_,
    by rw [ho']; exact oct_times⟩, hn', fun n hm => octS_averages ys hn' (octS_reftime hc' (by rw [ho']; rfl)) (by rw [ho']; exact ⟨rfl, rfl⟩)
      (by rw [ho']; rfl) hm⟩
  left; right; left; left
  rw [ho']
  rfl

/-- Any eight values: the interval of the amplitude of S4 is 1.96 times half the estimated noise. -/
example (ys : Fin 8 → ℝ) : ∃ c i ci e s2, WhiteRun idealEnv octT (octSeries ys) none (some 45) (listCiOpts ["S2", "S4"]) c octTn ∧
    c.name[i]? = some "S4" ∧ c.ci = some ci ∧ ellipseAt c.ell i = some e ∧
    NoiseVariance c (sampleTimes octTn (octSeries ys) none) (sampleU octTn (octSeries ys) none) s2 ∧
    (e.Lsmaj ≠ 0 → ∃ r, intervalAt ci i = some r ∧ r.maj = .fin (1.96 * Real.sqrt (2 * s2 / 8))) := by
  obtain ⟨c, H, hn, hA⟩ := octS_white ys
  have hm : "S4" ∈ c.name := hn.mem_iff.2 (by simp)
  obtain ⟨i, hi⟩ := List.getElem?_of_mem hm
  obtain ⟨ci, e, s2, k1, k2, k3, k4⟩ := C127_interval (octS_ready ys) idealNum_ok.inv H (hn.nodup_iff.2 (by simp)) hi (hA _ hm)
  exact ⟨c, i, ci, e, s2, H, hi, k1, k2, k3, fun h => ⟨_, k4 h, rfl⟩⟩

end

end UTide.Props
