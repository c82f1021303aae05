import Verif.Props.ShiftProps
import Verif.Props.JoinProps

/-!
# C154: how well the same record is fitted at another date
-/

namespace UTide

namespace Props

noncomputable section

open Classical ComplexConjugate

theorem shift_samples (s : ℝ) : ∀ (tn : List Fl) (xs : List (Option ℂ)),
    samples (tn.map (· + Fl.fin s)) xs = (samples tn xs).map fun p => (p.1 + s, p.2)
  | [], xs => by simp [samples]
  | x :: tn, [] => by simp [samples]
  | x :: tn, y :: xs => by
    have ih := shift_samples s tn xs
    unfold samples at ih ⊢
    simp only [List.map_cons, List.zip_cons_cons, List.filterMap_cons]
    rw [ih]
    cases x with
    | fin x =>
      cases y with
      | none => rfl
      | some y => rfl
    | nan => rfl
    | pinf => rfl
    | ninf => rfl

variable {E : Env} {t t' : TimeArg} {u : Series} {v : Option Series} {lat : Option ℝ} {opts : Dict PyVal} {s : ℝ}
  {sp : Option InferSpec} {tn tn' : List Fl} {c c' : Coef}

/-- **C154, fits.** Two ordinary least-squares analyses of the same values, the second record `s` days later (`s` may be
negative), without nodal corrections and with raw phases: they fit equally well, but for the drift of the speeds of the
tides between the dates. If every sample is within `d` days of the reference time and the amplitudes of the first
solution add up to at most `B`, the root of the second sum of squared residuals exceeds that of the first by at most
`3.1e-7·d·B` for the root of the number of samples. Inferred constituents are included. -/
theorem C154_fits (L : Later E t t' u v lat opts s c c') (H : OlsRun E lat opts sp t u v tn c)
    (H' : OlsRun E lat opts sp t' u v tn' c') (hn : requested opts "nodal" = some (.bool false))
    (hp : requested opts "phase" = some (.str "raw")) (h1 : |c.reftime - 693595.5| ≤ 146100)
    (h2 : |c'.reftime - 693595.5| ≤ 146100) (d B : ℝ) (hd0 : 0 ≤ d)
    (hd : ∀ τ, SampleTime tn u.data (v.map Series.data) τ → |τ - c.reftime| ≤ d)
    (hB : ((List.range c.name.length).map fun i => amplitude c i).sum ≤ B) :
    ∃ x x', Residual E t u v c x ∧ Residual E t' u v c' x' ∧ Real.sqrt x' ≤ Real.sqrt x +
      3.1e-7 * d * Real.sqrt (samples tn (sampleValues u.data (v.map Series.data))).length * B := by
  have hopt : c'.opt = c.opt := by
    obtain ⟨q, hq, e⟩ := solve_opt _ _ _ _ _ _ _ L.run
    obtain ⟨q', hq', e'⟩ := solve_opt _ _ _ _ _ _ _ L.run'
    rw [e, e']
    exact Except.ok.inj (hq'.symm.trans hq)
  have htn : tn' = tn.map (· + Fl.fin s) := by
    obtain ⟨tn0, e1, e2⟩ := L.times
    obtain rfl : tn0 = tn := Except.ok.inj (e1.symm.trans H.time)
    have := H'.time
    rw [hopt] at this
    exact Except.ok.inj (this.symm.trans e2)
  have hperm := C154_constituents L H.keys H.ready H'.ready H.kept H'.kept
  have href := C154_reference L
  obtain ⟨P, M, mean, slope, hT, hs, -, hell, -, hres, -⟩ := H.best
  obtain ⟨P', M', mean', slope', -, -, -, -, -, hres', hbest⟩ := H'.best
  refine ⟨_, _, hres, hres', ?_⟩
  have hb := hbest P M mean slope hT (by rw [hopt]; exact hs)
  refine (Real.sqrt_le_sqrt hb).trans ?_
  have hamp := fun i => run_amplitude_nonneg H.ready H.keys H.returned i
  have hroot := root_bound (samples tn (sampleValues u.data (v.map Series.data))) (List.range c.name.length)
    (amplitude c) (fun _ _ => 1) (3.1e-7 * d) B (by positivity) (fun i _ => hamp i) (fun _ _ => zero_le_one)
    (fun _ _ => by simpa only [one_mul] using hB)
  refine le_trans ?_ (add_le_add_right hroot _)
  unfold away
  rw [htn, shift_samples, List.map_map]
  refine minkowski _ (fun p : ℝ × ℂ => p.2 - rotaryCurve c P M mean slope p.1)
    (fun p => p.2 - rotaryCurve c' P M mean slope (p.1 + s))
    (fun p => ((List.range c.name.length).map fun i => 3.1e-7 * d * 1 * amplitude c i).sum) ?_
  intro p hsam
  have hst : SampleTime tn u.data (v.map Series.data) p.1 := by
    obtain ⟨i, h1, h2⟩ := (mem_samples _ _ _).1 hsam
    exact ⟨i, p.2, h1, h2⟩
  have hran := (C09_ranges E t u v lat opts H.keys c H.returned).1
  unfold rotaryCurve
  rw [(hperm.map _).sum_eq, href, add_sub_add_right_eq_sub]
  have hsplit : ∀ f : String → ℂ, (c.name.map f).sum =
      ((List.range c.name.length).map fun i => f (c.name.getD i "")).sum := by
    intro f
    congr 1
    apply List.ext_getElem
    · simp
    · intro i h1 h2
      rw [List.length_map] at h1
      simp [h1]
  rw [hsplit, hsplit]
  obtain ⟨F, hF⟩ : ∃ F : ℕ → ℂ, F = fun i => harmonic c (c.name.getD i "") p.1 * P (c.name.getD i "") +
      conj (harmonic c (c.name.getD i "") p.1) * M (c.name.getD i "") := ⟨_, rfl⟩
  obtain ⟨G, hG⟩ : ∃ G : ℕ → ℂ, G = fun i => harmonic c' (c.name.getD i "") (p.1 + s) * P (c.name.getD i "") +
      conj (harmonic c' (c.name.getD i "") (p.1 + s)) * M (c.name.getD i "") := ⟨_, rfl⟩
  have e1 : ∀ a b m : ℂ, p.2 - (a + mean + m) - (p.2 - (b + mean + m)) = b - a := fun a b m => by ring
  rw [e1, ← hF, ← hG, map_sum_sub]
  refine (norm_list_sum_le _ _).trans (List.sum_le_sum fun i hi => ?_)
  have hi := List.mem_range.1 hi
  have hnm : c.name[i]? = some (c.name.getD i "") := by simp [hi]
  obtain ⟨e, he, hP, hM⟩ := hell i _ hnm
  rw [← ellipse_amplitude c hran i e he, hP, hM, hF, hG]
  dsimp only
  have hz := (C154_harmonics L H.keys hn hp h1 h2 _ (List.mem_of_getElem? hnm) p.1).trans
    (mul_le_mul_of_nonneg_left (hd _ hst) (by norm_num))
  generalize c.name.getD i "" = n at *
  have e2 : harmonic c' n (p.1 + s) * P n + conj (harmonic c' n (p.1 + s)) * M n -
      (harmonic c n p.1 * P n + conj (harmonic c n p.1) * M n) =
      (harmonic c' n (p.1 + s) - harmonic c n p.1) * P n + conj (harmonic c' n (p.1 + s) - harmonic c n p.1) * M n := by
    rw [map_sub]
    ring
  rw [e2, mul_one]
  refine (norm_add_le _ _).trans ?_
  rw [norm_mul, norm_mul, Complex.norm_conj, ← mul_add]
  exact mul_le_mul_of_nonneg_right hz (by positivity)

/-- The earlier record is the later one moved back. -/
theorem Later.symm (L : Later E t t' u v lat opts s c c') : Later E t' t u v lat opts (-s) c' c := by
  have hopt : c'.opt = c.opt := by
    obtain ⟨q, hq, e⟩ := solve_opt _ _ _ _ _ _ _ L.run
    obtain ⟨q', hq', e'⟩ := solve_opt _ _ _ _ _ _ _ L.run'
    rw [e, e']
    exact Except.ok.inj (hq'.symm.trans hq)
  obtain ⟨tn, h1, h2⟩ := L.times
  refine ⟨L.run', L.run, tn.map (· + Fl.fin s), by rw [hopt]; exact h2, ?_⟩
  rw [hopt, h1, List.map_map]
  congr 1
  refine (List.map_id tn).symm.trans (List.map_congr_left fun x _ => ?_)
  cases x with
  | fin x => exact congrArg Fl.fin (by ring)
  | nan => rfl
  | pinf => rfl
  | ninf => rfl

/-- **C154, fits, both ways.** With a bound `B` on the added amplitudes of either solution, the roots of the sums of
squared residuals differ by at most `3.1e-7·d·B` for the root of the number of samples. -/
theorem C154_misfit (L : Later E t t' u v lat opts s c c') (H : OlsRun E lat opts sp t u v tn c)
    (H' : OlsRun E lat opts sp t' u v tn' c') (hn : requested opts "nodal" = some (.bool false))
    (hp : requested opts "phase" = some (.str "raw")) (h1 : |c.reftime - 693595.5| ≤ 146100)
    (h2 : |c'.reftime - 693595.5| ≤ 146100) (d B : ℝ) (hd0 : 0 ≤ d)
    (hd : ∀ τ, SampleTime tn u.data (v.map Series.data) τ → |τ - c.reftime| ≤ d)
    (hB : ((List.range c.name.length).map fun i => amplitude c i).sum ≤ B)
    (hB' : ((List.range c'.name.length).map fun i => amplitude c' i).sum ≤ B) :
    ∃ x x', Residual E t u v c x ∧ Residual E t' u v c' x' ∧ |Real.sqrt x' - Real.sqrt x| ≤
      3.1e-7 * d * Real.sqrt (samples tn (sampleValues u.data (v.map Series.data))).length * B := by
  have hopt : c'.opt = c.opt := by
    obtain ⟨q, hq, e⟩ := solve_opt _ _ _ _ _ _ _ L.run
    obtain ⟨q', hq', e'⟩ := solve_opt _ _ _ _ _ _ _ L.run'
    rw [e, e']
    exact Except.ok.inj (hq'.symm.trans hq)
  have htn : tn' = tn.map (· + Fl.fin s) := by
    obtain ⟨tn0, e1, e2⟩ := L.times
    obtain rfl : tn0 = tn := Except.ok.inj (e1.symm.trans H.time)
    have := H'.time
    rw [hopt] at this
    exact Except.ok.inj (this.symm.trans e2)
  have hlen : (samples tn' (sampleValues u.data (v.map Series.data))).length =
      (samples tn (sampleValues u.data (v.map Series.data))).length := by
    rw [htn, shift_samples, List.length_map]
  obtain ⟨x, x', r1, r2, l1⟩ := C154_fits L H H' hn hp h1 h2 d B hd0 hd hB
  obtain ⟨y', y, q2, q1, l2⟩ := C154_fits L.symm H' H hn hp h2 h1 d B hd0 (by
    rintro τ ⟨i, z, hi, hz⟩
    rw [C154_reference L]
    rw [htn, List.getElem?_map] at hi
    obtain ⟨x, hx, hxs⟩ := Option.map_eq_some_iff.1 hi
    cases x with
    | fin x =>
      have hτ : x + s = τ := Fl.fin.inj hxs
      have := hd x ⟨i, z, hx, hz⟩
      rw [← hτ, add_sub_add_right_eq_sub]
      exact this
    | nan => cases hxs
    | pinf => cases hxs
    | ninf => cases hxs) hB'
  obtain rfl : y = x := residual_unique q1 r1
  obtain rfl : y' = x' := residual_unique q2 r2
  rw [hlen] at l2
  exact ⟨y, y', r1, r2, abs_le.2 ⟨by linarith, by linarith⟩⟩

/-! ## Example -/

/-- An M2 analysis of three values of a day from `r` on. -/
theorem later_olsRun (r : ℝ) : ∃ c, OlsRun idealEnv (some 45) exOpts none (laterT r) dayU none
    ([.fin 0, .fin 0.5, .fin 1].map (· + Fl.fin r)) c ∧ c.opt = exOpt false ∧ c.name = ["M2"] ∧ r ≤ c.reftime ∧
    c.reftime ≤ r + 1 := by
  obtain ⟨c, hc⟩ := C75_returns _ _ _ _ _ _ (later_sound r)
  have R : Ready idealEnv (laterT r) dayU none := idealReady _ _ _ (later_sound r).ht dayReady.hu (by simp)
  have ho : c.opt = exOpt false := by
    obtain ⟨q, hq, hco⟩ := solve_opt _ _ _ _ _ _ _ hc
    rw [hco]
    exact (Except.ok.inj ((exOpt_eq false).symm.trans hq)).symm
  have hname := (C17_honoured idealEnv (laterT r) _ none (some 45) exOpts R (by decide) .list (by simp) ["M2"] rfl rfl
    (.str "frequency") rfl c hc).1 (.inr ⟨_, rfl⟩)
  have hn : c.name = ["M2"] := List.perm_singleton.1 hname
  have hk : AllKept c := by
    refine .inl (.inr (.inl ?_))
    rw [ho]
    exact .inl rfl
  have htm : normalizeTime idealEnv.dt64 (laterT r).arr c.opt.epoch =
      .ok ([.fin 0, .fin 0.5, .fin 1].map (· + Fl.fin r)) := by
    rw [ho]
    exact laterT_times r
  have hfin : finiteTimes ([Fl.fin 0, .fin 0.5, .fin 1].map (· + Fl.fin r)) = [0 + r, 0.5 + r, 1 + r] := by
    rw [shift_finiteTimes]
    rfl
  obtain ⟨⟨a, ha, h1⟩, b, hb, h2⟩ := C68_inside idealEnv _ _ _ _ _ R.ht R.hu R.hv c hc _ htm (by rw [hfin]; simp; norm_num)
  rw [hfin] at ha hb
  simp only [List.mem_cons, List.not_mem_nil, or_false] at ha hb
  refine ⟨c, ⟨R, by decide, ⟨_, rfl, .inl rfl⟩, hc, hk, by rw [ho]; rfl, by simp, htm, by rw [hn]; decide⟩, ho, hn, ?_, ?_⟩
  · rcases ha with rfl | rfl | rfl <;> linarith
  · rcases hb with rfl | rfl | rfl <;> linarith

/-- Non-vacuity: three values of a day in 1917 and the same values 10000 days later. -/
example : ∃ c c' x x', solve idealEnv (laterT 700000) dayU none (some 45) exOpts = .ok c ∧
    solve idealEnv (laterT 710000) dayU none (some 45) exOpts = .ok c' ∧
    Residual idealEnv (laterT 700000) dayU none c x ∧ Residual idealEnv (laterT 710000) dayU none c' x' ∧
    |Real.sqrt x' - Real.sqrt x| ≤ 3.1e-7 * 1 * Real.sqrt 3 * max (amplitude c 0) (amplitude c' 0) := by
  obtain ⟨c, H, ho, hn, a1, a2⟩ := later_olsRun 700000
  obtain ⟨c', H', ho', hn', b1, b2⟩ := later_olsRun 710000
  have L : Later idealEnv (laterT 700000) (laterT 710000) dayU none (some 45) exOpts 10000 c c' := by
    refine ⟨H.returned, H'.returned, _, H.time, ?_⟩
    rw [ho, ← ho']
    refine H'.time.trans ?_
    congr 1
    change [Fl.fin (0 + 710000), Fl.fin (0.5 + 710000), Fl.fin (1 + 710000)] =
      [Fl.fin (0 + 700000 + 10000), Fl.fin (0.5 + 700000 + 10000), Fl.fin (1 + 700000 + 10000)]
    norm_num
  obtain ⟨x, x', h1, h2, h3⟩ := C154_misfit L H H' rfl rfl (by rw [abs_le]; constructor <;> linarith)
    (by rw [abs_le]; constructor <;> linarith) 1 (max (amplitude c 0) (amplitude c' 0)) zero_le_one (by
      rintro τ ⟨i, z, hi, -⟩
      rw [List.getElem?_map] at hi
      have : τ = 0 + 700000 ∨ τ = 0.5 + 700000 ∨ τ = 1 + 700000 := by
        rcases i with _ | _ | _ | i
        · left; exact (Fl.fin.inj (Option.some.inj hi)).symm
        · right; left; exact (Fl.fin.inj (Option.some.inj hi)).symm
        · right; right; exact (Fl.fin.inj (Option.some.inj hi)).symm
        · simp at hi
      rw [abs_le]
      rcases this with rfl | rfl | rfl <;> constructor <;> linarith) (by rw [hn]; simp [List.range_succ])
      (by rw [hn']; simp [List.range_succ])
  refine ⟨c, c', x, x', H.returned, H'.returned, h1, h2, ?_⟩
  have e : (samples ([Fl.fin 0, .fin 0.5, .fin 1].map (· + Fl.fin 700000))
      (sampleValues dayU.data ((none : Option Series).map Series.data))).length = 3 := by
    rw [shift_samples, List.length_map]
    rfl
  rw [e] at h3
  exact_mod_cast h3

end

end Props

end UTide
