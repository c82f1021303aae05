import Verif.Props.EnergyHourly
import Verif.Props.FourierExample

/-!
# A case of C128: a spike in eight samples over half a day, analysed for S2 and S4, predicted every 90
minutes or every hour
-/

namespace UTide.Props

noncomputable section

open Classical Filter Topology

local notation "conj" => starRingEnd ℂ

/-- Predictions at regular times are returned, and their mean energy exists. -/
theorem meanEnergy_exists {E : Env} {t : TimeArg} {u : Series} {v : Option Series} {lat : Option ℝ} {opts : Dict PyVal}
    {c : Coef} (R : Ready E t u v) (hnd : opts.keys.Nodup) (h : solve E t u v lat opts = .ok c) (hk : AllKept c)
    (a : RecArgs) (ha : a.epoch = .str "python") (t₀ Δ : ℝ) (m : ℕ) : ∃ e, MeanEnergy idealEnv c a t₀ Δ m e := by
  have ht := C27_python_epoch_partial idealEnv.dt64 ((List.range m).map fun j : ℕ => Fl.fin (t₀ + (j : ℝ) * Δ))
  rw [← ha] at ht
  have hr := C36_selected E t u v lat opts R hnd c h hk idealEnv
    (.float ((List.range m).map fun j : ℕ => Fl.fin (t₀ + (j : ℝ) * Δ))) a
  rw [ht] at hr
  refine ⟨_, _, _, fun j : ℕ => level c (t₀ + (j : ℝ) * Δ) +
    (((List.range c.name.length).filter (Selected c a)).map (tide c (t₀ + (j : ℝ) * Δ))).sum, ht, hr, fun j hj => ?_, rfl⟩
  rw [List.getElem?_map, List.getElem?_map, List.getElem?_range hj]; rfl

def spike : Fin 8 → ℝ := fun i => if i = 0 then 1 else 0

theorem spike_usable : usable octTn (octSeries spike).data none =
    [(0, 1), (1 / 16, 0), (2 / 16, 0), (3 / 16, 0), (4 / 16, 0), (5 / 16, 0), (6 / 16, 0), (7 / 16, 0)] := by
  simp [usable, octSeries, octTn, goodSamples, Fl.toReal?, Cell.value?, List.ofFn_succ, spike]

theorem spike_run : ∃ (c : Coef) (i : ℕ) (l : List Fl) (p : ℝ),
    WhiteRun idealEnv octT (octSeries spike) none (some 45) (listCiOpts ["S2", "S4"]) c octTn ∧
    c.name.Perm ["S2", "S4"] ∧ c.name[i]? = some "S2" ∧ c.PE = some l ∧ l[i]? = some (.fin p) ∧ Nonzero c.ell ∧ c.reftime = 7 / 32 := by
  obtain ⟨c, H, hn, hA⟩ := octS_white spike
  have R := octS_ready spike
  have hc := H.returned
  obtain ⟨h1, h2, h3⟩ := S2S4_nyquist (S2S4_frq hc hn)
  have hm : "S2" ∈ c.name := hn.mem_iff.2 (by simp)
  obtain ⟨i, hi⟩ := List.getElem?_of_mem hm
  have hO : OlsRun idealEnv (some 45) (listCiOpts ["S2", "S4"]) none octT (octSeries spike) none octTn c :=
    ⟨R, H.keys, H.ols, hc, H.kept, H.infer, by simp, H.time, hn.nodup_iff.2 (by simp)⟩
  obtain ⟨e, he, hcc, -⟩ := C127_average hO hi (hA _ hm)
  have hnz : Nonzero c.ell := by
    rw [show Option.map Series.data none = none from rfl, spike_usable] at hcc
    simp only [List.map_cons, List.map_nil, List.sum_cons, List.sum_nil, mul_zero, add_zero, mul_one] at hcc
    have hne : harmonic c "S2" 0 ≠ 0 := by
      intro h0
      have := norm_harmonic_off H.keys hc R rfl "S2" hm 0
      rw [h0, norm_zero] at this
      exact zero_ne_one this
    have hne : ccw e ≠ 0 := by
      rw [hcc]
      exact mul_ne_zero (by norm_num) ((map_ne_zero _).2 hne)
    have hmaj : e.Lsmaj ≠ 0 ∨ e.Lsmin ≠ 0 := by
      by_contra hcon
      push Not at hcon
      apply hne
      unfold ccw
      rw [hcon.1, hcon.2]
      simp
    cases hell : c.ell with
    | one A g =>
      rw [hell] at he
      simp only [ellipseAt, Option.bind_eq_some_iff, Option.map_eq_some_iff] at he
      obtain ⟨a, ha, b, hb, rfl⟩ := he
      exact ⟨a, List.mem_of_getElem? ha, hmaj.resolve_right (by simp)⟩
    | two M m th g =>
      rw [hell] at he
      simp only [ellipseAt, Option.bind_eq_some_iff, Option.map_eq_some_iff] at he
      obtain ⟨a, ha, b, hb, d, hd, f, hf, rfl⟩ := he
      exact hmaj.imp (fun h => ⟨a, List.mem_of_getElem? ha, h⟩) fun h => ⟨b, List.mem_of_getElem? hb, h⟩
  obtain ⟨l, hl⟩ : ∃ l, c.PE = some l := by
    obtain ⟨opt, p, tn, constit, m, W, rf, full, o, ind, F⟩ := solve_facts R hc
    have ho : opt = listCiOpt false ["S2", "S4"] := Except.ok.inj (F.hopt.symm.trans (listCi_opt false _))
    have hPE := F.solved.PE
    rw [if_neg (by rw [F.prep.hopt, ho]; exact fun h => by cases h.1)] at hPE
    exact ⟨gather (pe full.ell) ind, by rw [F.solved.result]; show full.PE.map _ = _; rw [hPE]; rfl⟩
  obtain ⟨P, q1, q2, -⟩ := C32_solve idealEnv octT _ none _ _ R H.keys c hc H.kept hnz l hl
  obtain ⟨p, hp⟩ : ∃ p, P[i]? = some p := by
    have := (List.getElem?_eq_some_iff.1 hi).1
    exact ⟨_, List.getElem?_eq_getElem (by omega)⟩
  have hlp : l[i]? = some (.fin p) := by rw [q1, List.getElem?_map, hp]; rfl
  have ho : c.opt = listCiOpt false ["S2", "S4"] := by
    obtain ⟨opt, p, tn, constit, m, W, rf, full, o, ind, F⟩ := solve_facts R hc
    rw [F.copt]
    exact Except.ok.inj (F.hopt.symm.trans (listCi_opt false _))
  exact ⟨c, i, l, p, H, hn, hi, hl, hlp, hnz, octS_reftime hc (by rw [ho]; rfl)⟩

example : ∃ (c : Coef) (i : ℕ) (l : List Fl) (p : ℝ), solve idealEnv octT (octSeries spike) none (some 45) (listCiOpts ["S2", "S4"]) = .ok c ∧
    c.name[i]? = some "S2" ∧ c.PE = some l ∧ l[i]? = some (.fin p) ∧
    ∃ all one : ℕ → ℝ, (∀ m, MeanEnergy idealEnv c recAll 100 (1 / 16) m (all m)) ∧
      (∀ m, MeanEnergy idealEnv c { recAll with constit := some (.names ["S2"]) } 100 (1 / 16) m (one m)) ∧
      Tendsto (fun m => 100 * one m / all m) atTop (𝓝 p) := by
  obtain ⟨c, i, l, p, H, hn, hi, hl, hlp, hnz, -⟩ := spike_run
  have R := octS_ready spike
  have hc := H.returned
  obtain ⟨h1, h2, h3⟩ := S2S4_nyquist (S2S4_frq hc hn)
  choose all hall using meanEnergy_exists R H.keys hc H.kept recAll rfl 100 (1 / 16)
  choose one hone using meanEnergy_exists R H.keys hc H.kept { recAll with constit := some (.names ["S2"]) } rfl 100 (1 / 16)
  exact ⟨c, i, l, p, hc, hi, hl, hlp, all, one, hall, hone, C128_share R H.keys hc H.kept ⟨.inl rfl, .inl rfl⟩ rfl h1 h2
    100 (1 / 16) (by norm_num) h3 hnz l hl i "S2" p hi hlp idealEnv idealEnv recAll _ ⟨rfl, rfl, rfl⟩ rfl all one hall hone⟩

/-- The same record, predicted every hour. -/
example : ∃ (c : Coef) (i : ℕ) (l : List Fl) (p : ℝ), solve idealEnv octT (octSeries spike) none (some 45) (listCiOpts ["S2", "S4"]) = .ok c ∧
    c.name[i]? = some "S2" ∧ c.PE = some l ∧ l[i]? = some (.fin p) ∧
    ∃ all one : ℕ → ℝ, (∀ m, MeanEnergy idealEnv c recAll 100 (1 / 24) m (all m)) ∧
      (∀ m, MeanEnergy idealEnv c { recAll with constit := some (.names ["S2"]) } 100 (1 / 24) m (one m)) ∧
      Tendsto (fun m => 100 * one m / all m) atTop (𝓝 p) := by
  obtain ⟨c, i, l, p, H, hn, hi, hl, hlp, hnz, hr⟩ := spike_run
  have R := octS_ready spike
  have hc := H.returned
  choose all hall using meanEnergy_exists R H.keys hc H.kept recAll rfl 100 (1 / 24)
  choose one hone using meanEnergy_exists R H.keys hc H.kept { recAll with constit := some (.names ["S2"]) } rfl 100 (1 / 24)
  exact ⟨c, i, l, p, hc, hi, hl, hlp, all, one, hall, hone, C128_hourly R H.keys hc H.kept ⟨.inl rfl, .inl rfl⟩ rfl
    (by rw [hr]; constructor <;> norm_num) (hn.nodup_iff.2 (by simp)) (fun h0 => by have := hn.mem_iff.1 h0; simp at this)
    100 hnz l hl i "S2" p hi hlp idealEnv idealEnv recAll _ ⟨rfl, rfl, rfl⟩ rfl all one hall hone⟩

end

end UTide.Props
