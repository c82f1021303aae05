import Verif.Props.LinearTime
import Verif.Props.ShuffleProps

/-!
# Predictions analysed again: C136

A record that consists of predictions, at whatever times, gives back the analysis they were made from. The second
analysis may be asked for more constituents (these come out as zero) and needs no inference.
-/

namespace UTide.Props

noncomputable section

open Classical

local notation "conj" => starRingEnd ℂ

/-! ## Specification -/

/-- The values of the record `u`, `v` where it has any are those of the list `r`. -/
def Holds (u : Series) (v : Option Series) (r : List (Option ℂ)) : Prop :=
  ∀ (i : ℕ) (x : ℂ), (sampleValues u.data (v.map Series.data))[i]? = some (some x) → ∀ z, r[i]? = some (some z) → x = z

/-! ## Lemmas -/

/-- Whatever the method: ellipses and level of a result are in normal form. -/
theorem result_normal {E : Env} {t : TimeArg} {u : Series} {v : Option Series} {lat : Option ℝ} {opts : Dict PyVal}
    {c : Coef} (R : Ready E t u v) (hnd : opts.keys.Nodup) (h : solve E t u v lat opts = .ok c) (hk : AllKept c)
    (hd : c.name.Nodup) :
    (∀ i n e, c.name[i]? = some n → ellipseAt c.ell i = some e →
      e = if v.isSome then ell2 (ccw e) (cw e) else ell1 (ccw e) (cw e)) ∧
    (v.isSome = false → ∀ τ, level c τ = ((level c τ).re : ℂ)) := by
  obtain ⟨opt, p, tn, constit, m, W, rf, full, o, ind, F⟩ := solve_facts R h
  obtain ⟨P, M, mean, slope, hP, hM, hs, hm⟩ := F.exists_coef ((F.perm_names R hnd hk).nodup_iff.1 hd) m F.mlen
  obtain ⟨r1, r2⟩ := F.read hnd P M mean slope hP hM hm
  constructor
  · intro i n e hi he
    rw [r1, ellipseAt_map, hi] at he
    exact (ell_normal v.isSome (P n) (M n) e (Option.some.inj he).symm).1
  · intro hv τ
    rw [level_meanRec c _ _ _ _ hs r2 τ, hv]
    simp

/-! ## C136 -/

/-- **C136.** Any result `c` of `solve`; a record `u'`, `v'` whose values are predictions from `c` at its times; its
analysis `c'`. -/
theorem C136_again {E : Env} {t t' : TimeArg} {u u' : Series} {v v' : Option Series} {lat : Option ℝ}
    {opts opts' : Dict PyVal} {tn' : List Fl} {c c' : Coef} (R : Ready E t u v) (hnd : opts.keys.Nodup)
    (h : solve E t u v lat opts = .ok c) (hk : AllKept c) (hd : c.name.Nodup)
    (H' : OlsRun E lat opts' none t' u' v' tn' c') (hv : v'.isSome = v.isSome)
    (hsub : ∀ n ∈ c.name, n ∈ c'.name)
    (hsame : ∀ k ∈ ["nodal", "phase"], requested opts k = requested opts' k)
    (hmode : ExactModes opts ∨ c'.reftime = c.reftime) (htr : c'.opt.notrend = true → c.opt.notrend = true)
    (hsep : Separated c' none v'.isSome (SampleTime tn' u'.data (v'.map Series.data)))
    (a : RecArgs) (hall : RecArgs.Everything a) (hae : a.epoch = c'.opt.epoch) (r : List (Option ℂ))
    (hr : reconstruct E t'.arr c a = .ok r) (hu : Holds u' v' r) :
    SameTide c c' ∧
    (∀ (j : ℕ) (n : String), c'.name[j]? = some n → n ∉ c.name →
      ∃ e, ellipseAt c'.ell j = some e ∧ e.Lsmaj = 0 ∧ e.Lsmin = 0) ∧
    ∀ (E₂ : Env) (t₂ : TimeArr) (a₂ : RecArgs), RecArgs.Everything a₂ →
      reconstruct E₂ t₂ c' a₂ = reconstruct E₂ t₂ c a₂ := by
  obtain ⟨opt, p, tn, constit, m, W, rf, full, o, ind, F⟩ := solve_facts R h
  obtain ⟨p', constit', m', W', rf', full', o', ind', F', hols', hinf', hex'⟩ := run_facts H'.ready H'.keys H'.ols
    H'.returned none H'.infer H'.exact tn' H'.time
  have hfl : c'.opt.flags = c.opt.flags := by
    have h2 := F'.hopt
    rw [hv] at h2
    obtain ⟨e1, -⟩ := getOpt_fields opts opts' hnd H'.keys _ _ _ F.hopt h2
    rw [F.copt]
    exact e1 (hsame _ (by simp)) (hsame _ (by simp))
  have hh : ∀ n τ, harmonic c' n τ = harmonic c n τ := by
    intro n τ
    unfold harmonic
    rw [hfl, F.clat, F'.clat, Option.some.inj (F'.prep.init.hlat.symm.trans F.prep.init.hlat)]
    rcases hmode with ⟨hmp, mn, hmn, hmn'⟩ | href
    · obtain ⟨f1, f2⟩ := C20_modes opts hnd _ _ F.hopt
      have f1 := f1 mn hmn
      have f2 := f2 _ hmp
      rw [← F.copt] at f1 f2
      refine nameBasis_tref _ _ _ _ _ _ ?_ ?_ ?_
      · cases ha : c.opt.flags.gwchlint <;> cases hb : c.opt.flags.gwchnone <;> simp [ha, hb, flagMode] at f2 ⊢
      · cases ha : c.opt.flags.gwchlint <;> cases hb : c.opt.flags.gwchnone <;> simp [ha, hb, flagMode] at f2 ⊢
      · cases ha : c.opt.flags.nodsatlint <;> cases hb : c.opt.flags.nodsatnone <;>
          simp [ha, hb, flagMode] at f1 ⊢
        exact hmn' f1.symm
    · rw [href]
  obtain ⟨P, M, mean, slope, -, hs, hz, hell, hlev⟩ := F.components R hnd hk hd
  have hpred := predicted R hnd h hk P M hell a hall E t'.arr
  rw [hr, hae, H'.time] at hpred
  have hpred : r = tn'.map fun x => x.toReal?.map fun τ =>
      level c τ + (c.name.map fun n => harmonic c n τ * P n + conj (harmonic c n τ) * M n).sum := Except.ok.inj hpred
  have hcurve : ∀ τ, rotaryCurve c' P M (mean + slope * ((c'.reftime - c.reftime : ℝ) : ℂ)) slope τ =
      level c τ + (c.name.map fun n => harmonic c n τ * P n + conj (harmonic c n τ) * M n).sum := by
    intro τ
    have e : (c'.name.map fun n => harmonic c' n τ * P n + conj (harmonic c' n τ) * M n).sum =
        (c.name.map fun n => harmonic c n τ * P n + conj (harmonic c n τ) * M n).sum := by
      simp only [hh]
      rw [← List.sum_toFinset _ H'.distinct, ← List.sum_toFinset _ hd]
      symm
      refine Finset.sum_subset (fun n hn => ?_) fun n _ hn => ?_
      · rw [List.mem_toFinset] at hn ⊢; exact hsub n hn
      · rw [List.mem_toFinset] at hn
        rw [(hz n hn).1, (hz n hn).2]; ring
    unfold rotaryCurve
    rw [e, hlev]
    push_cast
    ring
  have hfit : ∀ s ∈ samples tn' (sampleValues u'.data (v'.map Series.data)),
      s.2 = rotaryCurve c' P M (mean + slope * ((c'.reftime - c.reftime : ℝ) : ℂ)) slope s.1 := by
    intro s hs
    obtain ⟨i, h1, h2⟩ := (mem_samples _ _ _).1 hs
    refine hu i s.2 h2 _ ?_
    rw [hpred, List.getElem?_map, h1, hcurve]
    rfl
  have h0 : away tn' u' v' (rotaryCurve c' P M (mean + slope * ((c'.reftime - c.reftime : ℝ) : ℂ)) slope) = 0 := by
    unfold away
    refine List.sum_eq_zero fun x hx => ?_
    obtain ⟨s, hs, rfl⟩ := List.mem_map.1 hx
    rw [← hfit s hs, sub_self, norm_zero]
    norm_num
  obtain ⟨k1, k2⟩ := H'.unique hsep P M (mean + slope * ((c'.reftime - c.reftime : ℝ) : ℂ)) slope (tiedRotary_none _ _ _)
    (fun hnt => hs (by rw [← F.copt]; exact htr hnt)) (fun P' M' mean' slope' _ _ => by
      rw [h0]
      exact List.sum_nonneg fun x hx => by
        obtain ⟨s, -, rfl⟩ := List.mem_map.1 hx
        positivity)
  obtain ⟨n1, n2⟩ := result_normal R hnd h hk hd
  have hsame : SameTide c c' := by
    constructor
    · intro i j n hi hj
      obtain ⟨e, he, p1, m1⟩ := hell i n hi
      have hnf := n1 i n e hi he
      rw [p1, m1] at hnf
      rw [k1 j n hj, he, hv, hnf]
    · intro τ
      have hl : mean + slope * ((c'.reftime - c.reftime : ℝ) : ℂ) + slope * ((τ - c'.reftime : ℝ) : ℂ) = level c τ := by
        rw [hlev]; push_cast; ring
      rw [k2, hl, hv]
      cases hvs : v.isSome with
      | true => rfl
      | false => exact (n2 hvs τ).symm
  have hzero : ∀ (j : ℕ) (n : String), c'.name[j]? = some n → n ∉ c.name →
      ∃ e, ellipseAt c'.ell j = some e ∧ e.Lsmaj = 0 ∧ e.Lsmin = 0 := by
    intro j n hj hn
    refine ⟨_, k1 j n hj, ?_⟩
    rw [(hz n hn).1, (hz n hn).2]
    cases v'.isSome <;> simp [ell1, ell2, cs2cep1, cs2cep2]
  refine ⟨hsame, hzero, fun E₂ t₂ a₂ ha₂ => ?_⟩
  rw [predicted R hnd h hk P M hell a₂ ha₂ E₂ t₂, predicted H'.ready H'.keys H'.returned H'.kept P M (fun j n hj => ?_) a₂ ha₂ E₂ t₂]
  · congr 1
    funext tn
    refine List.map_congr_left fun x _ => ?_
    congr 1
    funext τ
    rw [← hcurve, hsame.level]
    unfold rotaryCurve
    rw [hlev]
    push_cast
    ring
  · by_cases hn : n ∈ c.name
    · obtain ⟨i, hi⟩ := List.getElem?_of_mem hn
      obtain ⟨e, he, p1, m1⟩ := hell i n hi
      exact ⟨e, (hsame.ellipse i j n hi hj).trans he, p1, m1⟩
    · obtain ⟨e, he, e1, e2⟩ := hzero j n hj hn
      refine ⟨e, he, ?_, ?_⟩
      · rw [(hz n hn).1]; unfold ccw; rw [e1, e2]; simp
      · rw [(hz n hn).2]; unfold cw; rw [e1, e2]; simp

/-- Predictions from a scalar series are real. -/
theorem prediction_real {E : Env} {t : TimeArg} {u : Series} {lat : Option ℝ} {opts : Dict PyVal} {c : Coef}
    (R : Ready E t u none) (hnd : opts.keys.Nodup) (h : solve E t u none lat opts = .ok c) (hk : AllKept c)
    (hd : c.name.Nodup) : ∃ f : ℝ → ℝ, ∀ (a : RecArgs), RecArgs.Everything a → ∀ (E' : Env) (t' : TimeArr),
      reconstruct E' t' c a = (normalizeTime E'.dt64 t' a.epoch).map fun tn => tn.map fun x => x.toReal?.map fun τ =>
        (f τ : ℂ) := by
  obtain ⟨opt, p, tn, constit, m, W, rf, full, o, ind, F⟩ := solve_facts R h
  obtain ⟨P, M, mean, slope, -, hs, hz, hell, hlev⟩ := F.components R hnd hk hd
  obtain ⟨n1, n2⟩ := result_normal R hnd h hk hd
  have hM : ∀ n ∈ c.name, M n = conj (P n) := by
    intro n hn
    obtain ⟨i, hi⟩ := List.getElem?_of_mem hn
    obtain ⟨e, he, p1, m1⟩ := hell i n hi
    have hnf := n1 i n e hi he
    simp only [Option.isSome_none, Bool.false_eq_true, if_false] at hnf
    have h1 : e.Lsmin = 0 := by rw [hnf]; rfl
    have h2 : e.theta = 0 := by rw [hnf]; rfl
    rw [← p1, ← m1]
    unfold ccw cw
    rw [h1, h2, map_mul, conj_cisd, Complex.conj_ofReal]
    simp
  refine ⟨fun τ => (level c τ + (c.name.map fun n => harmonic c n τ * P n + conj (harmonic c n τ) * M n).sum).re,
    fun a ha E' t' => ?_⟩
  rw [predicted R hnd h hk P M hell a ha E' t']
  congr 1
  funext tn
  refine List.map_congr_left fun x _ => ?_
  congr 1
  funext τ
  symm
  apply Complex.conj_eq_iff_re.1
  rw [map_add, n2 rfl τ, Complex.conj_ofReal, map_list_sum, List.map_map]
  congr 2
  refine List.map_congr_left fun n hn => ?_
  rw [Function.comp_apply, map_add, map_mul, map_mul, hM n hn, Complex.conj_conj, Complex.conj_conj, add_comm]

end

end UTide.Props
