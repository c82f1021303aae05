import Verif.Props.NyquistHourly
import Verif.Props.CatalogueExample

/-!
# A case of C101 for hourly samples: any list of constituents, as many values as there are unknowns
-/

namespace UTide.Props

noncomputable section

open Classical

/-- `n` hours, from the spring of 1999. -/
def hourTn (n : ℕ) : List Fl := (List.range n).map fun j : ℕ => .fin (730000 + j * (1 / 24))
def hourT (n : ℕ) : TimeArg := ⟨[n], .float (hourTn n), []⟩
def hourSeries (ys : List ℝ) : Series := ⟨[ys.length], ys.map fun y => ⟨.fin y, false⟩⟩

theorem hour_ready (ys : List ℝ) : Ready idealEnv (hourT ys.length) (hourSeries ys) none :=
  idealReady _ _ _ (by simp [TimeArg.WF, TimeArr.length, hourT, hourTn]) (by simp [Series.WF, hourSeries]) (by simp)

theorem hour_sample (ys : List ℝ) (j : ℕ) (hj : j < ys.length) :
    SampleTime (hourTn ys.length) (hourSeries ys).data none (730000 + j * (1 / 24)) := by
  refine ⟨j, ((ys[j] : ℝ) : ℂ), ?_, ?_⟩
  · simp [hourTn, hj]
  · simp [hourSeries, sampleValues, Cell.value?, Fl.toReal?, hj]

/-- Whatever the values and the (different) constituents without Z0: as many hourly samples as there are unknowns
separate them. -/
example (ys : List ℝ) (ns : List String) (hns : ∀ n ∈ ns, n ∈ constitNames) (hnd : ns.Nodup) (hz : "Z0" ∉ ns)
    (hlen : 2 * ns.length + 1 ≤ ys.length) (hbig : ys.length ≤ 10 ^ 6) :
    ∃ c, solve idealEnv (hourT ys.length) (hourSeries ys) none (some 45) (listOpts ns (.str "frequency")) = .ok c ∧
      c.name.Perm ns ∧ Separated c none false (SampleTime (hourTn ys.length) (hourSeries ys).data none) := by
  have R := hour_ready ys
  have hne : usable (hourTn ys.length) (hourSeries ys).data none ≠ [] := by
    intro h0
    obtain ⟨i, x, h1, h2⟩ := hour_sample ys 0 (by omega)
    have hs : SameLength (hourTn ys.length) (hourSeries ys).data none := ⟨by simp [hourTn, hourSeries], by simp⟩
    rw [usable_samples _ _ _ hs] at h0
    have := (mem_samples _ _ (730000 + (0 : ℕ) * (1 / 24), x)).2 ⟨i, h1, h2⟩
    rw [h0] at this
    cases this
  obtain ⟨c, h⟩ := list_returns idealEnv (hourTn ys.length) [] (hourSeries ys).data (by simp [hourTn, hourSeries]) ns hns hne
  have h : solve idealEnv (hourT ys.length) (hourSeries ys) none (some 45) (listOpts ns (.str "frequency")) = .ok c := by
    simpa [hourT, hourTn, hourSeries] using h
  have hp := (C17_honoured idealEnv (hourT ys.length) _ none (some 45) _ R (someOpts_nodup _ _) .list (by simp) _ rfl rfl _ rfl c h).1
    (.inr ⟨_, rfl⟩)
  obtain ⟨opt, p, tn, constit, m, W, rf, full, o, ind, F⟩ := solve_facts R h
  have ho : c.opt = listOpt false ns (.str "frequency") := by
    rw [F.copt]
    exact Except.ok.inj (F.hopt.symm.trans (listOpt_frequency false _))
  have htn : tn = hourTn ys.length := by
    have := F.prep.init.time
    rw [← F.copt, ho] at this
    have h2 : normalizeTime idealEnv.dt64 (hourT ys.length).arr (.str "python") = .ok (hourTn ys.length) := by
      exact C27_python_epoch_partial idealEnv.dt64 (hourTn ys.length)
    exact Except.ok.inj (this.symm.trans h2)
  subst htn
  have hera : InEra c.reftime := by
    rw [F.creftime]
    obtain ⟨-, h4, -, -, h5⟩ := editData_usable _ _ _ (F.samples R).1 _ F.prep.init.edit
    obtain ⟨-, h6, -⟩ := timeStats_ok _ _ _ _ _ _ h5
    have hb : ∀ l : List ℝ, (∀ x ∈ l, 0 ≤ x ∧ x ≤ 4000000) → ∀ y, midpoint l = .ok y → InEra y := by
      intro l hl y hy
      cases l with
      | nil => cases hy
      | cons a l =>
        cases Except.ok.inj hy
        obtain ⟨b1, b2⟩ := hl a (by simp)
        obtain ⟨b3, b4⟩ := hl _ (List.getLast_mem (l := a :: l) (by simp))
        constructor <;> linarith
    refine hb _ (fun x hx => ?_) _ h6
    have hrng : ∀ x ∈ finiteTimes (hourTn ys.length), 0 ≤ x ∧ x ≤ 4000000 := by
      intro x hx
      obtain ⟨y, hy, hyx⟩ := List.mem_filterMap.1 hx
      obtain ⟨j, hj, rfl⟩ := List.mem_map.1 hy
      cases Option.some.inj hyx
      have h1 : (j : ℝ) ≤ 1000000 := by
        have := List.mem_range.1 hj
        exact_mod_cast (by omega : j ≤ 1000000)
      have h0 : (0 : ℝ) ≤ j := Nat.cast_nonneg j
      constructor
      · linarith
      · linarith
    split at hx
    · exact hrng x hx
    · rw [usable_samples _ _ _ (F.samples R).1, List.mem_map] at hx
      obtain ⟨s, hs, rfl⟩ := hx
      obtain ⟨i, h7, -⟩ := (mem_samples _ _ _).1 hs
      exact hrng _ (List.mem_filterMap.2 ⟨_, List.mem_of_getElem? h7, rfl⟩)
  refine ⟨c, h, hp, C101_hourly R (someOpts_nodup _ _) h (list_steady _ _) (list_notVanishing _ _ _) hera
    (hp.nodup_iff.2 hnd) (fun h0 => hz (hp.mem_iff.1 h0)) (1 / 24) (by norm_num) (by norm_num) _ ?_ none false⟩
  refine ⟨730000, fun j hj => ?_⟩
  rw [hp.length_eq, ho] at hj
  have hj' : j < 2 * ns.length + 1 := hj
  exact hour_sample ys j (by omega)

end

end UTide.Props
