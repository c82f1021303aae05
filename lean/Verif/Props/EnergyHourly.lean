import Verif.Props.CatalogueProps
import Verif.Props.EnergyProps

/-!
# C128 for hourly predictions

The conditions on the frequencies hold for every selection of different constituents without the mean Z0.
-/

namespace UTide.Props

noncomputable section

open Classical Filter Topology

/-- Every catalogue frequency but that of Z0 is positive and below half a cycle per hour. -/
theorem hourly_table : (catalogue.all fun c => c.name == "Z0" ||
    (decide (1 / 10 ^ 6 < dyRat c.freq) && decide (dyRat c.freq + 1 / 10 ^ 6 < 1 / 2))) = true := by
  decide +kernel

variable {E : Env} {t : TimeArg} {u : Series} {v : Option Series} {lat : Option ℝ} {opts : Dict PyVal} {c : Coef}

theorem hourly_frequencies (h : solve E t u v lat opts = .ok c) (hd : InEra c.reftime) (hn : c.name.Nodup)
    (hz : "Z0" ∉ c.name) : c.frq.Nodup ∧ ∀ f ∈ c.frq, 0 < f ∧ f < 1 / 2 := by
  obtain ⟨e1, e2, e3⟩ := permute_aligned h
  have hlen : c.frq.length = c.name.length := by rw [e1, e2, List.length_map, List.length_map]
  have hpub : ∀ i (hi : i < c.name.length), ∃ φ, Published c.name[i] φ ∧ |c.frq[i]'(hlen ▸ hi) - φ| ≤ 1e-6 := by
    intro i hi
    obtain ⟨f, φ, hf, hφ, -, h2⟩ := C130_frequencies h i _ (List.getElem?_eq_getElem hi)
    obtain ⟨_, rfl⟩ := List.getElem?_eq_some_iff.1 hf
    exact ⟨φ, hφ, h2 hd⟩
  constructor
  · rw [List.nodup_iff_injective_get]
    intro i j hij
    have hi : i.val < c.name.length := hlen ▸ i.2
    have hj : j.val < c.name.length := hlen ▸ j.2
    obtain ⟨φ, hφ, -⟩ := hpub i hi
    obtain ⟨ψ, hψ, -⟩ := hpub j hj
    have := (C130_distinct h hd i j _ _ _ _ φ ψ (List.getElem?_eq_getElem hi) (List.getElem?_eq_getElem hj)
      (List.getElem?_eq_getElem i.2) (List.getElem?_eq_getElem j.2) hφ hψ).1.1 hij
    exact Fin.ext ((hn.getElem_inj_iff).1 this)
  · intro f hf
    obtain ⟨i, hi, rfl⟩ := List.mem_iff_getElem.1 hf
    have hi' : i < c.name.length := hlen ▸ hi
    obtain ⟨k, hk, hnk, -⟩ := entry_at h i _ (List.getElem?_eq_getElem hi')
    obtain ⟨φ, hφ, hcl⟩ := hpub i hi'
    have hl : k < catalogue.length := by rw [catalogue_length]; exact hk
    have ht := List.all_eq_true.1 hourly_table catalogue[k] (List.getElem_mem hl)
    have hname : catalogue[k].name = c.name[i] := by
      rw [hnk]
      unfold nameAt
      rw [List.getElem?_eq_getElem hl]
    have hck : catFreq k = dyRat catalogue[k].freq := by
      unfold catFreq
      rw [List.getElem?_eq_getElem hl]
    have hφ' : φ = catFreq k := by
      rw [hnk] at hφ
      exact published_unique hφ (published_at k hk)
    have hne : c.name[i] ≠ "Z0" := fun h0 => hz (h0 ▸ List.getElem_mem hi')
    simp only [hname, beq_iff_eq, hne, false_or, Bool.or_eq_true, Bool.and_eq_true, decide_eq_true_eq, ← hck] at ht
    have h1 := (Rat.cast_lt (K := ℝ)).2 ht.1
    have h2 := (Rat.cast_lt (K := ℝ)).2 ht.2
    push_cast at h1 h2
    rw [← hφ'] at h1 h2
    have := abs_le.1 hcl
    norm_num at this h1 h2 ⊢
    constructor <;> linarith

/-- **C128**, hourly: different constituents without Z0, no nodal corrections, constant amplitudes: in a prediction at
every hour `PE` is the share of a constituent in the mean energy of the predicted tide. -/
theorem C128_hourly (R : Ready E t u v) (hnd : opts.keys.Nodup) (h : solve E t u v lat opts = .ok c) (hk : AllKept c)
    (hst : Steady opts) (hoff : (requested opts "nodal").bind nodalMode = some .off) (hd : InEra c.reftime)
    (hnn : c.name.Nodup) (hz0 : "Z0" ∉ c.name) (t₀ : ℝ)
    (hz : Nonzero c.ell) (l : List Fl) (hPE : c.PE = some l) (i : ℕ) (n : String) (p : ℝ) (hn : c.name[i]? = some n)
    (hp : l[i]? = some (.fin p)) (E' E'' : Env) (a b : RecArgs) (ha : RecArgs.Everything a) (hb : b.constit = some (.names [n]))
    (all one : ℕ → ℝ) (hall : ∀ m, MeanEnergy E' c a t₀ (1 / 24) m (all m))
    (hone : ∀ m, MeanEnergy E'' c b t₀ (1 / 24) m (one m)) :
    Tendsto (fun m => 100 * one m / all m) atTop (𝓝 p) := by
  obtain ⟨hf, hb'⟩ := hourly_frequencies h hd hnn hz0
  refine C128_share R hnd h hk hst hoff hf (fun f hf => (hb' f hf).1) t₀ (1 / 24) (by norm_num) (fun f hf => ?_) hz l hPE i n p
    hn hp E' E'' a b ha hb all one hall hone
  have := (hb' f hf).2
  norm_num
  linarith

end

end UTide.Props
