import Mathlib.Analysis.Real.Sqrt

/-!
# Types of the constituent catalogue (`utide/data/ut_constants.npz`)
-/

namespace UTide

/-- A float64 constant: the dyadic rational `num / 2 ^ exp`, exactly. -/
structure Dy where
  num : ℤ
  exp : ℕ

namespace Dy

/-- The real number denoted. -/
noncomputable def toReal (d : Dy) : ℝ := d.num / 2 ^ d.exp

/-- Exact comparison `a < b`. -/
def lt (a b : Dy) : Bool := decide (a.num * 2 ^ b.exp < b.num * 2 ^ a.exp)

/-- Exact comparison `a ≤ b`. -/
def le (a b : Dy) : Bool := decide (a.num * 2 ^ b.exp ≤ b.num * 2 ^ a.exp)

theorem lt_iff (a b : Dy) : a.lt b = true ↔ a.toReal < b.toReal := by
  unfold lt toReal
  rw [decide_eq_true_eq, div_lt_div_iff₀ (by positivity) (by positivity)]
  exact_mod_cast Iff.rfl

theorem le_iff (a b : Dy) : a.le b = true ↔ a.toReal ≤ b.toReal := by
  unfold le toReal
  rw [decide_eq_true_eq, div_le_div_iff₀ (by positivity) (by positivity)]
  exact_mod_cast Iff.rfl

end Dy

/-- One satellite (a row of `ut_constants.sat`): latitude-factor code, the three Doodson number
changes `deldood`, phase correction (cycles) and amplitude ratio. -/
structure Sat where
  ilatfac : ℕ
  d4 : ℤ
  d5 : ℤ
  d6 : ℤ
  phcorr : Dy
  amprat : Dy

/-- The six Doodson numbers of a constituent (a row of `ut_constants.const.doodson`). -/
structure Doodson where
  d1 : ℤ
  d2 : ℤ
  d3 : ℤ
  d4 : ℤ
  d5 : ℤ
  d6 : ℤ

/-- A constituent either has Doodson numbers and a phase constant `semi`, or (exactly when
`const.ishallow` is not NaN) it is a shallow-water compound: a list of (0-based catalogue position
of the parent, i.e. `shallow.iname - 1`, and weight `shallow.coef`). In the data file the Doodson
numbers and `semi` of compounds are NaN. -/
inductive Kind
  | primary (dood : Doodson) (semi : Dy)
  | shallow (parts : List (ℕ × Dy))

/-- One catalogue entry: name, frequency `const.freq` (cycles per hour), separation `const.df`
(cycles per hour), position of the comparison constituent `const.kmpr` (`none` when blank), kind, satellites (the rows of `sat` with `sat.iconst` equal to this position). -/
structure Con where
  name : String
  freq : Dy
  df : Dy
  kmpr : Option ℕ
  kind : Kind
  sats : List Sat

end UTide
