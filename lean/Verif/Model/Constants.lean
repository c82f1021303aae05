import Verif.Model.ConstTable
import Verif.Model.Bunch

/-!
# `utide/_ut_constants.py`
-/

namespace UTide

/-- `constit_names` (`_ut_constants.py` 18). -/
def constitNames : List String := catalogue.map Con.name

/-- `constit_index_dict` (`_ut_constants.py` 21): a dict comprehension over `enumerate(constit_names)`. -/
def constitIndexDict : Dict ℕ := Dict.update [] constitNames.zipIdx

/-- `constit_index_dict[n]`. -/
def constitIndex (n : String) : Except PyErr ℕ := constitIndexDict.get n

/-- `cycles_per_hour` (`_ut_constants.py` 24). -/
noncomputable def cyclesPerHour : Bunch ℝ :=
  Bunch.mk [catalogue.map fun c => (c.name, c.freq.toReal)] []

/-- `hours_per_cycle` (`_ut_constants.py` 25-26), with numpy's `1 / 0 = inf`. -/
noncomputable def hoursPerCycle : Bunch Fl :=
  Bunch.mk [catalogue.map fun c => (c.name, Fl.fin 1 / Fl.fin c.freq.toReal)] []

end UTide
