import Verif.Model.Constants
import Verif.Model.Harmonics

/-!
# `utide/constituent_selection.py`
-/

namespace UTide

noncomputable section

open Classical

/-- `l[i]` on a Python list or array with a non-negative index. -/
def getIdx {α : Type} (l : List α) (i : ℕ) : Except PyErr α :=
  match l[i]? with
  | some a => .ok a
  | none => .error .indexError

/-- One inferred constituent: `refstruct.I.name[lk]`, `.lind`, `.frq`, `.Rp`, `.Rm`
(constituent_selection.py 77-98). -/
structure InfCon where
  name : String
  lind : ℕ
  frq : ℝ
  Rp : ℂ
  Rm : ℂ

/-- One reference constituent (`refstruct`, constituent_selection.py 72-99); `nI` is `inf.length`. -/
structure RefCon where
  name : String
  lind : ℕ
  frq : ℝ
  inf : List InfCon

/-- The two results `cnstit`, `coef` of `ut_cnstitsel` (constituent_selection.py 36-126). -/
structure Sel where
  nrName : List String
  nrLind : List ℕ
  nrFrq : List ℝ
  refs : List RefCon
  nNR : ℕ
  nR : ℕ
  nI : ℕ
  name : List String
  lind : List ℕ
  frq : List ℝ

/-- `np.where(const.df >= minres)[0]` (constituent_selection.py 46). -/
def autoLind (minres : Fl) : List ℕ :=
  catalogue.zipIdx.filterMap fun c => if minres ≤ Fl.fin c.1.df.toReal then some c.2 else none

/-- `cnstit.NR.lind` before the inference step (constituent_selection.py 45-48). -/
def startLind (minres : Fl) : Constit → Except PyErr (List ℕ)
  | .auto => .ok (autoLind minres)
  | .names l => l.mapM constitIndex

/-- Removal of reference and inferred constituents (constituent_selection.py 51-54). Simplification: the
set of names is traversed in list order; any unknown name raises KeyError whatever the order. -/
def removeRI (infer : Option InferSpec) (lind : List ℕ) : Except PyErr (List ℕ) :=
  match infer with
  | none => .ok lind
  | some s => do
    let ri ← (s.inferred ++ s.reference).mapM constitIndex
    return lind.filter fun i => decide (i ∉ ri)

/-- `const.name[i]`. -/
def nameAt (i : ℕ) : String := match catalogue[i]? with
  | some c => c.name
  | none => ""

/-- `list(OrderedDict(zip(_r, [1] * len(_r))).keys())` (constituent_selection.py 69). -/
def allRefs (r : List String) : List String := (Dict.update [] (r.map fun n => (n, 1))).keys

/-- `[i for i, rname in enumerate(infer.reference_names) if name == rname]`
(constituent_selection.py 75). -/
def refPositions (r : List String) (name : String) : List ℕ :=
  (r.zipIdx.filter fun p => name == p.1).map Prod.snd

/-- `refstruct.I.Rm` (constituent_selection.py 83-89). -/
def inferRm (s : InferSpec) (ilk : ℕ) (Rp : ℂ) : Except PyErr ℂ :=
  if s.amp.length > s.inferred.length then do
    let a ← getIdx s.amp (ilk + s.inferred.length)
    let ph ← getIdx s.phase (ilk + s.inferred.length)
    return (a : ℂ) * Complex.exp (-Complex.I * (ph : ℂ) * Real.pi / 180)
  else .ok ((starRingEnd ℂ) Rp)

/-- The loop body for one inferred constituent (constituent_selection.py 78-95). -/
def mkInf (s : InferSpec) (tref : ℝ) (ilk : ℕ) : Except PyErr InfCon := do
  let a ← getIdx s.amp ilk
  let ph ← getIdx s.phase ilk
  let Rp : ℂ := (a : ℂ) * Complex.exp (Complex.I * (ph : ℂ) * Real.pi / 180)
  let Rm ← inferRm s ilk Rp
  let iname ← getIdx s.inferred ilk
  let lind ← constitIndex iname
  return { name := iname, lind := lind, frq := linFreqs tref lind, Rp := Rp, Rm := Rm }

/-- The loop body for one reference constituent (constituent_selection.py 71-99). -/
def mkRef (s : InferSpec) (tref : ℝ) (name : String) : Except PyErr RefCon := do
  let lind ← constitIndex name
  let inf ← (refPositions s.reference name).mapM (mkInf s tref)
  return { name := name, lind := lind, frq := linFreqs tref lind, inf := inf }

/-- `ut_cnstitsel(tref, minres, incnstit, infer)` (constituent_selection.py 10-126). -/
def cnstitsel (tref : ℝ) (minres : Fl) (incnstit : Constit) (infer : Option InferSpec) :
    Except PyErr Sel := do
  let lind0 ← startLind minres incnstit
  let lind ← removeRI infer lind0
  let frq := lind.map (linFreqs tref)
  let name := lind.map nameAt
  match infer with
  | none =>
    return { nrName := name, nrLind := lind, nrFrq := frq, refs := [], nNR := frq.length, nR := 0, nI := 0,
             name := name, lind := lind, frq := frq }
  | some s => do
    let refs ← (allRefs s.reference).mapM (mkRef s tref)
    return { nrName := name, nrLind := lind, nrFrq := frq, refs := refs, nNR := frq.length,
             nR := (allRefs s.reference).length, nI := s.inferred.length,
             name := name ++ allRefs s.reference ++ refs.flatMap fun r => r.inf.map InfCon.name,
             lind := lind ++ refs.map RefCon.lind ++ refs.flatMap fun r => r.inf.map InfCon.lind,
             frq := frq ++ refs.map RefCon.frq ++ refs.flatMap fun r => r.inf.map InfCon.frq }

end

end UTide
