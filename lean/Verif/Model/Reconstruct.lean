import Verif.Model.Solve

/-!
# `utide/_reconstruct.py`
-/

namespace UTide

noncomputable section

open Classical

/-- The `constit` argument of `reconstruct`: a sequence of names, or a string, for which `c in constit` is the
substring test. -/
inductive RecConstit
  | names (l : List String)
  | str (s : String)

/-- `c in constit` (_reconstruct.py 98). -/
def RecConstit.has : RecConstit → String → Bool
  | .names l, c => decide (c ∈ l)
  | .str s, c => decide (c.toList <:+: s.toList)

/-- The keyword arguments (_reconstruct.py 8-16). -/
structure RecArgs where
  epoch : PyVal
  verbose : Bool
  constit : Option RecConstit
  minSNR : ℝ
  minPE : ℝ

/-- Positions selected by a condition on the position. -/
def positions (n : ℕ) (p : ℕ → Prop) : List ℕ := (List.range n).filter fun i => decide (p i)

/-- PE as recomputed by `_reconstruct` (_reconstruct.py 109): `100 * E / E.sum()` in both cases. -/
def recPE (ell : EllArr) : List Fl :=
  (energies ell).map fun x => (Fl.fin (100 * x)).div (.fin (energies ell).sum)

/-- `ind` (_reconstruct.py 97-111) as a list of positions. -/
def recIndex (c : Coef) (a : RecArgs) : Except PyErr (List ℕ) :=
  match a.constit with
  | some rc => .ok (positions c.name.length fun i => ∃ s, c.name[i]? = some s ∧ rc.has s = true)
  | none =>
    if (a.minSNR = 0 ∧ a.minPE = 0) ∨ c.opt.nodiagn = true then .ok (List.range c.name.length)
    else do
      let SNR ← snr c.ell c.ci
      let PE := recPE c.ell
      return positions SNR.length fun i =>
        (∃ s, SNR[i]? = some s ∧ Fl.fin a.minSNR ≤ s) ∧ (∃ p, PE[i]? = some p ∧ Fl.fin a.minPE ≤ p)

/-- The per-constituent ellipse parameters as records (position by position). -/
def EllArr.toEll : EllArr → List Ell
  | .one A g => List.zipWith (fun a g => ⟨a, 0, 0, g⟩) A g
  | .two Lsmaj Lsmin theta g =>
    (List.zipWith (fun (p : ℝ × ℝ) (q : ℝ × ℝ) => ⟨p.1, p.2, q.1, q.2⟩) (Lsmaj.zip Lsmin) (theta.zip g))

/-- `ap`, `am` of the selected constituents (_reconstruct.py 114-126). -/
def recAp (twodim : Bool) (ell : EllArr) (ind : List ℕ) : List ℂ :=
  (ell.permute ind).toEll.map fun e => if twodim then recAp2 e else recAp1 e
def recAm (twodim : Bool) (ell : EllArr) (ind : List ℕ) : List ℂ :=
  (ell.permute ind).toEll.map fun e => if twodim then recAm2 e else recAm1 e

/-- `fit` at one time (_reconstruct.py 138-148). -/
def recFit (c : Coef) (ind : List ℕ) (t : ℝ) : ℂ :=
  let E := List.zipWith (utE c.opt.flags c.reftime c.lat t) (gather c.frq ind) (gather c.lind ind)
  dot E (recAp c.opt.twodim c.ell ind) + dot (E.map (starRingEnd ℂ)) (recAm c.opt.twodim c.ell ind)

/-- The value at one valid time (_reconstruct.py 153-167): `h`, or `u` and `v` as a complex number; in the scalar
case the imaginary part is 0. KeyError if the slope is missing, or if `coef` is of the other dimension. -/
def recValue (c : Coef) (fit : ℂ) (t : ℝ) : Except PyErr ℂ :=
  match c.opt.twodim, c.mean with
  | true, .two um vm sl =>
    if c.opt.notrend then .ok ⟨fit.re + um, fit.im + vm⟩
    else match sl with
      | some (us, vs) => .ok ⟨fit.re + um + us * (t - c.reftime), fit.im + vm + vs * (t - c.reftime)⟩
      | none => .error .keyError
  | false, .one mn sl =>
    if c.opt.notrend then .ok ⟨fit.re + mn, 0⟩
    else match sl with
      | some s => .ok ⟨fit.re + mn + s * (t - c.reftime), 0⟩
      | none => .error .keyError
  | _, _ => .error .keyError

/-- `_reconstruct` at one time of the output (_reconstruct.py 151-167): `none` is NaN. -/
def recAt (c : Coef) (ind : List ℕ) : Fl → Except PyErr (Option ℂ)
  | .fin t => (recValue c (recFit c ind t) t).map some
  | _ => .ok none

/-- The checks whose failure stops the computation: basis functions that are not finite (harmonics.py 128). -/
def checkRec (c : Coef) (ind : List ℕ) : Except PyErr Unit :=
  raiseIf ((gather c.lind ind).any (nodalSingular c.opt.flags c.lat)) .nonFinite

/-- `reconstruct(t, coef, ...)` (_reconstruct.py 8-172): the series as complex numbers (`u + iv`, or `h`), NaN as
`none`. Simplification: `t.ndim = 1` is part of the argument type. -/
def reconstruct (E : Env) (t : TimeArr) (c : Coef) (a : RecArgs) : Except PyErr (List (Option ℂ)) := do
  let tn ← normalizeTime E.dt64 t a.epoch
  let ind ← recIndex c a
  checkRec c ind
  tn.mapM (recAt c ind)

/-- `reconstruct` with what it prints (_reconstruct.py 135-136, 169-170). -/
def reconstructP (E : Env) (t : TimeArr) (c : Coef) (a : RecArgs) :
    List String × Except PyErr (List (Option ℂ)) :=
  match normalizeTime E.dt64 t a.epoch with
  | .error e => ([], .error e)
  | .ok _ =>
    match recIndex c a with
    | .error e => ([], .error e)
    | .ok _ =>
      match reconstruct E t c a with
      | .error e => (say a.verbose "prep/calcs ... ", .error e)
      | .ok r => (say a.verbose "prep/calcs ... " ++ say a.verbose "done.\n", .ok r)

end

end UTide
