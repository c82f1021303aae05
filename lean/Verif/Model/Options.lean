import Verif.Model.Bunch

/-!
# Option processing of `solve` (_solve.py 16-119 and 530-560)

The option dictionaries are modelled literally, key by key, as `Bunch PyVal`.
-/

namespace UTide

/-- `default_opts` (_solve.py 16-31). -/
def defaultOpts : Dict PyVal :=
  [("constit", .str "auto"),
   ("order_constit", .none),
   ("conf_int", .str "linear"),
   ("method", .str "ols"),
   ("trend", .bool true),
   ("phase", .str "Greenwich"),
   ("nodal", .bool true),
   ("infer", .none),
   ("MC_n", .num 200),
   ("Rayleigh_min", .num 1),
   ("robust_kw", .dict false [("weight_function", .str "cauchy")]),
   ("white", .bool false),
   ("verbose", .bool true),
   ("epoch", .none)]

/-- `obj.name` for an option value: a plain dict has no such attribute, a Bunch delegates to its items
(utilities.py 57-61). -/
def PyVal.attr (v : PyVal) (name : String) : Except PyErr PyVal :=
  match v with
  | .dict true kv => match Bunch.getattr kv name with
    | .val x => .ok x
    | .classMember _ => .error .unmodelled
    | .raised e => .error e
  | _ => .error .attributeError

/-- `required_keys` (_solve.py 91). -/
def requiredKeys : List String := ["inferred_names", "reference_names", "amp_ratios", "phase_offsets"]

/-- `keys < required_keys` for Python sets: a *proper* subset (_solve.py 93). -/
def properSubset (a b : List String) : Bool := a.all (· ∈ b) && b.any (· ∉ a)

/-- `if c: raise e`. -/
def raiseIf (c : Bool) (e : PyErr) : Except PyErr Unit := if c then .error e else .ok ()

/-- The checks of `validate_infer` on an object with keys (_solve.py 91-103). The returned value is also the new
state of the caller's object, because line 102 assigns to it. Line 94 formats a set with `:s`, which raises
TypeError, not ValueError. -/
def validateInferDict (isBunch : Bool) (kv : Dict PyVal) (is2D : Bool) : Except PyErr PyVal := do
  raiseIf (properSubset (Dict.keys kv) requiredKeys) .typeError
  let inferred ← (PyVal.dict isBunch kv).attr "inferred_names"
  let nI ← inferred.len
  let refs ← (PyVal.dict isBunch kv).attr "reference_names"
  let nRef ← refs.len
  raiseIf (nRef != nI) .valueError
  let ratios ← (PyVal.dict isBunch kv).attr "amp_ratios"
  let nA ← ratios.len
  raiseIf (nA != (if is2D then 2 * nI else nI)) .valueError
  let offsets ← (PyVal.dict isBunch kv).attr "phase_offsets"
  let nP ← offsets.len
  raiseIf (nP != (if is2D then 2 * nI else nI)) .valueError
  return .dict isBunch (if Dict.mem kv "approximate" then kv else Dict.set kv "approximate" (.bool false))

/-- `validate_infer` (_solve.py 88-103). -/
def validateInfer (infer : PyVal) (is2D : Bool) : Except PyErr PyVal :=
  match infer with
  | .none => .ok .none
  | .dict isBunch kv => validateInferDict isBunch kv is2D
  | v => do
      if ← v.eqStr "none" then return .none
      else throw .attributeError       -- `infer.keys()`

/-- `validate_order_constit` (_solve.py 106-119). -/
def validateOrderConstit (arg : PyVal) (haveSnr : Bool) : Except PyErr PyVal :=
  let available := ["PE", "frequency"] ++ (if haveSnr then ["SNR"] else [])
  match arg with
  | .none => .ok (.str "PE")
  | .str s => if s ∈ available then .ok (.str s) else .error .valueError
  | .seq k xs => .ok (.seq k xs)
  | .dict b kv => .ok (.dict b kv)
  | _ => .error .valueError

/-- `opts.name` on the option Bunch. -/
def optAttr (b : Bunch PyVal) (name : String) : Except PyErr PyVal :=
  match b.get? name with
  | some v => .ok v
  | none => .error .attributeError

/-- The assignments made by the `conf_int` chain of `_translate_opts` (_solve.py 56-64), in order. -/
def confAssign (ci : PyVal) : Except PyErr (List (String × PyVal)) := do
  if ← ci.eqStr "linear" then return [("linci", .bool true)]
  else if ← ci.eqStr "MC" then return [("linci", .bool false)]
  else if ← ci.eqStr "none" then return [("conf_int", .bool false), ("nodiagn", .num 1)]
  else throw .valueError

/-- The assignments made by the `nodal` chain (_solve.py 71-74). -/
def nodalAssign (nodal : PyVal) : Except PyErr (List (String × PyVal)) := do
  if ← nodal.eqStr "linear_time" then return [("nodsatlint", .bool true)]
  else if !(← nodal.truthy) then return [("nodsatnone", .bool true)]
  else return []

/-- The assignments made by the `phase` chain (_solve.py 75-78). -/
def phaseAssign (phase : PyVal) : Except PyErr (List (String × PyVal)) := do
  if ← phase.eqStr "linear_time" then return [("gwchlint", .bool true)]
  else if ← phase.eqStr "raw" then return [("gwchnone", .bool true)]
  else return []

/-- `_translate_opts` (_solve.py 47-85): the sequence of assignments to `oldopts`, including the unused keys
`nodesatlint`, `nodesatnone` of 67-68. -/
def translateOpts (opts : Bunch PyVal) : Except PyErr (Bunch PyVal) := do
  let constit ← optAttr opts "constit"
  let order ← optAttr opts "order_constit"
  let infer ← optAttr opts "infer"
  let ci ← optAttr opts "conf_int"
  let confA ← confAssign ci
  let trend ← (← optAttr opts "trend").truthy
  let nodal ← optAttr opts "nodal"
  let nodalA ← nodalAssign nodal
  let phase ← optAttr opts "phase"
  let phaseA ← phaseAssign phase
  let rmin ← optAttr opts "Rayleigh_min"
  let white ← optAttr opts "white"
  let verbose ← optAttr opts "verbose"
  let epoch ← optAttr opts "epoch"
  return Dict.update []
    ([("cnstit", constit), ("ordercnstit", order), ("infer", infer), ("conf_int", .bool true)]
     ++ confA
     ++ [("notrend", .bool (!trend)), ("nodesatlint", .bool false), ("nodesatnone", .bool false),
         ("gwchlint", .bool false), ("gwchnone", .bool false)]
     ++ nodalA ++ phaseA
     ++ [("rmin", rmin), ("white", white), ("newopts", .dict true opts), ("RunTimeDisp", verbose),
         ("epoch", epoch)])

/-- The objects outside a call that option processing can touch: the module-level `default_opts` and the
object the caller passed as `infer` (aliased by `opts["infer"]`). -/
structure World where
  defaults : Dict PyVal
  callerInfer : PyVal

/-- `_process_opts` (_solve.py 34-44) as a state transformer. `Bunch(default_opts)` is a copy, so the updates of
line 36, 38 and 40 act on a local object; line 38 can modify the caller's `infer` object in place.
`opts` containing the parameter names `strict` or `self` of `update_values` is a TypeError of the call itself. -/
def processOptsW (w : World) (opts : Dict PyVal) (is2D : Bool) : World × Except PyErr (Bunch PyVal) :=
  if Dict.mem opts "strict" || Dict.mem opts "self" then (w, .error .typeError)
  else
    match Bunch.updateValues (Bunch.mk [w.defaults] []) [] opts (strict := true) with
    | .error e => (w, .error e)
    | .ok newopts =>
      match optAttr newopts "infer" with
      | .error e => (w, .error e)
      | .ok infer =>
        match validateInfer infer is2D with
        | .error e => (w, .error e)
        | .ok infer' =>
          -- line 102: an infer object that was accepted may have gained a key
          let w' : World := match infer with
            | .dict _ _ => { w with callerInfer := infer' }
            | _ => w
          let newopts := Dict.set newopts "infer" infer'
          (w', do
            let ci ← optAttr newopts "conf_int"
            let snr := !(← ci.eqStr "none")
            let oc ← validateOrderConstit (← optAttr newopts "order_constit") snr
            translateOpts (Dict.set newopts "order_constit" oc))

/-- `_process_opts` seen from the caller: a fresh module state, result only. -/
def processOpts (opts : Dict PyVal) (is2D : Bool) : Except PyErr (Bunch PyVal) :=
  (processOptsW ⟨defaultOpts, (Dict.get? opts "infer").getD .none⟩ opts is2D).2

/-- The defaults assigned in `_slvinit` (_solve.py 531-552). -/
def slvinitDefaults : List (String × PyVal) :=
  [("conf_int", .bool true), ("cnstit", .str "auto"), ("notrend", .num 0), ("prefilt", .seq .list []),
   ("nodsatlint", .num 0), ("nodsatnone", .num 0), ("gwchlint", .num 0), ("gwchnone", .num 0),
   ("infer", .none), ("inferaprx", .num 0), ("rmin", .num 1), ("method", .str "ols"), ("tunrdn", .num 1),
   ("linci", .bool false), ("white", .num 0), ("nrlzn", .num 200), ("lsfrqosmp", .num 1), ("nodiagn", .num 0),
   ("diagnplots", .num 0), ("diagnminsnr", .num 2), ("ordercnstit", .none), ("runtimedisp", .str "yyy")]

/-- The option part of `_slvinit` (_solve.py 477, 530-560): defaults, then every keyword overwrites.
`opt[key] = item` never raises. `equi` (518/524) is part of the data editing and not set here. -/
def slvinitOpts (twodim : Bool) (opts : Bunch PyVal) : Bunch PyVal :=
  Dict.update (Dict.update [("twodim", .bool twodim)] slvinitDefaults) opts

/-- The four correction flags `[NodsatLint NodsatNone GwchLint GwchNone]` (_solve.py 253,
_reconstruct.py 128-133). -/
structure Flags where
  nodsatlint : Bool
  nodsatnone : Bool
  gwchlint : Bool
  gwchnone : Bool
  deriving DecidableEq, Repr

/-- An accepted `infer` option, with its fields read out. -/
structure InferSpec where
  inferred : List String
  reference : List String
  amp : List ℚ
  phase : List ℚ
  approximate : Bool
  deriving DecidableEq, Repr

/-- Reading the fields of `opt.infer` as `ut_cnstitsel` and `_solv1` do
(constituent_selection.py 52, 66-95; _solve.py 267). -/
def readInfer (v : PyVal) : Except PyErr (Option InferSpec) :=
  match v with
  | .none => .ok none
  | v => do
    let inferred ← (← v.attr "inferred_names").iterNames
    let reference ← (← v.attr "reference_names").iterNames
    let amp ← (← v.attr "amp_ratios").iterNums
    let phase ← (← v.attr "phase_offsets").iterNums
    let approximate ← (← v.attr "approximate").truthy
    return some ⟨inferred, reference, amp, phase, approximate⟩

/-- The `constit` option as used by `ut_cnstitsel` (constituent_selection.py 45-48). -/
inductive Constit
  | auto
  | names (l : List String)
  deriving DecidableEq, Repr

/-- `incnstit == "auto"`, else iterate over it (constituent_selection.py 45-48). -/
def readConstit (v : PyVal) : Except PyErr Constit := do
  if ← v.eqStr "auto" then return .auto
  else return .names (← v.iterNames)

/-- The `order_constit` option as used by `_reorder` (_solve.py 437-452). -/
inductive Order
  | PE | frequency | SNR
  | names (l : List String)
  deriving DecidableEq, Repr

/-- The chain of comparisons in `_reorder` (_solve.py 437, 443, 446, 449-451). -/
def readOrder (v : PyVal) : Except PyErr Order := do
  if ← v.eqStr "PE" then return .PE
  else if ← v.eqStr "frequency" then return .frequency
  else if ← v.eqStr "SNR" then return .SNR
  else return .names (← v.iterNames)

/-- The method option: anything but `'ols'` takes the robust branch (_solve.py 311, 318). -/
inductive Method
  | ols
  | robust (kw : Dict PyVal)

/-- The options as the rest of the code reads them. -/
structure Opt where
  twodim : Bool
  flags : Flags
  cnstit : PyVal
  infer : PyVal
  ordercnstit : PyVal
  rmin : ℚ
  notrend : Bool
  confInt : Bool
  linci : Bool
  white : Bool
  nodiagn : Bool
  method : Method
  verbose : Bool
  epoch : PyVal

/-- `opt[key]` followed by a truth test. -/
def optTruthy (o : Bunch PyVal) (k : String) : Except PyErr Bool := do
  (← Dict.get o k).truthy

/-- Reading all options out of the final dictionary (`opt` returned by `_slvinit`, used in `_solv1`,
`_confidence` and `_reorder`). Simplification: everything is read at once, so a failure to read (an option
value whose truth value is undefined) is reported before the data are looked at. -/
def readOpt (o : Bunch PyVal) : Except PyErr Opt := do
  let nl ← optTruthy o "nodsatlint"
  let nn ← optTruthy o "nodsatnone"
  let gl ← optTruthy o "gwchlint"
  let gn ← optTruthy o "gwchnone"
  let newopts ← Dict.get o "newopts"
  let method ← newopts.attr "method"
  let isOls ← method.eqStr "ols"
  let meth ← (do
    if isOls then pure Method.ols
    else match ← newopts.attr "robust_kw" with
      | .dict _ kv => pure (Method.robust kv)
      | _ => throw .typeError)
  let rmin ← (do match ← Dict.get o "rmin" with
    | .num q => pure q
    | .bool b => pure (if b then 1 else 0)
    | _ => throw .unmodelled)
  return {
    twodim := ← optTruthy o "twodim"
    flags := ⟨nl, nn, gl, gn⟩
    cnstit := ← Dict.get o "cnstit"
    infer := ← Dict.get o "infer"
    ordercnstit := ← Dict.get o "ordercnstit"
    rmin := rmin
    notrend := ← optTruthy o "notrend"
    confInt := ← optTruthy o "conf_int"
    linci := ← optTruthy o "linci"
    white := ← optTruthy o "white"
    nodiagn := ← optTruthy o "nodiagn"
    method := meth
    verbose := ← optTruthy o "RunTimeDisp"
    epoch := ← Dict.get o "epoch" }

/-- All option handling: `solve(**opts)` up to the point where data are edited. -/
def getOpt (opts : Dict PyVal) (is2D : Bool) : Except PyErr Opt := do
  let compat ← processOpts opts is2D
  readOpt (slvinitOpts is2D compat)

end UTide
