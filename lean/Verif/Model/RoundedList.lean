import Verif.Model.RoundedPower

/-!
# Lists of nodes in an arithmetic with rounding

Source: `/repo/python/aces/clf/ProcessList.py`, `clf/ExtensionGroup.py`, `clf/ExtensionReference.py`.

`runNodes` and `processList` once more, with the nodes replaced by their versions of `Model/Rounded.lean` and
`Model/RoundedPower.lean`.  `table b` is the format numpy holds the array of node `b` in, which depends on how the node came about
(`Model/Rounded.lean`); `library` is what computes powers and logarithms.
-/

namespace CLF

variable {K : Type} [Field K] [LinearOrder K] [IsStrictOrderedRing K] [FloorRing K]

/-- What evaluates the nodes of a list. -/
structure Evaluator (K : Type) where
  rounding : Rounding K
  table : Base K → Fmt
  library : Arith K

/-- `process` of a node that holds no other nodes: `clf/Range.py:101-180`, `clf/Matrix.py:92-139`, `clf/LUT1D.py:139-214`,
`clf/LUT3D.py:130-196`, `clf/ASCCDL.py:123-234`, `clf/ExtensionExposureContrast.py:103-172`, `clf/ExtensionGamma.py:105-189`,
`clf/ExtensionLog.py:115-233`, `clf/ProcessNode.py:306-309`. -/
def leafProcessR (E : Evaluator K) (compat : ℕ) (k : Kind K) (b : Base K) (values : List (Flt K)) (stride : ℕ) : Py (Res K) :=
  match k with
  | .range => rangeProcessR E.rounding b values
  | .matrix => matrixProcessR E.rounding (E.table b) b values stride
  | .lut1d => lut1dProcessR E.rounding (E.table b) b values stride
  | .lut3d => lut3dProcessR E.rounding b values stride
  | .cdl _ v => cdlProcessR E.rounding E.library compat v b values stride
  | .exposureContrast e c p => ecProcessR E.rounding E.library e c p b values stride
  | .gamma ps => gammaProcessR E.rounding E.library ps b values stride
  | .log ps => logProcessR E.rounding E.library ps b values stride
  | .plain => .error .nameError

mutual

/-- `node.process(values, stride)`; a reference copies into a `float32` array (`clf/ExtensionReference.py:134-144`),
a group does not (`clf/ExtensionGroup.py:117-156`). -/
def Node.processR (E : Evaluator K) (compat : ℕ) (stride : ℕ) : Node K → List (Flt K) → Py (Res K)
  | .leaf k b, values => leafProcessR E compat k b values stride
  | .group _ cs, values => runNodesR E compat stride true none cs ⟨values, values, true⟩
  | .ref _ _ ns, values => do
    let copy := values.map (E.rounding single)
    let r ← runNodesR E compat stride false none ns ⟨copy, copy, true⟩
    pure ⟨r.out, values, false⟩
  | .refMissing _ _, values => .ok ⟨values, values, true⟩

/-- The node loop of `clf/ProcessList.py:352-394` and `clf/ExtensionGroup.py:121-153`. -/
def runNodesR (E : Evaluator K) (compat : ℕ) (stride : ℕ) (inGroup : Bool) (prev : Option Depth) :
    List (Node K) → Res K → Py (Res K)
  | [], s => .ok s
  | n :: rest, s => do
    let s' ←
      if (n.attr "bypass").isNone || (!inGroup && !hasFeature compat autodesk) then do
        let r ← n.processR E compat stride s.out
        pure (s.step r)
      else
        match prev, rest with
        | some inD, next :: _ =>
          if inD ≠ next.inDepth then do
            let r ← rangeProcessR E.rounding (adapterBase inD next.inDepth) s.out
            pure (s.step r)
          else pure s
        | _, _ => pure s
    runNodesR E compat stride inGroup (some n.outDepth) rest s'

end

/-- `clf/ProcessList.py:344-397` `process`: the values are copied into a fresh `float32` array, then run through the nodes. -/
def processListR (E : Evaluator K) (compat : ℕ) (ns : List (Node K)) (values : List (Flt K)) (stride : ℕ) :
    Py (List (Flt K)) := do
  let copy := values.map (E.rounding single)
  let r ← runNodesR E compat stride false none ns ⟨copy, copy, true⟩
  pure r.out

end CLF
