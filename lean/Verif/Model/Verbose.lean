import Verif.Model.Process
import Verif.Model.Write

/-!
# Processing with `verbose=True`

Source: `/repo/python/aces/clf/ProcessList.py`, `clf/ExtensionGroup.py`, `clf/ExtensionReference.py`,
`clf/ProcessNode.py`.

`processList` once more, with the lines that are printed.  A line holds what is put into its text; how numbers are
printed (`%3.6f`) is left out, as are the lines printed before an exception.  The leaf classes take the argument and
print nothing.
-/

namespace CLF

variable {K : Type} [Field K] [LinearOrder K] [IsStrictOrderedRing K] [FloorRing K]

/-- What a printed line says. -/
inductive Message (K : Type)
  /-- `clf/ProcessList.py:349` -/
  | start (values stride : ℕ)
  /-- `clf/ProcessList.py:361-364, 391-394`, `clf/ExtensionGroup.py:128-130, 150-153` -/
  | result (inGroup : Bool) (name : Option AVal) (type : String) (values : List (Flt K))
  /-- `clf/ProcessList.py:366-369` -/
  | ignored (name : Option AVal) (type : String)
  /-- `clf/ProcessList.py:374-375`, `clf/ExtensionGroup.py:133-134` -/
  | bypassing (name : Option AVal) (type : String)
  /-- `clf/ProcessList.py:385-386`, `clf/ExtensionGroup.py:144-145` -/
  | adding (name : Option AVal) (type : String) (inD outD : Depth)
  /-- `clf/ExtensionReference.py:136` -/
  | refBegin
  /-- `clf/ExtensionReference.py:142` -/
  | refEnd
  deriving DecidableEq

/-- `getNodeType` (`clf/ProcessNode.py:302-303`). -/
def Node.type : Node K → String
  | .leaf k _ => k.tag
  | .group _ _ => "Group"
  | .ref _ _ _ => "Reference"
  | .refMissing _ _ => "Reference"

mutual

/-- `node.process(values, stride, verbose=True)` (see `Node.process`). -/
def Node.processV (A : Arith K) (compat : ℕ) (stride : ℕ) :
    Node K → List (Flt K) → Py (Res K × List (Message K))
  | .leaf k b, values => do
    let r ← leafProcess A compat k b values stride
    pure (r, [])
  | .group _ cs, values => runNodesV A compat stride true none cs ⟨values, values, true⟩
  | .ref _ _ ns, values => do
    let copy := values.map A.f32
    let (r, l) ← runNodesV A compat stride false none ns ⟨copy, copy, true⟩
    pure (⟨r.out, values, false⟩, [.refBegin, .start values.length stride] ++ l ++ [.refEnd])
  | .refMissing _ _, values => .ok (⟨values, values, true⟩, [.refBegin, .refEnd])

/-- The node loop of `clf/ProcessList.py:352-394` and `clf/ExtensionGroup.py:121-153` (see `runNodes`). -/
def runNodesV (A : Arith K) (compat : ℕ) (stride : ℕ) (inGroup : Bool) (prev : Option Depth) :
    List (Node K) → Res K → Py (Res K × List (Message K))
  | [], s => .ok (s, [])
  | n :: rest, s => do
    let (s', l) ←
      if (n.attr "bypass").isNone || (!inGroup && !hasFeature compat autodesk) then do
        let (r, l) ← n.processV A compat stride s.out
        pure (s.step r, l ++ [.result inGroup (n.attr "name") n.type r.out] ++
          (if (n.attr "bypass").isNone then [] else [.ignored (n.attr "name") n.type]))
      else
        match prev, rest with
        | some inD, next :: _ =>
          if inD ≠ next.inDepth then do
            let r ← rangeProcess A (adapterBase inD next.inDepth) s.out
            pure (s.step r, [.bypassing (n.attr "name") n.type, .adding (n.attr "name") n.type inD next.inDepth,
              .result false (some (.str "adapter")) "Range" r.out])
          else pure (s, [.bypassing (n.attr "name") n.type])
        | _, _ => pure (s, [.bypassing (n.attr "name") n.type])
    let (r, ls) ← runNodesV A compat stride inGroup (some n.outDepth) rest s'
    pure (r, l ++ ls)

end

/-- `clf/ProcessList.py:344-397` `process` with `verbose=True`. -/
def processListV (A : Arith K) (compat : ℕ) (ns : List (Node K)) (values : List (Flt K))
    (stride : ℕ) : Py (List (Flt K) × List (Message K)) := do
  let copy := values.map A.f32
  let (r, l) ← runNodesV A compat stride false none ns ⟨copy, copy, true⟩
  pure (r.out, .start values.length stride :: l)

end CLF
