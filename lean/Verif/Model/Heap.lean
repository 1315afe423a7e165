import Verif.Model.Process

/-!
# Processing on a heap of arrays

The same node loop as in `Model/Process`, but with arrays as mutable objects: a
heap is a list of arrays, an address is an index into it, and `process` takes and
returns addresses.  This is the level at which "the caller's array" can be told
apart from the arrays the library makes.
-/

namespace CLF

variable {K : Type} [Field K] [LinearOrder K] [IsStrictOrderedRing K] [FloorRing K]

/-- All live `float32` arrays. -/
abbrev Heap (K : Type) := List (List (Flt K))

/-- The contents of the array at an address. -/
def Heap.load (h : Heap K) (a : ℕ) : List (Flt K) := (h[a]?).getD []

/-- A new array; its address is the old size of the heap. -/
def Heap.alloc (h : Heap K) (v : List (Flt K)) : Heap K × ℕ := (h ++ [v], h.length)

/-- `process` of a node that holds no other nodes, on the array at `a`: the array
is overwritten with what the loop leaves in it, and the result is either that same
array (`clf/Range.py:146, 180`) or the fresh `np.zeros` array of the pixel loops
(e.g. `clf/LUT1D.py:161`). -/
def leafProcessH (A : Arith K) (compat : ℕ) (k : Kind K) (b : Base K) (stride : ℕ)
    (h : Heap K) (a : ℕ) : Py (Heap K × ℕ) := do
  let r ← leafProcess A compat k b (Heap.load h a) stride
  let h := h.set a r.arg
  pure (if r.same then (h, a) else Heap.alloc h r.out)

/-- The Range adapter for bypassed nodes (`clf/ProcessList.py:388-389`). -/
def adapterH (A : Arith K) (inD outD : Depth) (h : Heap K) (a : ℕ) : Py (Heap K × ℕ) := do
  let r ← rangeProcess A (adapterBase inD outD) (Heap.load h a)
  pure (h.set a r.arg, a)

mutual

/-- `node.process` (`clf/ExtensionReference.py:134-144`,
`clf/ExtensionGroup.py:117-156` for the compound nodes). -/
def Node.processH (A : Arith K) (compat : ℕ) (stride : ℕ) :
    Node K → Heap K → ℕ → Py (Heap K × ℕ)
  | .leaf k b, h, a => leafProcessH A compat k b stride h a
  | .group _ cs, h, a => runNodesH A compat stride true none cs h a
  | .ref _ _ ns, h, a =>
    let c := Heap.alloc h ((Heap.load h a).map A.f32)
    runNodesH A compat stride false none ns c.1 c.2
  | .refMissing _ _, h, a => .ok (h, a)

/-- The node loop of `clf/ProcessList.py:352-394` and
`clf/ExtensionGroup.py:121-153`; parameters as for `runNodes`. -/
def runNodesH (A : Arith K) (compat : ℕ) (stride : ℕ) (inGroup : Bool) (prev : Option Depth) :
    List (Node K) → Heap K → ℕ → Py (Heap K × ℕ)
  | [], h, a => .ok (h, a)
  | n :: rest, h, a => do
    let s ←
      if (n.attr "bypass").isNone || (!inGroup && !hasFeature compat autodesk) then
        n.processH A compat stride h a
      else
        match prev, rest with
        | some inD, next :: _ =>
          if inD ≠ next.inDepth then adapterH A inD next.inDepth h a else .ok (h, a)
        | _, _ => .ok (h, a)
    runNodesH A compat stride inGroup (some n.outDepth) rest s.1 s.2

end

/-- `clf/ProcessList.py:344-397` `process` on the caller's array at `a`:
`np.array(values, np.float32)` always makes a new array (line 346). -/
def processListH (A : Arith K) (compat : ℕ) (ns : List (Node K)) (h : Heap K) (a stride : ℕ) :
    Py (Heap K × ℕ) :=
  let c := Heap.alloc h ((Heap.load h a).map A.f32)
  runNodesH A compat stride false none ns c.1 c.2

end CLF
