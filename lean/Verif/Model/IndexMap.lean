import Verif.Model.Array

/-!
# `clf/IndexMap.py` evaluation
-/

namespace CLF

/-- `clf/IndexMap.py:62-75`: dimension attribute and the two value lists. The
cache (`useCachedProcess`) is off by default and nothing in the repository turns
it on; it is modelled separately in `processCached`. -/
structure IndexMap (K : Type) where
  dimension : ℕ
  inputs : List (Flt K)
  outputs : List (Flt K)

variable {K : Type} [Field K] [LinearOrder K] [IsStrictOrderedRing K] [FloorRing K]

namespace IndexMap

/-- The search loop of `clf/IndexMap.py:117-126` from index `i` on, `n` iterations
left: the first `i` with `value <= inputValues[i+1]`, then interpolate.  Falling
off the end of the loop leaves `result` unbound. -/
def search (m : IndexMap K) (value : Flt K) : ℕ → ℕ → Py (Flt K)
  | _, 0 => .error .unboundLocal
  | i, n + 1 => do
    let hi ← pyGet m.inputs (i + 1)
    if Flt.le value hi then
      let lo ← pyGet m.inputs i
      let interp := (value - lo) / (hi - lo)
      let outLow ← pyGet m.outputs i
      let outHigh ← pyGet m.outputs (i + 1)
      pure (interp * (outHigh - outLow) + outLow)
    else search m value (i + 1) n

/-- `clf/IndexMap.py:95-127` `_processRaw`. -/
def processRaw (m : IndexMap K) (value : Flt K) : Py (Flt K) :=
  match value with
  | .nan => .ok .nan
  | .inf s => .ok (.inf s)
  | .fin _ => do
    let first ← pyGet m.inputs 0
    if Flt.le value first then pyGet m.outputs 0
    else
      let last ← pyIdx m.inputs (-1)
      if Flt.le last value then pyIdx m.outputs (-1)
      else m.search value 0 m.inputs.length

/-- `clf/IndexMap.py:177-187` `process` with the cache off. -/
def process (m : IndexMap K) (value : Flt K) : Py (Flt K) := m.processRaw value

/-- `clf/IndexMap.py:131-151` `_createCachedProcess`: the raw map sampled at all
65536 half codes. -/
def cache (m : IndexMap K) : Py (Arr K) := do
  let vs ← (List.range 65536).mapM fun i => m.processRaw (half.decode i)
  pure { dims := [65536, 1], values := vs }

/-- `clf/IndexMap.py:177-187` `process` with the cache on. -/
def processCached (m : IndexMap K) (value : Flt K) : Py (Flt K) := do
  let a ← m.cache
  a.lookup1DHalfDomainInterpolated value 0

end IndexMap

end CLF
