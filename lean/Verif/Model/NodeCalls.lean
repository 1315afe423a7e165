import Verif.Model.Build

/-!
# Setters and getters of nodes

The methods that fill a node and look at it.  The state is the node's `Base`; a call that
raises leaves no state behind in the model.
-/

namespace CLF

variable {K : Type} [Field K] [LinearOrder K] [IsStrictOrderedRing K] [FloorRing K]

/-- The calls of `clf/ProcessNode.py:269-319`, `clf/Range.py:70-86`, `clf/LUT1D.py:79-107`,
`clf/LUT3D.py:72-100` and `clf/Matrix.py:67-76` that change a node.  Objects passed in are not
changed by the caller afterwards. -/
inductive NodeCall (K : Type)
  | setAttribute (k : String) (v : AVal)
  | setInBitDepth (d : AVal)
  | setOutBitDepth (d : AVal)
  | addValueElement (k : String) (x : Flt K)
  | setDynamicParam (name : String)
  | setMinInValue (x : Flt K)
  | setMaxInValue (x : Flt K)
  | setMinOutValue (x : Flt K)
  | setMaxOutValue (x : Flt K)
  | setStyle (v : AVal)
  | setDefaultRange (v : AVal)
  | setLut1d (dimension : ℕ) (values : List (Flt K))
  | setLut3d (dimension : List ℕ) (values : List (Flt K))
  | setMatrix (dimensions : List ℕ) (values : List (Flt K))
  | setIndexMaps (r : List (Flt K) × List (Flt K))
      (gb : Option ((List (Flt K) × List (Flt K)) × (List (Flt K) × List (Flt K))))

/-- Truth of an attribute value: numbers are taken to be different from zero. -/
def AVal.truthy : AVal → Bool
  | .str s => s ≠ ""
  | .bool b => b
  | .other _ => true

/-- One call. -/
def nodeStep (b : Base K) : NodeCall K → Py (Base K)
  | .setAttribute k v => .ok (b.setAttribute k v)
  | .setInBitDepth d => .ok (b.setAttribute "inBitDepth" d)
  | .setOutBitDepth d => .ok (b.setAttribute "outBitDepth" d)
  | .addValueElement k x => .ok { b with values := b.values.set k x }
  | .setDynamicParam name => .ok { b with dyn := b.dyn ++ [name] }
  | .setMinInValue x => .ok { b with values := b.values.set "minInValue" x }
  | .setMaxInValue x => .ok { b with values := b.values.set "maxInValue" x }
  | .setMinOutValue x => .ok { b with values := b.values.set "minOutValue" x }
  | .setMaxOutValue x => .ok { b with values := b.values.set "maxOutValue" x }
  | .setStyle v => .ok (b.setAttribute "style" v)
  | .setDefaultRange v =>
    if v.truthy then .ok (b.setAttribute "defaultRange" v)
    else .ok { b with attrs := b.attrs.del "defaultRange" }
  | .setLut1d n vs => lut1dSetArray b n vs
  | .setLut3d ds vs => .ok (lut3dSetArray b ds vs).1
  | .setMatrix ds vs => .ok (CLF.setMatrix b ds vs)
  | .setIndexMaps r gb => .ok (CLF.setIndexMaps b r gb)

/-- A sequence of calls. -/
def nodeRun (b : Base K) (calls : List (NodeCall K)) : Py (Base K) := calls.foldlM nodeStep b

/-- `clf/ProcessNode.py:271-276` `getAttribute`. -/
def Base.getAttribute (b : Base K) (k : String) : Option AVal := b.attrs.get? k

/-- `clf/ProcessNode.py:289-293` `getValueElement`. -/
def Base.getValueElement (b : Base K) (k : String) : Option (Flt K) := b.values.get? k

/-- `clf/ProcessNode.py:298-299` `getDynamicParam`. -/
def Base.getDynamicParam (b : Base K) (name : String) : Bool := b.dyn.contains name

/-- `getLUTDimensions` (`clf/LUT1D.py:109-110`, `clf/LUT3D.py:102-103`). -/
def Base.getLUTDimensions (b : Base K) : Py (List ℕ) := do
  let a ← b.array
  pure a.dims

/-- `getLUTValues` (`clf/LUT1D.py:111-112`, `clf/LUT3D.py:104-105`). -/
def Base.getLUTValues (b : Base K) : Py (List (Flt K)) := do
  let a ← b.array
  pure a.values

/-- `getIndexMapDimensions` (`clf/LUT1D.py:114-115`, `clf/LUT3D.py:107-108`): `IndexMap` has a
method `getDimension`, but no `getDimensions`. -/
def Base.getIndexMapDimensions (b : Base K) (channel : ℕ) : Py ℕ := do
  let _ ← pyGet b.indexMaps channel
  .error .attributeError

/-- `getIndexMapValues` (`clf/LUT1D.py:116-117`, `clf/LUT3D.py:109-110`). -/
def Base.getIndexMapValues (b : Base K) (channel : ℕ) : Py (List (Flt K) × List (Flt K)) := do
  let m ← pyGet b.indexMaps channel
  pure (m.inputs, m.outputs)

end CLF
