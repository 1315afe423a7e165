import Verif.Model.IndexMap

/-!
# Process nodes: data

The state of a node object.  `_array` and `_indexMaps` of the LUT and Matrix
nodes are not separate fields: `setMatrix`/`setArray`/`setIndexMaps` and
`readChild` always store the same object in `_elements` too (e.g.
`clf/Matrix.py:74-75`, `clf/LUT1D.py:80-92, 101-106, 131-135`), so `_array` is the
last array and `_indexMaps` the index maps of `_elements`.
-/

namespace CLF

/-- Objects kept in a node's or list's `_elements`: `Comment` and its subclasses
(`clf/Comment.py:62-115`, with the tag they are written under), `Info`
(`clf/Info.py:64-77`, its child comments), arrays and index maps. -/
inductive Elem (K : Type)
  | comment (tag : String) (text : Option String)
  | info (children : List (String × Option String))
  | array (a : Arr K)
  | indexMap (m : IndexMap K)

/-- `clf/ProcessNode.py:137-151`: what every node carries. -/
structure Base (K : Type) where
  attrs : Dict AVal
  values : Dict (Flt K) := []
  dyn : List String := []
  elements : List (Elem K) := []

/-- `clf/ASCCDL.py:69-79`: the `_values` of a CDL; absent keys are `none`. -/
structure CdlValues (K : Type) where
  slope : Option (List (Flt K)) := none
  offset : Option (List (Flt K)) := none
  power : Option (List (Flt K)) := none
  saturation : Option (Flt K) := none

/-- One row `[gamma, offset, channel]` of `clf/ExtensionGamma.py:72-73`. -/
structure GammaParam (K : Type) where
  gamma : Flt K
  offset : Flt K
  channel : Option String

/-- One row of `clf/ExtensionLog.py:74-75`. -/
structure LogParam (K : Type) where
  gamma : Flt K
  refWhite : Flt K
  refBlack : Flt K
  highlight : Flt K
  shadow : Flt K
  channel : Option String

/-- The class of a node that holds no other nodes, with the data particular to
it.  `cdl true` is `ColorCorrection` (`clf/ASCCDL.py:253-267`), `plain` the base
class `ProcessNode` itself. -/
inductive Kind (K : Type)
  | range
  | matrix
  | lut1d
  | lut3d
  | cdl (colorCorrection : Bool) (v : CdlValues K)
  | exposureContrast (exposure contrast pivot : Flt K)
  | gamma (params : List (GammaParam K))
  | log (params : List (LogParam K))
  | plain

/-- A process node.  `group` is `clf/ExtensionGroup.py:58-70`; `ref` is
`clf/ExtensionReference.py:74-91` with the nodes of the list it resolved to, and
`refMissing` one whose path did not resolve (`_processList` is `None`, line 98);
`writeRef` is `_writeReferencedNodes`. -/
inductive Node (K : Type)
  | leaf (kind : Kind K) (base : Base K)
  | group (base : Base K) (children : List (Node K))
  | ref (base : Base K) (writeRef : Bool) (target : List (Node K))
  | refMissing (base : Base K) (writeRef : Bool)

variable {K : Type}

/-- The common part of a node. -/
def Node.base : Node K → Base K
  | .leaf _ b => b
  | .group b _ => b
  | .ref b _ _ => b
  | .refMissing b _ => b

/-- `getAttribute` (`clf/ProcessNode.py:271-276`). -/
def Node.attr (n : Node K) (k : String) : Option AVal := n.base.attrs.get? k

/-- `getInBitDepth` (`clf/ProcessNode.py:314-315`). -/
def Node.inDepth (n : Node K) : Depth := n.attr "inBitDepth"

/-- `getOutBitDepth` (`clf/ProcessNode.py:319-320`). -/
def Node.outDepth (n : Node K) : Depth := n.attr "outBitDepth"

/-- The arrays among the elements. -/
def arraysOf (es : List (Elem K)) : List (Arr K) :=
  es.filterMap fun | .array a => some a | _ => none

/-- The index maps among the elements: `_indexMaps` (`clf/LUT1D.py:76`). -/
def Base.indexMaps (b : Base K) : List (IndexMap K) :=
  b.elements.filterMap fun | .indexMap m => some m | _ => none

/-- `_array`: the last array set; without one, using it is an `AttributeError`
(`clf/Matrix.py:97`, `clf/LUT1D.py:109-110`). -/
def Base.array (b : Base K) : Py (Arr K) :=
  match (arraysOf b.elements).getLast? with
  | some a => .ok a
  | none => .error .attributeError

/-- `self._attributes[name]`, raising `KeyError`. -/
def Base.attrE (b : Base K) (k : String) : Py Depth := do
  let v ← b.attrs.getE k
  pure (some v)

/-- The `style` (or `interpolation`) attribute, `''` if absent
(e.g. `clf/ASCCDL.py:137-138`). -/
def Base.styleOf (b : Base K) (k : String) : AVal :=
  match b.attrs.get? k with
  | some v => v
  | none => .str ""

/-- `not (self.getAttribute(name) in [None, False])` (`clf/LUT1D.py:148-149`). -/
def Base.flag (b : Base K) (k : String) : Bool :=
  match b.attrs.get? k with
  | none => false
  | some (.bool false) => false
  | some _ => true

end CLF
