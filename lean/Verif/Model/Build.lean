import Verif.Model.Node

/-!
# Constructors, setters and LUT builders

`clf/ProcessNode.py`, `clf/LUT1D.py`, `clf/LUT3D.py`, `clf/Matrix.py`,
`clf/Range.py`.
-/

namespace CLF

variable {K : Type} [Field K] [LinearOrder K] [IsStrictOrderedRing K] [FloorRing K]

/-- `clf/ProcessNode.py:137-151` `__init__`: the attributes every node starts
with; `bypass` is only stored when true. -/
def newBase (inD outD id name : AVal) (bypass : Bool := false) : Base K where
  attrs := [("inBitDepth", inD), ("outBitDepth", outD), ("id", id), ("name", name)] ++
    if bypass then [("bypass", .bool true)] else []

/-- `addElement` (`clf/ProcessNode.py:279-280`). -/
def Base.addElement (b : Base K) (e : Elem K) : Base K := { b with elements := b.elements ++ [e] }

/-- `setAttribute` (`clf/ProcessNode.py:269-270`). -/
def Base.setAttribute (b : Base K) (k : String) (v : AVal) : Base K :=
  { b with attrs := b.attrs.set k v }

/-- `if value != '': self._attributes[key] = value` of the constructors
(`clf/LUT1D.py:67-72`, `clf/LUT3D.py:65-66`). -/
def Base.setUnlessEmpty (b : Base K) (k : String) (v : AVal) : Base K :=
  if v = .str "" then b else b.setAttribute k v

/-- `clf/LUT1D.py:63-77` `LUT1D.__init__`. -/
def newLut1d (inD outD id name : AVal) (interpolation : AVal := .str "linear")
    (rawHalfs : AVal := .str "") (halfDomain : AVal := .str "") : Base K :=
  (((newBase inD outD id name).setUnlessEmpty "interpolation" interpolation).setUnlessEmpty
    "rawHalfs" rawHalfs).setUnlessEmpty "halfDomain" halfDomain

/-- `clf/LUT1D.py:97-109` `setArray`: the first dimension is the integer quotient
of the value count by the channel count. -/
def lut1dSetArray (b : Base K) (dimension : ℕ) (values : List (Flt K))
    (floatEncoding : String := "string") : Py (Base K) := do
  let rows ← pyDivNat values.length dimension
  pure (b.addElement (.array {
    dims := [rows, dimension], values := values,
    integers := bitDepthIsInteger (b.attrs.get? "outBitDepth"),
    rawHalfs := b.flag "rawHalfs", floatEncoding := floatEncoding }))

/-- `clf/LUT1D.py:79-95`, `clf/LUT3D.py:72-87` `setIndexMaps`: one map, or three when
both further lists are given. -/
def setIndexMaps (b : Base K) (r : List (Flt K) × List (Flt K))
    (gb : Option ((List (Flt K) × List (Flt K)) × (List (Flt K) × List (Flt K))) := none) :
    Base K :=
  let mk (v : List (Flt K) × List (Flt K)) : Elem K := .indexMap ⟨v.1.length, v.1, v.2⟩
  match gb with
  | none => b.addElement (mk r)
  | some (g, bl) => ((b.addElement (mk r)).addElement (mk g)).addElement (mk bl)

/-- `clf/LUT1D.py:220-243` `simpleSampledLUT`.  The loop stores at positions
`i*channels + c` in increasing order, i.e. it lists the values row by row.  A
resolution of one divides by zero. -/
def simpleSampledLUT (id transformId : AVal) (channels resolution : ℕ)
    (f : Flt K → Py (Flt K)) (inD outD : AVal) : Py (Base K) := do
  let rows ← (List.range resolution).mapM fun (i : ℕ) => do
    let sample ← pyDivF (.fin (i : K)) (.fin ((resolution : K) - 1))
    (List.range channels).mapM fun _ => f sample
  lut1dSetArray (newLut1d inD outD id transformId) channels rows.flatten

/-- `clf/LUT1D.py:248-282` `simpleSampledLUTHalfDomain`; same remark. -/
def simpleSampledLUTHalfDomain (id transformId : AVal) (channels : ℕ)
    (f : Flt K → Py (Flt K)) (rawHalfs : AVal) (inD outD : AVal) : Py (Base K) := do
  let rows ← (List.range 65536).mapM fun i => do
    let v ← f (half.decode i)
    pure (List.replicate channels v)
  lut1dSetArray (newLut1d inD outD id transformId (.str "linear") rawHalfs (.bool true)) channels
    rows.flatten

/-- `clf/LUT3D.py:60-70` `LUT3D.__init__`. -/
def newLut3d (inD outD id name : AVal) (interpolation : AVal := .str "trilinear") : Base K :=
  (newBase inD outD id name).setUnlessEmpty "interpolation" interpolation

/-- `clf/LUT3D.py:89-100` `setArray`.  The dimension list of the caller is extended
in place and kept as the array's own dimension list; the second component is what
the caller's list holds afterwards. -/
def lut3dSetArray (b : Base K) (dimension : List ℕ) (values : List (Flt K))
    (floatEncoding : String := "string") : Base K × List ℕ :=
  let dimensions := dimension ++ [3]
  (b.addElement (.array {
    dims := dimensions, values := values,
    integers := bitDepthIsInteger (b.attrs.get? "outBitDepth"),
    floatEncoding := floatEncoding }), dimensions)

/-- `l[a:a+3] = new` on a Python list: replaces the slice whatever the lengths
(`clf/LUT3D.py:231`). -/
def listSplice {α : Type} (l : List α) (a b : ℕ) (new : List α) : List α :=
  l.take a ++ new ++ l.drop (max a b)

/-- `clf/LUT3D.py:202-238` `simple3DLUT`: returns the node and what the caller's
`resolution` list holds afterwards. -/
def simple3DLUT (id transformId : AVal) (resolution : List ℕ)
    (f : Flt K → Flt K → Flt K → Py (List (Flt K))) (inD outD : AVal) :
    Py (Base K × List ℕ) := do
  let r0 ← pyGet resolution 0
  let r1 ← pyGet resolution 1
  let r2 ← pyGet resolution 2
  let init := List.replicate (r0 * r1 * r2 * 3) (Flt.fin (0 : K))
  let vals ← (List.range r0).foldlM (init := init) fun vals (x : ℕ) => do
    let sx ← pyDivF (.fin (x : K)) (.fin ((r0 : K) - 1))
    (List.range r1).foldlM (init := vals) fun vals (y : ℕ) => do
      let sy ← pyDivF (.fin (y : K)) (.fin ((r1 : K) - 1))
      (List.range r2).foldlM (init := vals) fun vals (z : ℕ) => do
        let sz ← pyDivF (.fin (z : K)) (.fin ((r2 : K) - 1))
        let index : ℕ := ((x * r0 + y) * r1 + z) * 3
        let fvalue ← f sx sy sz
        pure (listSplice vals index (index + 3) fvalue)
  pure (lut3dSetArray (newLut3d inD outD id transformId) resolution vals)

/-- `clf/Matrix.py:67-76` `setMatrix`. -/
def setMatrix (b : Base K) (dimensions : List ℕ) (values : List (Flt K))
    (floatEncoding : String := "string") : Base K :=
  b.addElement (.array {
    dims := dimensions, values := values,
    integers := bitDepthIsInteger (b.attrs.get? "outBitDepth"),
    floatEncoding := floatEncoding })

end CLF
