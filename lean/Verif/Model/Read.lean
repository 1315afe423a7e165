import Verif.Model.ArrayText
import Verif.Model.Build

/-!
# Reading process lists from XML

`clf/ProcessNode.py:178-238`, `clf/ProcessList.py:179-258`, the `readChild` methods of
the node classes, `clf/ExtensionGroup.py:97-115`, `clf/ExtensionReference.py:63-132`.
-/

namespace CLF

variable {K : Type} [Field K] [LinearOrder K] [IsStrictOrderedRing K] [FloorRing K]

/-- `tag[tag.find('}')+1:]`. -/
def afterBrace (t : Txt) : Txt :=
  match t.dropWhile (· ≠ '}') with
  | [] => t
  | _ :: r => r

/-- `getElementType` (`clf/ProcessList.py:179-185`, `clf/ProcessNode.py:187-192`,
`clf/Info.py:87-92`). -/
def elementType (tag : String) : String :=
  String.ofList ((afterBrace tag.toList).filter fun c => c ≠ '-' ∧ c ≠ '_')

/-- An attribute as read: `"True"` and `"False"` become booleans
(`clf/ProcessNode.py:199-200`). -/
def attrOfText (s : String) : AVal :=
  if s = "True" then .bool true else if s = "False" then .bool false else .str s

/-- `"%s" % value` for an attribute (`clf/ProcessNode.py:159`). -/
def AVal.text : AVal → String
  | .str s => s
  | .bool true => "True"
  | .bool false => "False"
  | .other t => t

/-- The attribute loop of `clf/ProcessNode.py:197-201`. -/
def readAttrs (b : Base K) (attrs : Dict String) : Base K :=
  attrs.foldl (fun b kv => b.setAttribute kv.1 (attrOfText kv.2)) b

/-- `float(element.text)`: no text is a `TypeError`. -/
def floatOfText (t : Option String) : Py (Flt K) :=
  match t with
  | none => .error .typeError
  | some t => do
    let v ← parseFloat (K := K) t.toList
    pure v.toFlt

/-- `map(float, element.text.split())`: no text is an `AttributeError`. -/
def floatsOfText (t : Option String) : Py (List (Flt K)) :=
  match t with
  | none => .error .attributeError
  | some t => (words t.toList).mapM fun w => do
    let v ← parseFloat (K := K) w
    pure v.toFlt

/-- A float attribute of a parameter element, with a default
(`clf/ExtensionGamma.py:93-98` and the like; the attributes come in an unspecified
order, but every failure is the same `ValueError`). -/
def floatAttr (x : Xml) (key : String) (dflt : Flt K) : Py (Flt K) :=
  match x.attrs.get? key with
  | none => .ok dflt
  | some t => floatOfText (some t)

/-! ## Registered classes -/

/-- What the registry maps an element name to (`ProcessList.serializableClasses`, filled
by the metaclass `clf/ProcessList.py:429-434`): a leaf node class with its state after
construction without arguments, a group, a reference, the base class, a comment class or
`Info`. -/
inductive Cls (K : Type)
  | leaf (k : Kind K) (b : Base K)
  | group
  | reference
  | processNode
  | comment (tag : String)
  | info

/-- `issubclass(cls, ProcessNode)`. -/
def Cls.isNode : Cls K → Bool
  | .comment _ => false
  | .info => false
  | _ => true

/-- Attributes after `ProcessNode.__init__` without arguments
(`clf/ProcessNode.py:137-151`). -/
def defaultBase : Base K := newBase (.str "16f") (.str "16f") (.str "") (.str "")

/-- `ProcessList.getClass` (`clf/ProcessList.py:88-93`) with the classes defined by
`clf/__init__.py`'s modules; constructors: `clf/Range.py:60-69`, `clf/Matrix.py:63-66`,
`clf/LUT1D.py:63-77`, `clf/LUT3D.py:62-71`, `clf/ASCCDL.py:64-70, 256-266`,
`clf/ExtensionExposureContrast.py:64-70`, `clf/ExtensionGamma.py:64-70`,
`clf/ExtensionLog.py:66-72`. -/
def classOf (type : String) : Option (Cls K) :=
  if type = "Range" then some (.leaf .range defaultBase)
  else if type = "Matrix" then some (.leaf .matrix defaultBase)
  else if type = "LUT1D" then
    some (.leaf .lut1d (newLut1d (.str "16f") (.str "16f") (.str "") (.str "")))
  else if type = "LUT3D" then
    some (.leaf .lut3d (newLut3d (.str "16f") (.str "16f") (.str "") (.str "")))
  else if type = "ASCCDL" then
    some (.leaf (.cdl false {}) (defaultBase.setAttribute "style" (.str "Fwd")))
  else if type = "ColorCorrection" then some (.leaf (.cdl true {}) ⟨[("id", .str "")], [], [], []⟩)
  else if type = "ExposureContrast" then
    some (.leaf (.exposureContrast (.fin 0) (.fin 1) (.fin 1))
      (defaultBase.setAttribute "style" (.str "linear")))
  else if type = "Gamma" then
    some (.leaf (.gamma []) (defaultBase.setAttribute "style" (.str "basicFwd")))
  else if type = "Log" then
    some (.leaf (.log []) (defaultBase.setAttribute "style" (.str "log10")))
  else if type = "Group" then some .group
  else if type = "Reference" then some .reference
  else if type = "ProcessNode" then some .processNode
  else if type = "Comment" then some (.comment "Comment")
  else if type = "Description" then some (.comment "Description")
  else if type = "InputDescriptor" then some (.comment "InputDescriptor")
  else if type = "OutputDescriptor" then some (.comment "OutputDescriptor")
  else if type = "Info" then some .info
  else none

/-- `clf/Info.py:94-107` `Info.read`. -/
def readInfo (x : Xml) : List (String × Option String) :=
  x.children.filterMap fun c =>
    let t := elementType c.tag
    if t = "AppRelease" ∨ t = "Copyright" ∨ t = "Release" then some (t, c.text) else none

/-- Constructing and reading an element that is not a node (`clf/Comment.py:81-83`,
`clf/Info.py:94-107`).  Not called for nodes. -/
def readElem (cls : Cls K) (x : Xml) : Elem K :=
  match cls with
  | .comment tag => .comment tag x.text
  | _ => .info (readInfo x)

/-! ## Children of nodes -/

/-- The children every node class understands (`clf/ProcessNode.py:207-228`): the node's
state afterwards, or `none` for other children. -/
def readCommon (compat : ℕ) (strict : Bool) (b : Base K) (c : Xml) : Py (Option (Base K)) :=
  let type := elementType c.tag
  if type = "Description" then .ok (some (b.addElement (.comment "Description" c.text)))
  else if type = "DynamicParameter" then
    if hasFeature compat autodesk then
      match c.attrs.get? "param" with
      | some p => .ok (some { b with dyn := b.dyn ++ [p] })
      | none => .ok (some b)
    else if strict then .error .unsupportedExtension
    else .ok (some b)
  else .ok none

/-- `Array()` read as a child of a node (`clf/Matrix.py:78-90`, `clf/LUT1D.py:122-131`,
`clf/LUT3D.py:112-121`): the integer flag is set from the node's output depth. -/
def readArrayChild (A : Arith K) (b : Base K) (rawHalfs : Bool) (c : Xml) : Py (Base K) := do
  let a ← Arr.read A ⟨[], [], false, rawHalfs, "string"⟩ c
  pure (b.addElement (.array { a with integers := bitDepthIsInteger (b.attrs.get? "outBitDepth") }))

/-- `IndexMap()` read as a child (`clf/LUT1D.py:132-135`, `clf/LUT3D.py:123-126`). -/
def readIndexMapChild (b : Base K) (c : Xml) : Py (Base K) := do
  let m ← IndexMap.read ⟨0, [], []⟩ c
  pure (b.addElement (.indexMap m))

/-- One child of `SOPNode` (`clf/ASCCDL.py:107-114`). -/
def readSop (v : CdlValues K) (c : Xml) : Py (CdlValues K) :=
  let t := elementType c.tag
  if t = "Slope" then do pure { v with slope := some (← floatsOfText c.text) }
  else if t = "Offset" then do pure { v with offset := some (← floatsOfText c.text) }
  else if t = "Power" then do pure { v with power := some (← floatsOfText c.text) }
  else .ok v

/-- One child of `SatNode` (`clf/ASCCDL.py:116-119`). -/
def readSat (v : CdlValues K) (c : Xml) : Py (CdlValues K) :=
  if elementType c.tag = "Saturation" then do
    pure { v with saturation := some (← floatOfText c.text) }
  else .ok v

/-- `clf/ASCCDL.py:104-121` `readChild`. -/
def readCdlChild (v : CdlValues K) (c : Xml) : Py (CdlValues K) :=
  let t := lower (elementType c.tag).toList
  if t = "sopnode".toList then c.children.foldlM readSop v
  else if t = "satnode".toList then c.children.foldlM readSat v
  else .ok v

/-- One value element of a Range (`clf/Range.py:88-98`). -/
def isRangeValue (t : String) : Bool :=
  t = "minInValue" || t = "maxInValue" || t = "minOutValue" || t = "maxOutValue"

/-- `readChild` of the leaf classes: `clf/Range.py:88-98`, `clf/Matrix.py:78-90`,
`clf/LUT1D.py:119-137`, `clf/LUT3D.py:112-128`, `clf/ASCCDL.py:104-121`,
`clf/ExtensionExposureContrast.py:88-101`, `clf/ExtensionGamma.py:90-103`,
`clf/ExtensionLog.py:94-113`; other children are skipped. -/
def readLeafChild (A : Arith K) (k : Kind K) (b : Base K) (c : Xml) : Py (Kind K × Base K) :=
  let t := elementType c.tag
  match k with
  | .range =>
    if isRangeValue t then do
      let v ← floatOfText c.text
      pure (k, { b with values := b.values.set t v })
    else .ok (k, b)
  | .matrix =>
    if t = "Array" then do pure (k, ← readArrayChild A b false c) else .ok (k, b)
  | .lut1d =>
    if t = "Array" then do pure (k, ← readArrayChild A b (b.flag "rawHalfs") c)
    else if t = "IndexMap" then do pure (k, ← readIndexMapChild b c)
    else .ok (k, b)
  | .lut3d =>
    if t = "Array" then do pure (k, ← readArrayChild A b false c)
    else if t = "IndexMap" then do pure (k, ← readIndexMapChild b c)
    else .ok (k, b)
  | .cdl cc v => do pure (.cdl cc (← readCdlChild v c), b)
  | .exposureContrast _ _ _ =>
    if t = "ECParams" then do
      let e ← floatAttr c "exposure" (.fin 0)
      let ct ← floatAttr c "contrast" (.fin 1)
      let p ← floatAttr c "pivot" (.fin 1)
      pure (.exposureContrast e ct p, b)
    else .ok (k, b)
  | .gamma ps =>
    if t = "GammaParams" then do
      let g ← floatAttr c "gamma" (.fin 0)
      let o ← floatAttr c "offset" (.fin 0)
      pure (.gamma (ps ++ [⟨g, o, c.attrs.get? "channel"⟩]), b)
    else .ok (k, b)
  | .log ps =>
    if t = "LogParams" then do
      let g ← floatAttr c "gamma" (.fin (6 / 10))
      let w ← floatAttr c "refWhite" (.fin 685)
      let bl ← floatAttr c "refBlack" (.fin 95)
      let h ← floatAttr c "highlight" (.fin 1)
      let s ← floatAttr c "shadow" (.fin 0)
      pure (.log (ps ++ [⟨g, w, bl, h, s, c.attrs.get? "channel"⟩]), b)
    else .ok (k, b)
  | .plain => .ok (k, b)

/-- One child of a leaf node (`clf/ProcessNode.py:206-235`). -/
def readLeafStep (A : Arith K) (compat : ℕ) (strict : Bool) (s : Kind K × Base K) (c : Xml) :
    Py (Kind K × Base K) := do
  match ← readCommon compat strict s.2 c with
  | some b => pure (s.1, b)
  | none => readLeafChild A s.1 s.2 c

/-- `clf/ProcessNode.py:194-238` `read` for a leaf class. -/
def readLeaf (A : Arith K) (compat : ℕ) (strict : Bool) (k : Kind K) (b : Base K)
    (attrs : Dict String) (children : List Xml) : Py (Node K) := do
  let (k, b) ← children.foldlM (readLeafStep A compat strict) (k, readAttrs b attrs)
  pure (.leaf k b)

/-! ## References -/

/-- Python 2.7 `os.path.join(base, path)` on POSIX; `path.startswith` on a boolean is an
`AttributeError`, and so is `base.endswith`. -/
def joinPath (base path : AVal) : Py String :=
  match path, base with
  | .str p, .str b =>
    if p.toList.head? = some '/' then .ok p
    else if b = "" ∨ b.toList.getLast? = some '/' then .ok (b ++ p)
    else .ok (b ++ "/" ++ p)
  | .str p, _ => if p.toList.head? = some '/' then .ok p else .error .attributeError
  | _, _ => .error .attributeError

/-- `Reference.readInitialize` with `setPaths` and `resolvePath`
(`clf/ExtensionReference.py:63-71, 93-99, 118-132`; the guards of `resolvePath` compare string
constants and always hold; the alias is not used).  `load path` reads the file if it
exists. -/
def resolveRef (load : String → Py (Option (List (Node K)))) (b : Base K) : Py (Node K) := do
  let path ← joinPath ((b.attrs.get? "basePath").getD (.str "")) ((b.attrs.get? "path").getD (.str ""))
  match ← load path with
  | some ns => pure (.ref b false ns)
  | none => pure (.refMissing b false)

/-- The child loop for a Reference, which has no `readChild` of its own
(`clf/ProcessNode.py:179-181`). -/
def readRefStep (compat : ℕ) (strict : Bool) (b : Base K) (c : Xml) : Py (Base K) := do
  match ← readCommon compat strict b c with
  | some b => pure b
  | none => pure b

/-! ## Nodes, groups and lists -/

mutual

/-- Constructing and reading a node of the class its tag names
(`clf/ProcessNode.py:194-238`).  `ProcessNode` itself cannot be constructed without a
type (`TypeError`).  Not called for other elements. -/
def readNode (A : Arith K) (compat : ℕ) (load : String → Py (Option (List (Node K))))
    (strict : Bool) : Xml → Py (Node K)
  | .mk tag attrs _ children =>
    match classOf (K := K) (elementType tag) with
    | some (.leaf k b) => readLeaf A compat strict k b attrs children
    | some .group => do
      let (b, ns) ← readGroup A compat load strict children (readAttrs defaultBase attrs) []
      pure (.group b ns)
    | some .reference => do
      let b ← children.foldlM (readRefStep compat strict) (readAttrs defaultBase attrs)
      resolveRef load b
    | _ => .error .typeError

/-- The child loop of a group (`clf/ProcessNode.py:206-235`,
`clf/ExtensionGroup.py:97-115`); children are read without `strict`. -/
def readGroup (A : Arith K) (compat : ℕ) (load : String → Py (Option (List (Node K))))
    (strict : Bool) : List Xml → Base K → List (Node K) → Py (Base K × List (Node K))
  | [], b, ns => .ok (b, ns)
  | c :: cs, b, ns => do
    match ← readCommon compat strict b c with
    | some b => readGroup A compat load strict cs b ns
    | none =>
      match classOf (K := K) (elementType c.tag) with
      | none => readGroup A compat load strict cs b ns
      | some cls =>
        if cls.isNode then do
          let n ← readNode A compat load false c
          readGroup A compat load strict cs b (ns ++ [n])
        else readGroup A compat load strict cs (b.addElement (readElem cls c)) ns

end

/-- A `ProcessList` object (`clf/ProcessList.py:95-104`). -/
structure PList (K : Type) where
  attrs : Dict AVal := []
  values : Dict (Flt K) := []
  elements : List (Elem K) := []
  processes : List (Node K) := []

/-- The node types that need a vendor feature set, with that set
(`clf/ProcessList.py:212-215`). -/
def vendorOf (type : String) : Option ℕ :=
  if type = "ExposureContrast" ∨ type = "Gamma" ∨ type = "Log" ∨ type = "Reference" then
    some autodesk
  else if type = "Group" then some duiker
  else none

/-- One child of a list (`clf/ProcessList.py:195-233`). -/
def readListStep (A : Arith K) (compat : ℕ) (load : String → Py (Option (List (Node K))))
    (strict : Bool) (l : PList K) (c : Xml) : Py (PList K) :=
  let type := elementType c.tag
  match classOf (K := K) type with
  | none => if strict then .error .unknownProcessNode else .ok l
  | some cls =>
    if cls.isNode then do
      let n ← readNode A compat load strict c
      match vendorOf type with
      | some f =>
        if !hasFeature compat f && strict then .error .unsupportedExtension
        else pure { l with processes := l.processes ++ [n] }
      | none => pure { l with processes := l.processes ++ [n] }
    else .ok { l with elements := l.elements ++ [readElem cls c] }

/-- `clf/ProcessList.py:187-234` `read` into a new list.  Attributes stay text; the root
element's own tag is not looked at. -/
def readList (A : Arith K) (compat : ℕ) (load : String → Py (Option (List (Node K))))
    (strict : Bool) (x : Xml) : Py (PList K) :=
  let attrs : Dict AVal := x.attrs.foldl (fun d kv => d.set kv.1 (.str kv.2)) []
  x.children.foldlM (readListStep A compat load strict) { attrs := attrs }

/-! ## Files -/

/-- What a path holds: an XML document, a gzipped one, something that is neither, or
something that cannot be opened (a directory, say). -/
inductive File
  | doc (x : Xml)
  | gz (x : Xml)
  | garbage
  | unreadable

/-- Reading a file whose document is read by `rd` (`clf/ProcessList.py:236-258`).  With
the Duiker feature set the file is first taken to be gzipped; the bare `except`
catches whatever goes wrong, and the plain parse that follows fails on a gzipped file. -/
def readContents {α : Type} (compat : ℕ) (rd : Xml → Py α) : File → Py α
  | .doc x => rd x
  | .gz x =>
    if hasFeature compat duiker then
      match rd x with
      | .ok l => .ok l
      | .error _ => .error .parseError
    else .error .parseError
  | .garbage => .error .parseError
  | .unreadable => .error .ioError

/-- `clf/ProcessList.py:236-258` `readFile`, as called by the constructor.  References
are resolved by reading the files they name, without `strict`
(`clf/ExtensionReference.py:93-98`); the first argument bounds the nesting, and running
out of it stands for Python's recursion limit. -/
def readFile (A : Arith K) (compat : ℕ) (fs : String → Option File) :
    ℕ → Bool → String → Py (PList K)
  | 0, _, _ => .error .recursion
  | fuel + 1, strict, path =>
    match fs path with
    | none => .error .ioError
    | some f => readContents compat (readList A compat (fun p =>
        match fs p with
        | none => .ok none
        | some _ => do
          let l ← readFile A compat fs fuel false p
          pure (some l.processes)) strict) f

end CLF
