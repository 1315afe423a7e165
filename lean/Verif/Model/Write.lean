import Verif.Model.Read

/-!
# Writing process lists to XML

`clf/ProcessNode.py:154-176`, `clf/ProcessList.py:119-148`, the `write` methods of the
node classes.  `write` returns the elements added to the parent.
-/

namespace CLF

variable {K : Type} [Field K] [LinearOrder K] [IsStrictOrderedRing K] [FloorRing K]

/-- `str(x)` of a number. -/
def strOf (x : Flt K) : String := String.ofList (str12 (SFlt.ofFlt x))

/-- `" ".join(map(str, values))`. -/
def strsOf (xs : List (Flt K)) : String :=
  String.ofList (joinWith [' '] (xs.map fun x => str12 (SFlt.ofFlt x)))

/-- `clf/Comment.py:75-79`, `clf/Info.py:80-85`, `clf/Array.py:133`,
`clf/IndexMap.py:155`: `element.write(node)`. -/
def Elem.write (compat : ℕ) : Elem K → Py Xml
  | .comment tag text => .ok (.mk tag [] text [])
  | .info cs => .ok (.mk "Info" [] none (cs.map fun c => .mk c.1 [] c.2 []))
  | .array a => a.write compat
  | .indexMap m => m.write

/-- Attributes, value elements, dynamic parameters and elements
(`clf/ProcessNode.py:154-176`), followed by `extra` children. -/
def writeBase (compat : ℕ) (tag : String) (b : Base K) (extra : List Xml) : Py Xml := do
  let es ← b.elements.mapM (Elem.write compat)
  pure (.mk tag (b.attrs.map fun kv => (kv.1, kv.2.text)) none
    (b.values.map (fun kv => .mk kv.1 [] (some (strOf kv.2)) []) ++
      b.dyn.map (fun d => .mk "DynamicParameter" [("param", d)] none []) ++ es ++ extra))

/-- `_nodeType` of the leaf classes.  A bare `ProcessNode(nodeType)` is only modelled for
the type `ProcessNode`. -/
def Kind.tag : Kind K → String
  | .range => "Range"
  | .matrix => "Matrix"
  | .lut1d => "LUT1D"
  | .lut3d => "LUT3D"
  | .cdl false _ => "ASC_CDL"
  | .cdl true _ => "ColorCorrection"
  | .exposureContrast _ _ _ => "ExposureContrast"
  | .gamma _ => "Gamma"
  | .log _ => "Log"
  | .plain => "ProcessNode"

/-- An element that is written when the value is set. -/
def optElem (tag : String) (t : Option String) : List Xml :=
  match t with
  | some t => [.mk tag [] (some t) []]
  | none => []

/-- The `SOPNode` and `SatNode` elements (`clf/ASCCDL.py:85-99`). -/
def cdlExtra (v : CdlValues K) : List Xml :=
  [.mk "SOPNode" [] none (optElem "Slope" (v.slope.map strsOf) ++
      optElem "Offset" (v.offset.map strsOf) ++ optElem "Power" (v.power.map strsOf)),
    .mk "SatNode" [] none (optElem "Saturation" (v.saturation.map strOf))]

/-- A `channel` attribute, if set. -/
def channelAttr (c : Option String) : Dict String :=
  match c with
  | some c => [("channel", c)]
  | none => []

/-- One `GammaParams` element (`clf/ExtensionGamma.py:79-85`); a zero offset is not
written. -/
def gammaElem (p : GammaParam K) : Xml :=
  .mk "GammaParams" ([("gamma", strOf p.gamma)] ++
    (if p.offset = .fin 0 then [] else [("offset", strOf p.offset)]) ++ channelAttr p.channel)
    none []

/-- One `LogParams` element (`clf/ExtensionLog.py:81-89`). -/
def logElem (p : LogParam K) : Xml :=
  .mk "LogParams" ([("gamma", strOf p.gamma), ("refWhite", strOf p.refWhite),
    ("refBlack", strOf p.refBlack), ("highlight", strOf p.highlight),
    ("shadow", strOf p.shadow)] ++ channelAttr p.channel) none []

/-- The children the leaf classes add after the common ones (`clf/ASCCDL.py:82-101`,
`clf/ExtensionExposureContrast.py:76-86`, `clf/ExtensionGamma.py:76-87`,
`clf/ExtensionLog.py:78-91`). -/
def Kind.extra : Kind K → List Xml
  | .cdl _ v => cdlExtra v
  | .exposureContrast e c p =>
    [.mk "ECParams" [("exposure", strOf e), ("contrast", strOf c), ("pivot", strOf p)] none []]
  | .gamma ps => ps.map gammaElem
  | .log ps => ps.map logElem
  | _ => []

mutual

/-- `node.write(tree)`: the elements added to `tree`.  `flag` is what the writer of the
containing list or group passed to `setWriteReferencedNodes` just before
(`clf/ProcessList.py:140-144`, `clf/ExtensionGroup.py:88-92`); `none` when the node is
written by a reference (`clf/ExtensionReference.py:107-112`), which leaves the flag as it
is. -/
def Node.write (compat : ℕ) (flag : Option Bool) : Node K → Py (List Xml)
  | .leaf k b => do
    let x ← writeBase compat k.tag b k.extra
    pure [x]
  | .group b cs => do
    let xs ← writeNodes compat (some false) cs
    let x ← writeBase compat "Group" b xs
    pure [x]
  | .ref b w ns =>
    if flag.getD w then writeNodes compat none ns
    else do
      let x ← writeBase compat "Reference" b []
      pure [x]
  | .refMissing b w =>
    if flag.getD w then .error .attributeError
    else do
      let x ← writeBase compat "Reference" b []
      pure [x]

/-- The nodes of a list written one after the other. -/
def writeNodes (compat : ℕ) (flag : Option Bool) : List (Node K) → Py (List Xml)
  | [] => .ok []
  | n :: ns => do
    let x ← n.write compat flag
    let xs ← writeNodes compat flag ns
    pure (x ++ xs)

end

/-- `clf/ProcessList.py:119-148` `write` without a parent: the root element. -/
def PList.write (compat : ℕ) (selfContained : Bool) (l : PList K) : Py Xml := do
  let es ← l.elements.mapM (Elem.write compat)
  let ns ← writeNodes compat (some selfContained) l.processes
  pure (.mk "ProcessList" (l.attrs.map fun kv => (kv.1, kv.2.text)) none
    (l.values.map (fun kv => .mk kv.1 [] (some (strOf kv.2)) []) ++ es ++ ns))

/-- `clf/ProcessList.py:150-177` `writeFile`: what the file holds afterwards (the
document after serialising, see `Xml.reparse`). -/
def PList.writeFile (compat : ℕ) (selfContained gzip : Bool) (l : PList K) : Py File := do
  let x ← l.write compat selfContained
  if gzip then
    if hasFeature compat duiker then pure (.gz x.reparse) else .error .unsupportedExtension
  else pure (.doc x.reparse)

end CLF
