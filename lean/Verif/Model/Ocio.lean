import Verif.Model.Registry

/-!
# Converting OpenColorIO transforms

`convertOCIOtoCLF.py`.  OpenColorIO itself is outside the model: a transform is what its
Python binding reports about it, a configuration is a search path and a lookup of colour
spaces.  The directions other than `forward` are one value.  Messages are not modelled.
-/

namespace CLF

variable {K : Type} [Field K] [LinearOrder K] [IsStrictOrderedRing K] [FloorRing K]

/-- The transforms the conversion tells apart (`convertOCIOtoCLF.py:136-180`); `other` is any
other transform, or none at all. -/
inductive Ocio (K : Type)
  | group (forward : Bool) (children : List (Ocio K))
  | file (src : Txt) (interpolation : AVal) (forward : Bool)
  | matrix (m offset : List (Flt K)) (forward : Bool)
  | log (base : Flt K) (forward : Bool)
  | other

/-- The resolution of a matrix of this many entries (`convertOCIOtoCLF.py:70-77`); the
variable is unbound for other counts. -/
def matrixResolution (n : ℕ) : Option (List ℕ) :=
  if n = 16 then some [4, 4, 3]
  else if n = 12 then some [3, 4, 3]
  else if n = 9 then some [3, 3, 3]
  else none

/-- The condition of `convertOCIOtoCLF.py:81-83`, for 16 entries.  The subscripts
`11 == 0.0`, `14 == 0.0` and `15 == 1.0` are `False`, that is 0; a number is true unless it
is zero. -/
def looksLike33 (m : List (Flt K)) : Py Bool := do
  let m0 ← pyGet m 0
  let m3 ← pyGet m 3
  let m7 ← pyGet m 7
  let m12 ← pyGet m 12
  let m13 ← pyGet m 13
  pure (m3 = .fin 0 ∧ m7 = .fin 0 ∧ m0 ≠ .fin 0 ∧ m12 = .fin 0 ∧ m13 = .fin 0 ∧ m0 ≠ .fin 0 ∧
    m0 ≠ .fin 0)

/-- The resolution and the entries given to the node (`convertOCIOtoCLF.py:79-101`).  With an
offset the list keeps its 16 entries. -/
def matrixEntries (m offset : List (Flt K)) : Py (Option (List ℕ) × List (Flt K)) := do
  let plain ← if m.length = 16 then looksLike33 m else pure false
  if plain then do
    let o0 ← pyGet offset 0
    let o1 ← pyGet offset 1
    let o2 ← pyGet offset 2
    if o0 ≠ .fin 0 ∨ o1 ≠ .fin 0 ∨ o2 ≠ .fin 0 then do
      let m ← pySet m 3 o0
      let m ← pySet m 7 o1
      let m ← pySet m 11 o2
      pure (some [3, 4, 3], m)
    else pure (some [3, 3, 3], pySlice m 0 3 ++ pySlice m 4 7 ++ pySlice m 8 11)
  else pure (matrixResolution m.length, m)

/-- `convertOCIOtoCLF.py:68-109` `convertMatrixToProcessNode`. -/
def convertMatrix (m offset : List (Flt K)) (forward : Bool) : Py (Option (Node K)) :=
  if forward then do
    let (resolution, entries) ← matrixEntries m offset
    match resolution with
    | none => .error .unboundLocal
    | some resolution =>
      pure (some (.leaf .matrix (setMatrix (newBase float16 float16 (.str "matrix1") (.str "matrix1"))
        resolution entries)))
  else pure none

/-- The Log node of a style (`clf/ExtensionLog.py:66-72`). -/
def ocioLog (style : String) : Node K :=
  .leaf (.log []) ((newBase float16 float16 (.str "log") (.str "log")).setAttribute "style" (.str style))

/-- `convertOCIOtoCLF.py:111-126` `convertLogToProcessNode`. -/
def convertLog (base : Flt K) (forward : Bool) : Option (Node K) :=
  if base = .fin 10 then some (ocioLog (if forward then "log10" else "antiLog10"))
  else if base = .fin 2 then some (ocioLog (if forward then "log2" else "antiLog2"))
  else none

/-- `os.path.join(a, b)` (Python's `posixpath`). -/
def pathJoin (a b : Txt) : Txt :=
  if b.head? = some '/' then b
  else if a = [] ∨ a.getLast? = some '/' then a ++ b
  else a ++ '/' :: b

/-- `os.path.split(path)[0]`: the part up to the last slash, without the slashes at its end
unless it has nothing else. -/
def dirName (path : Txt) : Txt :=
  let head := path.reverse.dropWhile (· ≠ '/')
  if head.all (· = '/') then head.reverse else (head.dropWhile (· = '/')).reverse

/-- What the conversion of a transform needs besides it: the format classes, the files and
the arguments of `convertOCIOtoCLF.py:128-131`. -/
structure OcioEnv (K : Type) where
  formats : List (LutClass K)
  files : Txt → Py Txt
  searchPath : Option Txt := none
  useIndexMaps : Bool := true
  useHalfDomain : Bool := true

/-- The path of a file (`convertOCIOtoCLF.py:150-151`). -/
def OcioEnv.path (env : OcioEnv K) (src : Txt) : Txt :=
  match env.searchPath with
  | none => src
  | some dir => pathJoin dir src

/-- The nodes of a file transform (`convertOCIOtoCLF.py:144-159`).  `extend(None)` raises. -/
def convertFile (env : OcioEnv K) (src : Txt) (interpolation : AVal) (forward : Bool) :
    Py (List (Node K)) := do
  let ns ← registryRead env.formats env.files (env.path src)
    ⟨!forward, interpolation, env.useIndexMaps, env.useHalfDomain⟩
  match ns with
  | some ns => pure ns
  | none => .error .typeError

mutual

/-- `convertOCIOtoCLF.py:128-182` `convertTransformsToProcessNodes`.  The direction of a group
is not looked at. -/
def convertTransform (env : OcioEnv K) : Ocio K → Py (List (Node K))
  | .group _ children => convertChildren env children
  | .file src interpolation forward => convertFile env src interpolation forward
  | .matrix m offset forward => do
    let n ← convertMatrix m offset forward
    pure n.toList
  | .log base forward => pure (convertLog base forward).toList
  | .other => pure []

/-- The loop over the children of a group (`convertOCIOtoCLF.py:139-142`). -/
def convertChildren (env : OcioEnv K) : List (Ocio K) → Py (List (Node K))
  | [] => pure []
  | t :: ts => do
    let ns ← convertTransform env t
    let rest ← convertChildren env ts
    pure (ns ++ rest)

end

/-! ## Configurations -/

/-- A colour space: its transforms to and from the reference space. -/
structure ColorSpace (K : Type) where
  toReference : Ocio K
  fromReference : Ocio K

/-- A configuration (`convertOCIOtoCLF.py:191-194`). -/
structure OcioConfig (K : Type) where
  searchPath : Txt
  colorSpace : String → Option (ColorSpace K)

/-- The data every node carries, changed. -/
def Node.mapBase (f : Base K → Base K) : Node K → Node K
  | .leaf k b => .leaf k (f b)
  | .group b ns => .group (f b) ns
  | .ref b w ns => .ref (f b) w ns
  | .refMissing b w => .refMissing (f b) w

/-- The renaming loop (`convertOCIOtoCLF.py:217-224, 245-252`). -/
def renameNodes (description pre : String) (ns : List (Node K)) : List (Node K) :=
  ns.zipIdx.map fun p => p.1.mapBase fun b =>
    (b.addElement (.comment "Description" (some description))).setAttribute "name"
      (.str (pre ++ " - node " ++ toString p.2))

/-- The nodes of one colour space (`convertOCIOtoCLF.py:206-227, 234-255`).  An unknown name
gives `None`, which has no transforms. -/
def spaceNodes (env : OcioEnv K) (config : OcioConfig K) (description pre : String)
    (transform : ColorSpace K → Ocio K) (name : String) : Py (List (Node K)) :=
  match config.colorSpace name with
  | none => .error .attributeError
  | some c => do
    let ns ← convertTransform env (transform c)
    pure (renameNodes description pre ns)

/-- The nodes of all colour spaces (`convertOCIOtoCLF.py:201-255`). -/
def ocioNodes (env : OcioEnv K) (config : OcioConfig K) (sources destinations : List String) :
    Py (List (Node K)) := do
  let s ← sources.mapM fun n =>
    spaceNodes env config ("Convert " ++ n ++ " to reference") (n ++ " to reference")
      ColorSpace.toReference n
  let d ← destinations.mapM fun n =>
    spaceNodes env config ("Convert reference to " ++ n) ("reference to " ++ n)
      ColorSpace.fromReference n
  pure (s.flatten ++ d.flatten)

/-- The description of the list (`convertOCIOtoCLF.py:196-197, 230, 258`). -/
def ocioDescription (configPath : Txt) (sources destinations : List String) : String :=
  "CLF converted from OCIO config.\n" ++ "Config Path : " ++ String.ofList configPath ++ "\n" ++
    String.join (sources.map fun n => "Source color space : " ++ n ++ "\n") ++
    String.join (destinations.map fun n => "Destination color space name : " ++ n ++ "\n")

/-- The list (`convertOCIOtoCLF.py:260-274`); `none`: there are no nodes. -/
def ocioList (formats : List (LutClass K)) (files : Txt → Py Txt) (config : OcioConfig K)
    (configPath : Txt) (sources destinations : List String) (useIndexMaps useHalfDomain : Bool) :
    Py (Option (PList K)) := do
  let env : OcioEnv K := ⟨formats, files, some (pathJoin (dirName configPath) config.searchPath),
    useIndexMaps, useHalfDomain⟩
  let ns ← ocioNodes env config sources destinations
  match ns with
  | [] => pure none
  | n :: ns => pure (some { convertedList (n :: ns) with
      elements := [.comment "Description" (some (ocioDescription configPath sources destinations))] })

/-- `convertOCIOtoCLF.py:184-280` `convertOCIOtoCLF`: what the file holds, `none` if it is not
written. -/
def convertOcio (compat : ℕ) (formats : List (LutClass K)) (files : Txt → Py Txt)
    (config : OcioConfig K) (configPath : Txt) (sources destinations : List String)
    (useIndexMaps useHalfDomain : Bool) : Py (Option File) := do
  let l ← ocioList formats files config configPath sources destinations useIndexMaps useHalfDomain
  match l with
  | none => pure none
  | some l => (l.writeFile compat false false).map some

end CLF
