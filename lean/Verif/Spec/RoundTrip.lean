import Verif.Spec.Xml
import Verif.Spec.Bits
import Verif.Spec.Text
import Verif.Spec.Tree

/-!
# Lists before and after writing and reading

`SameList` says that two lists agree, numbers through their text forms.  `StorableList`
describes the lists for which this is claimed.
-/

namespace CLF.Spec

variable {K : Type} [Field K] [LinearOrder K]

/-- `y` is `x` after printing with twelve significant digits. -/
def Printed : Flt K → Flt K → Prop
  | .fin v, y => ∃ w, y = .fin w ∧ |w - v| ≤ 1 / 2 / 10 ^ 11 * |v| ∧ (Digits12 v → w = v)
  | x, y => y = x

/-- `y` is the table value `x` after writing: nine decimals and storage as float32, or
rounding to the format of the encoding. -/
def TableValue (A : Arith K) (bits : Option (ℕ × ℕ)) (x y : Flt K) : Prop :=
  match bits with
  | none => ∃ d, Close (1 / 2 / 10 ^ 9) (SFlt.ofFlt x) d ∧ Decimals9 d ∧ y = A.f32 d.toFlt
  | some (p, w) => (∃ z, Rounded p w (SFlt.ofFlt x) z ∧ y = z.toFlt) ∧
      (IsFloat p w (SFlt.ofFlt x) → y = x)

/-- Tables with the same shape and flags, the values through their text form. -/
def SameArray (A : Arith K) (a a' : Arr K) : Prop :=
  a'.dims = a.dims ∧ a'.integers = a.integers ∧ a'.rawHalfs = a.rawHalfs ∧
  a'.floatEncoding = a.floatEncoding ∧
  List.Forall₂ (TableValue A (encodingBits a.rawHalfs a.floatEncoding)) a.values a'.values

/-- Elements of a node or list. -/
def SameElem (A : Arith K) : Elem K → Elem K → Prop
  | .comment t x, e => e = .comment t x
  | .info ps, e => e = .info ps
  | .array a, e => ∃ a', e = .array a' ∧ SameArray A a a'
  | .indexMap m, e => ∃ m', e = .indexMap m' ∧ m'.dimension = m.dimension ∧
      List.Forall₂ Printed m.inputs m'.inputs ∧ m'.outputs = m.outputs

/-- Same keys, related values. -/
def SameDict {α : Type} (R : α → α → Prop) (d d' : Dict α) : Prop :=
  ∀ k, Option.Rel R (d.get? k) (d'.get? k)

/-- The common part of nodes. -/
def SameBase (A : Arith K) (b b' : Base K) : Prop :=
  SameDict Eq b.attrs b'.attrs ∧ SameDict Printed b.values b'.values ∧ b'.dyn = b.dyn ∧
  List.Forall₂ (SameElem A) b.elements b'.elements

/-- Parameters of gamma nodes. -/
def SameGamma (p q : GammaParam K) : Prop :=
  Printed p.gamma q.gamma ∧ Printed p.offset q.offset ∧ q.channel = p.channel

/-- Parameters of log nodes. -/
def SameLog (p q : LogParam K) : Prop :=
  Printed p.gamma q.gamma ∧ Printed p.refWhite q.refWhite ∧ Printed p.refBlack q.refBlack ∧
  Printed p.highlight q.highlight ∧ Printed p.shadow q.shadow ∧ q.channel = p.channel

/-- The class and its particular data. -/
def SameKind : Kind K → Kind K → Prop
  | .cdl cc v, k => ∃ v', k = .cdl cc v' ∧
      Option.Rel (List.Forall₂ Printed) v.slope v'.slope ∧
      Option.Rel (List.Forall₂ Printed) v.offset v'.offset ∧
      Option.Rel (List.Forall₂ Printed) v.power v'.power ∧
      Option.Rel Printed v.saturation v'.saturation
  | .exposureContrast e c p, k => ∃ e' c' p', k = .exposureContrast e' c' p' ∧ Printed e e' ∧
      Printed c c' ∧ Printed p p'
  | .gamma ps, k => ∃ ps', k = .gamma ps' ∧ List.Forall₂ SameGamma ps ps'
  | .log ps, k => ∃ ps', k = .log ps' ∧ List.Forall₂ SameLog ps ps'
  | k, k' => k' = k

/-- Nodes, at any depth.  What a reference resolves to is the same. -/
inductive SameNode (A : Arith K) : Node K → Node K → Prop
  | leaf {k k' : Kind K} {b b' : Base K} : SameKind k k' → SameBase A b b' →
      SameNode A (.leaf k b) (.leaf k' b')
  | group {b b' : Base K} {cs cs' : List (Node K)} : SameBase A b b' →
      List.Forall₂ (SameNode A) cs cs' → SameNode A (.group b cs) (.group b' cs')
  | ref {b b' : Base K} {w w' : Bool} {ns : List (Node K)} : SameBase A b b' →
      SameNode A (.ref b w ns) (.ref b' w' ns)
  | refMissing {b b' : Base K} {w w' : Bool} : SameBase A b b' →
      SameNode A (.refMissing b w) (.refMissing b' w')

/-- Whole lists. -/
def SameList (A : Arith K) (l l' : PList K) : Prop :=
  SameDict Eq l.attrs l'.attrs ∧ SameDict Printed l.values l'.values ∧
  List.Forall₂ (SameElem A) l.elements l'.elements ∧
  List.Forall₂ (SameNode A) l.processes l'.processes

/-! ## What can be stored -/

/-- The attributes have different names, the ones every new node has are present, and no
text looks like a boolean. -/
def AttrsOk (need : List String) (d : Dict AVal) : Prop :=
  (d.map Prod.fst).Nodup ∧ (∀ k ∈ need, k ∈ d.map Prod.fst) ∧
  ∀ kv ∈ d, (∃ b, kv.2 = .bool b) ∨ ∃ s, kv.2 = .str s ∧ s ≠ "True" ∧ s ≠ "False"

/-- The attributes a new node has. -/
def commonKeys : List String := ["inBitDepth", "outBitDepth", "id", "name"]

/-- The attributes a new node of the class has. -/
def keysOf : Kind K → List String
  | .range | .matrix => commonKeys
  | .lut1d | .lut3d => commonKeys ++ ["interpolation"]
  | .cdl true _ => ["id"]
  | .plain => []
  | _ => commonKeys ++ ["style"]

/-- The node's output is stored as integers. -/
def IntegerOut (b : Base K) : Prop :=
  ∃ d ∈ ["8i", "10i", "12i", "16i"], b.attrs.get? "outBitDepth" = some (.str d)

/-- The attribute is set, and not to `False`. -/
def Flagged (b : Base K) (k : String) : Prop :=
  ∃ v, b.attrs.get? k = some v ∧ v ≠ .bool false

/-- A table of complete rows whose flags are those its node gives it; an encoding is kept
only if there is a value. -/
def ArrayOk (integers rawHalfs : Prop) (a : Arr K) : Prop :=
  (a.integers = true ↔ integers) ∧ (a.rawHalfs = true ↔ rawHalfs) ∧
  (∃ c, rowLength a.dims = some c ∧ c ∣ a.values.length) ∧
  (a.floatEncoding = "string" ∨ a.values ≠ [] ∧ a.floatEncoding ∈
    ["integer16bit", "integer32bit", "integer64bit", "hex16bit", "hex32bit", "hex64bit"])

/-- A description, not empty. -/
def DescriptionOk (e : Elem K) : Prop := ∃ x, e = .comment "Description" x ∧ x ≠ some ""

/-- An index map that is not empty and maps to integers. -/
def IndexMapOk (m : IndexMap K) : Prop :=
  m.inputs ≠ [] ∧ ∀ v ∈ m.outputs, ∃ n : ℤ, v = .fin (n : K)

/-- The elements a node of the class reads. -/
def LeafElemOk (k : Kind K) (b : Base K) (e : Elem K) : Prop :=
  DescriptionOk e ∨
  (k = .matrix ∨ k = .lut3d) ∧ (∃ a, e = .array a ∧ ArrayOk (IntegerOut b) False a) ∨
  k = .lut1d ∧ (∃ a, e = .array a ∧ ArrayOk (IntegerOut b) (Flagged b "rawHalfs") a) ∨
  (k = .lut1d ∨ k = .lut3d) ∧ ∃ m, e = .indexMap m ∧ IndexMapOk m

/-- Comments and `Info`, not empty. -/
def InfoElemOk (e : Elem K) : Prop :=
  (∃ t x, e = .comment t x ∧ t ∈ ["Comment", "Description", "InputDescriptor", "OutputDescriptor"] ∧
    x ≠ some "") ∨
  ∃ ps, e = .info ps ∧ ∀ p ∈ ps, p.1 ∈ ["AppRelease", "Copyright", "Release"] ∧ p.2 ≠ some ""

/-- The value elements a node of the class reads. -/
def ValuesOk (k : Kind K) (d : Dict (Flt K)) : Prop :=
  d = [] ∨ k = .range ∧ (d.map Prod.fst).Nodup ∧
    ∀ kv ∈ d, kv.1 ∈ ["minInValue", "maxInValue", "minOutValue", "maxOutValue"]

/-- A class that can be read, with parameter lists that are not empty. -/
def KindOk : Kind K → Prop
  | .cdl _ v => v.slope ≠ some [] ∧ v.offset ≠ some [] ∧ v.power ≠ some []
  | .plain => False
  | _ => True

/-- Dynamic parameters need the Autodesk features. -/
def DynOk (mask : ℕ) (b : Base K) : Prop := b.dyn = [] ∨ enabled mask 1

/-- The file a reference names. -/
def Names (b : Base K) (p : String) : Prop :=
  ∃ base path, b.attrs.get? "path" = some (.str path) ∧
    (b.attrs.get? "basePath" = some (.str base) ∨ b.attrs.get? "basePath" = none ∧ base = "") ∧
    Joins base path p

/-- Nodes whose every part has a place in the document.  `load` is what the files hold. -/
inductive Storable (mask : ℕ) (load : String → Py (Option (List (Node K)))) : Node K → Prop
  | leaf {k : Kind K} {b : Base K} : KindOk k → AttrsOk (keysOf k) b.attrs → ValuesOk k b.values →
      DynOk mask b → (∀ e ∈ b.elements, LeafElemOk k b e) → Storable mask load (.leaf k b)
  | group {b : Base K} {cs : List (Node K)} : AttrsOk commonKeys b.attrs → b.values = [] →
      DynOk mask b → (∀ e ∈ b.elements, InfoElemOk e) → (∀ c ∈ cs, Storable mask load c) →
      Storable mask load (.group b cs)
  | ref {b : Base K} {w : Bool} {ns : List (Node K)} {p : String} : AttrsOk commonKeys b.attrs →
      b.values = [] → DynOk mask b → (∀ e ∈ b.elements, DescriptionOk e) → Names b p →
      load p = .ok (some ns) → Storable mask load (.ref b w ns)
  | refMissing {b : Base K} {w : Bool} {p : String} : AttrsOk commonKeys b.attrs → b.values = [] →
      DynOk mask b → (∀ e ∈ b.elements, DescriptionOk e) → Names b p →
      load p = .ok none → Storable mask load (.refMissing b w)

/-- Lists of such nodes.  The attributes of a list are texts. -/
def StorableList (mask : ℕ) (load : String → Py (Option (List (Node K)))) (l : PList K) : Prop :=
  (l.attrs.map Prod.fst).Nodup ∧ (∀ kv ∈ l.attrs, ∃ s, kv.2 = .str s) ∧ l.values = [] ∧
  (∀ e ∈ l.elements, InfoElemOk e) ∧ ∀ n ∈ l.processes, Storable mask load n

/-! ## Self-contained documents -/

/-- There is a Reference element, at any depth. -/
inductive ContainsRef : Xml → Prop
  | here {x : Xml} : Named x.tag "Reference" → ContainsRef x
  | inside {x c : Xml} : c ∈ x.children → ContainsRef c → ContainsRef x

/-- No reference in the node. -/
def RefFree (n : Node K) : Prop :=
  ∀ m, Within m n → (∀ b w ns, m ≠ .ref b w ns) ∧ ∀ b w, m ≠ .refMissing b w

/-- References stand only in the list itself, all of them found, and what they resolve to
has none. -/
def OnlyTopRefs (ns : List (Node K)) : Prop :=
  ∀ n ∈ ns, RefFree n ∨ ∃ b w ms, n = .ref b w ms ∧ ∀ m ∈ ms, RefFree m

/-- References replaced by what they resolve to. -/
def expandRefs : List (Node K) → List (Node K)
  | [] => []
  | .ref _ _ ms :: ns => ms ++ expandRefs ns
  | n :: ns => n :: expandRefs ns

end CLF.Spec
