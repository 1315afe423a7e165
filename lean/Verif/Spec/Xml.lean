import Verif.Model.Read

/-! # Specifications for documents -/

namespace CLF.Spec

/-- `name` is the element name of `tag`: the part after the namespace, which ends at the
first closing brace, without hyphens and underscores. -/
def Named (tag name : String) : Prop :=
  ∃ loc : List Char,
    ((∃ ns : List Char, '}' ∉ ns ∧ tag.toList = ns ++ '}' :: loc) ∨ ('}' ∉ loc ∧ tag.toList = loc)) ∧
    name.toList = loc.filter fun c => !(c == '-' || c == '_')

/-- Elements that are process nodes. -/
def nodeNames : List String :=
  ["Range", "Matrix", "LUT1D", "LUT3D", "ASCCDL", "ColorCorrection", "ExposureContrast", "Gamma",
    "Log", "Group", "Reference", "ProcessNode"]

/-- The other elements a list may have. -/
def infoNames : List String :=
  ["Comment", "Description", "InputDescriptor", "OutputDescriptor", "Info"]

/-- The bit of the feature mask an element needs, if any. -/
def neededFeature (name : String) : Option ℕ :=
  if name ∈ ["ExposureContrast", "Gamma", "Log", "Reference"] then some 1
  else if name = "Group" then some 2
  else none

/-- A bit of the mask is set. -/
def enabled (mask bit : ℕ) : Prop := mask &&& bit ≠ 0

/-- An element a strict reader should accept under the mask. -/
def Admissible (mask : ℕ) (tag : String) : Prop :=
  ∃ name, Named tag name ∧ (name ∈ nodeNames ∨ name ∈ infoNames) ∧
    ∀ f, neededFeature name = some f → enabled mask f

/-- The node has no dynamic parameters unless they are enabled. -/
def ParamsOk (mask : ℕ) (c : Xml) : Prop :=
  enabled mask 1 ∨ ∀ d ∈ c.children, ¬ Named d.tag "DynamicParameter"

/-- `c` stands among the elements of a list, or of a group at any depth. -/
inductive Member (x : Xml) : Xml → Prop
  | top {c} : c ∈ x.children → Member x c
  | nested {g c} : Member x g → Named g.tag "Group" → c ∈ g.children → Member x c

/-- The element is a process node. -/
def IsNode (c : Xml) : Prop := ∃ name ∈ nodeNames, Named c.tag name

/-- The element is a comment, description, descriptor or `Info`. -/
def IsInfo (c : Xml) : Prop := ∃ name ∈ infoNames, Named c.tag name

/-- Joining a relative path to a directory, if any. -/
inductive Joins : String → String → String → Prop
  | absolute {base path : String} {t : List Char} : path.toList = '/' :: t → Joins base path path
  | bare {path : String} : path.toList.head? ≠ some '/' → Joins "" path path
  | slash {base path : String} {t : List Char} : path.toList.head? ≠ some '/' →
      base.toList = t ++ ['/'] → Joins base path (base ++ path)
  | plain {base path : String} {t : List Char} {c : Char} : path.toList.head? ≠ some '/' →
      base.toList = t ++ [c] → c ≠ '/' → Joins base path (base ++ "/" ++ path)

/-- `c` is a Reference element naming the file `p`. -/
def RefTo (c : Xml) (p : String) : Prop :=
  Named c.tag "Reference" ∧ (c.attrs.map Prod.fst).Nodup ∧
  ∃ base path, ("path", path) ∈ c.attrs ∧ path ≠ "True" ∧ path ≠ "False" ∧
    (("basePath", base) ∈ c.attrs ∧ base ≠ "True" ∧ base ≠ "False" ∨
      "basePath" ∉ c.attrs.map Prod.fst ∧ base = "") ∧ Joins base path p

variable {K : Type}

/-- What is kept of such an element: its text, or for `Info` the texts of its three kinds of
children. -/
def Kept (c : Xml) (e : Elem K) : Prop :=
  (∃ name ∈ infoNames, name ≠ "Info" ∧ Named c.tag name ∧ e = .comment name c.text) ∨
  (Named c.tag "Info" ∧ ∃ ps ds, e = .info ps ∧
    List.Sublist ds c.children ∧
    (∀ d ∈ c.children, (∃ name ∈ ["AppRelease", "Copyright", "Release"], Named d.tag name) → d ∈ ds) ∧
    List.Forall₂ (fun d p => p.1 ∈ ["AppRelease", "Copyright", "Release"] ∧ Named d.tag p.1 ∧
      p.2 = d.text) ds ps)

/-- The element name a node is read from. -/
def nameOf : Node K → String
  | .leaf .range _ => "Range"
  | .leaf .matrix _ => "Matrix"
  | .leaf .lut1d _ => "LUT1D"
  | .leaf .lut3d _ => "LUT3D"
  | .leaf (.cdl false _) _ => "ASCCDL"
  | .leaf (.cdl true _) _ => "ColorCorrection"
  | .leaf (.exposureContrast _ _ _) _ => "ExposureContrast"
  | .leaf (.gamma _) _ => "Gamma"
  | .leaf (.log _) _ => "Log"
  | .leaf .plain _ => "ProcessNode"
  | .group _ _ => "Group"
  | .ref _ _ _ => "Reference"
  | .refMissing _ _ => "Reference"

mutual

/-- A node without its dynamic parameters. -/
def eraseDyn : Node K → Node K
  | .leaf k b => .leaf k { b with dyn := [] }
  | .group b cs => .group { b with dyn := [] } (eraseDynAll cs)
  | .ref b w cs => .ref { b with dyn := [] } w (eraseDynAll cs)
  | .refMissing b w => .refMissing { b with dyn := [] } w

/-- The same for a list. -/
def eraseDynAll : List (Node K) → List (Node K)
  | [] => []
  | n :: ns => eraseDyn n :: eraseDynAll ns

end

/-- File systems with the same files, compressed or not. -/
def SameFiles (fs fs' : String → Option File) : Prop :=
  ∀ q, fs q = fs' q ∨ (∃ x, fs q = some (.doc x) ∧ fs' q = some (.gz x)) ∨
    ∃ x, fs q = some (.gz x) ∧ fs' q = some (.doc x)

/-- Documents that differ only in the spelling of tags: namespaces, hyphens and
underscores. -/
inductive Alike : Xml → Xml → Prop
  | mk {t t' name : String} {a : Dict String} {x : Option String} {c c' : List Xml} :
    Named t name → Named t' name → c.length = c'.length →
    (∀ p ∈ c.zip c', Alike p.1 p.2) → Alike (.mk t a x c) (.mk t' a x c')

end CLF.Spec
