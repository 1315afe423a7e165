import Verif.Spec.RoundTrip

/-!
# Documents before and after writing and reading them as text
-/

namespace CLF.Spec

/-- `b` is `a` with every line end (`\r\n`, `\r` or `\n`) as `\n`. -/
inductive UnixLines : Txt → Txt → Prop
  | nil : UnixLines [] []
  | keep {c : Char} {a b : Txt} : c ≠ '\r' → UnixLines a b → UnixLines (c :: a) (c :: b)
  | crlf {a b : Txt} : UnixLines a b → UnixLines ('\r' :: '\n' :: a) ('\n' :: b)
  | cr {a b : Txt} : a.head? ≠ some '\n' → UnixLines a b → UnixLines ('\r' :: a) ('\n' :: b)

/-- A text with every tab and line end character as a space. -/
def spaces (s : String) : String :=
  String.ofList (s.toList.map fun c => if c = '\t' ∨ c = '\n' ∨ c = '\r' then ' ' else c)

/-- The text of an element without children, read back: none and the empty text are the same. -/
def TextRead (a b : Option String) : Prop :=
  ((a.getD "") = "" ∧ b = none) ∨
    (a.getD "") ≠ "" ∧ ∃ s, b = some s ∧ UnixLines (a.getD "").toList s.toList

/-- The document `y` is what was read where `x` was written: the same elements with the same names
in the same order, the same attributes in some order with white space as spaces, the same text in
elements without children; elements with children get white space as text. -/
inductive ReadAs : Xml → Xml → Prop
  | mk {tag : String} {as as' : Dict String} {text text' : Option String} {cs cs' : List Xml} :
      as'.Perm (as.map fun kv => (kv.1, spaces kv.2)) →
      (cs = [] → TextRead text text') →
      (cs ≠ [] → ∃ s, text' = some s ∧ ∀ c ∈ s.toList, c = '\n' ∨ c = '\t') →
      cs.length = cs'.length → (∀ p ∈ cs.zip cs', ReadAs p.1 p.2) →
      ReadAs (.mk tag as text cs) (.mk tag as' text' cs')

/-- Letters, the underscore and everything outside ASCII. -/
def Letter (c : Char) : Prop :=
  (65 ≤ c.toNat ∧ c.toNat ≤ 90) ∨ (97 ≤ c.toNat ∧ c.toNat ≤ 122) ∨ c.toNat = 95 ∨ 128 ≤ c.toNat

/-- A name without a namespace prefix. -/
def PlainName (s : String) : Prop :=
  ∃ c r, s.toList = c :: r ∧ Letter c ∧
    ∀ d ∈ c :: r, Letter d ∨ (48 ≤ d.toNat ∧ d.toNat ≤ 57) ∨ d = '-' ∨ d = '.'

/-- The characters XML 1.0 allows. -/
def Allowed (c : Char) : Prop :=
  c = '\t' ∨ c = '\n' ∨ c = '\r' ∨ (32 ≤ c.toNat ∧ c.toNat ≠ 0xFFFE ∧ c.toNat ≠ 0xFFFF)

/-- `P` holds for every character of the names, values and texts of a document. -/
inductive Everywhere (P : Char → Prop) : Xml → Prop
  | mk {tag : String} {as : Dict String} {text : Option String} {cs : List Xml} :
      (∀ c ∈ tag.toList, P c) → (∀ kv ∈ as, (∀ c ∈ kv.1.toList, P c) ∧ ∀ c ∈ kv.2.toList, P c) →
      (∀ c ∈ (text.getD "").toList, P c) → (∀ c ∈ cs, Everywhere P c) → Everywhere P (.mk tag as text cs)

/-- Names are plain, attributes have different names, and no element has both text and children. -/
inductive WellNamed : Xml → Prop
  | mk {tag : String} {as : Dict String} {text : Option String} {cs : List Xml} : PlainName tag →
      (∀ kv ∈ as, PlainName kv.1 ∧ kv.1 ≠ "xmlns") → (as.map Prod.fst).Nodup →
      (cs ≠ [] → text.getD "" = "") → (∀ c ∈ cs, WellNamed c) → WellNamed (.mk tag as text cs)

/-- Names of namespaces: printable, without characters that XML writes differently and without `}`. -/
def SpaceName (u : Txt) : Prop :=
  u ≠ [] ∧ ∀ c ∈ u, 32 ≤ c.toNat ∧ c.toNat < 127 ∧ c ∉ ['&', '<', '>', '"', '}']

/-- `t'` is `t` with the namespace `u` declared in the first tag, named `tag`. -/
def Declares (tag u t t' : Txt) : Prop :=
  ∃ r, t = "<?xml version=\"1.0\" ?>\n<".toList ++ tag ++ r ∧
    t' = "<?xml version=\"1.0\" ?>\n<".toList ++ tag ++ " xmlns=\"".toList ++ u ++ ['"'] ++ r

/-! ## Lists whose texts are plain -/

/-- Printable ASCII. -/
def Line (s : String) : Prop := ∀ c ∈ s.toList, 32 ≤ c.toNat ∧ c.toNat < 127

/-- Printable ASCII, tabs and line feeds. -/
def Lines (s : String) : Prop := ∀ c ∈ s.toList, c = '\t' ∨ c = '\n' ∨ (32 ≤ c.toNat ∧ c.toNat < 127)

/-- A plain name in ASCII that does not declare a namespace. -/
def AsciiName (s : String) : Prop := PlainName s ∧ s ≠ "xmlns" ∧ Line s

section
variable {K : Type}

/-- Attributes with plain names and texts. -/
def PlainAttrs (d : Dict AVal) : Prop := ∀ kv ∈ d, AsciiName kv.1 ∧ ∀ s, kv.2 = .str s → Line s

/-- Comments and information in plain text. -/
def PlainElem : Elem K → Prop
  | .comment _ x => ∀ s, x = some s → Lines s
  | .info ps => ∀ p ∈ ps, ∀ s, p.2 = some s → Lines s
  | _ => True

/-- The common part of nodes. -/
def PlainBase (b : Base K) : Prop :=
  PlainAttrs b.attrs ∧ (∀ d ∈ b.dyn, Line d) ∧ ∀ e ∈ b.elements, PlainElem e

/-- Names of channels. -/
def PlainKind : Kind K → Prop
  | .gamma ps => ∀ p ∈ ps, ∀ s, p.channel = some s → Line s
  | .log ps => ∀ p ∈ ps, ∀ s, p.channel = some s → Line s
  | _ => True

/-- Nodes, at any depth; what a reference resolves to does not matter. -/
inductive Plain : Node K → Prop
  | leaf {k : Kind K} {b : Base K} : PlainKind k → PlainBase b → Plain (.leaf k b)
  | group {b : Base K} {cs : List (Node K)} : PlainBase b → (∀ c ∈ cs, Plain c) → Plain (.group b cs)
  | ref {b : Base K} {w : Bool} {ns : List (Node K)} : PlainBase b → Plain (.ref b w ns)
  | refMissing {b : Base K} {w : Bool} : PlainBase b → Plain (.refMissing b w)

/-- Whole lists. -/
def PlainList (l : PList K) : Prop :=
  PlainAttrs l.attrs ∧ (∀ e ∈ l.elements, PlainElem e) ∧ ∀ n ∈ l.processes, Plain n

end

end CLF.Spec
