import Verif.Model.Write
import Mathlib.Data.List.Sort

/-!
# Documents as characters

`clf/ProcessList.py:66-76` `xmlPrettify`, `:150-177` `writeFile`, `:236-258` `readFile`: what is
written to and read from files.  Four pieces of the Python 2.7 library are involved, modelled here
as far as the repository uses them: `etree.tostring`, `minidom.parseString` and `etree.parse`
(both are the expat parser) and `minidom`'s `toprettyxml` (of Python 2.7.3 and later, where an
element that holds only text is written on one line).

Simplifications: text is a list of characters (files are UTF-8); a document type declaration is
not accepted; the XML declaration is skipped like other processing instructions; every character
above 127 may stand in names; comments are dropped by both parsers.
-/

namespace CLF

/-! ## Parsing -/

/-- A parsed document: text, or an element with the names as they are written. -/
inductive Dom
  | text (t : Txt)
  | elem (tag : Txt) (attrs : List (Txt × Txt)) (children : List Dom)

/-- Tags and pieces of text. -/
inductive Tok
  | start (tag : Txt) (attrs : List (Txt × Txt)) (empty : Bool)
  | stop (tag : Txt)
  | chars (t : Txt)
  deriving DecidableEq, Repr

namespace XmlText

/-- Characters that may stand in a document. -/
def xmlChar (c : Char) : Bool :=
  c = '\t' || c = '\n' || c = '\r' || (0x20 ≤ c.toNat && c.toNat ≤ 0xD7FF) ||
    (0xE000 ≤ c.toNat && c.toNat ≤ 0xFFFD) || 0x10000 ≤ c.toNat

/-- Line ends are read as one line feed. -/
def normEnds : Txt → Txt
  | [] => []
  | '\r' :: '\n' :: r => '\n' :: normEnds r
  | '\r' :: r => '\n' :: normEnds r
  | c :: r => c :: normEnds r

/-- White space between the parts of a tag. -/
def xmlSpace (c : Char) : Bool := c = ' ' || c = '\t' || c = '\n' || c = '\r'

/-- First characters of names. -/
def nameStart (c : Char) : Bool :=
  ('a' ≤ c && c ≤ 'z') || ('A' ≤ c && c ≤ 'Z') || c = '_' || c = ':' || 128 ≤ c.toNat

/-- Characters of names. -/
def nameChar (c : Char) : Bool := nameStart c || ('0' ≤ c && c ≤ '9') || c = '-' || c = '.'

/-- A name at the start of a text, and the rest. -/
def takeName (s : Txt) : Option (Txt × Txt) :=
  match s.takeWhile nameChar with
  | [] => none
  | c :: n => if nameStart c then some (c :: n, s.dropWhile nameChar) else none

/-- A character given by its number. -/
def charOf (n : ℕ) : Option Char :=
  if n.isValidChar ∧ xmlChar (Char.ofNat n) then some (Char.ofNat n) else none

/-- What stands between `&` and `;`. -/
def entity (b : Txt) : Option Char :=
  if b = ['a', 'm', 'p'] then some '&'
  else if b = ['l', 't'] then some '<'
  else if b = ['g', 't'] then some '>'
  else if b = ['q', 'u', 'o', 't'] then some '"'
  else if b = ['a', 'p', 'o', 's'] then some '\''
  else match b with
    | '#' :: 'x' :: ds => if ds = [] then none else (readDigits hexVal 16 0 ds).bind charOf
    | '#' :: ds => if ds = [] then none else (readDigits decVal 10 0 ds).bind charOf
    | _ => none

/-- Replace entities.  The first argument holds what was read since an `&`. -/
def decode : Option Txt → Txt → Option Txt
  | none, [] => some []
  | some _, [] => none
  | none, c :: r => if c = '&' then decode (some []) r else (decode none r).map (c :: ·)
  | some b, c :: r =>
    if c = ';' then (entity b).bind fun e => (decode none r).map (e :: ·)
    else decode (some (b ++ [c])) r

/-- White space in an attribute is read as spaces. -/
def blank (c : Char) : Char := if xmlSpace c then ' ' else c

/-- The value of an attribute. -/
def attrValue (raw : Txt) : Option Txt :=
  if '<' ∈ raw then none else decode none (raw.map blank)

/-- The attributes of a tag to its end: whether it ends with `/>`, and the rest.  The number
bounds the attributes. -/
def lexAttrs : ℕ → Txt → Option (List (Txt × Txt) × Bool × Txt)
  | 0, _ => none
  | n + 1, s =>
    match s.dropWhile xmlSpace with
    | '>' :: r => some ([], false, r)
    | '/' :: '>' :: r => some ([], true, r)
    | r =>
      if r.length = s.length then none
      else do
        let (name, r) ← takeName r
        match r.dropWhile xmlSpace with
        | '=' :: r =>
          match r.dropWhile xmlSpace with
          | q :: r =>
            if q = '"' ∨ q = '\'' then
              match r.dropWhile (· ≠ q) with
              | _ :: rest => do
                let v ← attrValue (r.takeWhile (· ≠ q))
                let (as, e, rest) ← lexAttrs n rest
                some ((name, v) :: as, e, rest)
              | [] => none
            else none
          | [] => none
        | _ => none

/-- The text before a pattern, and the text after it. -/
def upTo (pat : Txt) : Txt → Option (Txt × Txt)
  | [] => none
  | c :: r =>
    if pat.isPrefixOf (c :: r) then some ([], (c :: r).drop pat.length)
    else (upTo pat r).map fun p => (c :: p.1, p.2)

/-- `pat` stands somewhere in the text. -/
def holds (pat t : Txt) : Bool := (upTo pat t).isSome

/-- One tag or piece of text; processing instructions and comments give nothing. -/
def lexTok : Txt → Option (Option Tok × Txt)
  | '<' :: '/' :: r => do
    let (n, r) ← takeName r
    match r.dropWhile xmlSpace with
    | '>' :: r => some (some (.stop n), r)
    | _ => none
  | '<' :: '?' :: r => (upTo ['?', '>'] r).map fun p => (none, p.2)
  | '<' :: '!' :: r =>
    if ['-', '-'].isPrefixOf r then do
      let (_, r) ← upTo ['-', '-'] (r.drop 2)
      match r with
      | '>' :: r => some (none, r)
      | _ => none
    else if "[CDATA[".toList.isPrefixOf r then
      (upTo [']', ']', '>'] (r.drop 7)).map fun p => (some (.chars p.1), p.2)
    else none
  | '<' :: r => do
    let (n, r) ← takeName r
    let (as, e, r) ← lexAttrs (r.length + 1) r
    some (some (.start n as e), r)
  | s =>
    let raw := s.takeWhile (· ≠ '<')
    if holds [']', ']', '>'] raw then none
    else (decode none raw).map fun t => (some (.chars t), s.dropWhile (· ≠ '<'))

/-- All tags and pieces of text; the number bounds them. -/
def lex : ℕ → Txt → Option (List Tok)
  | _, [] => some []
  | 0, _ :: _ => none
  | n + 1, c :: r => do
    let (t, r) ← lexTok (c :: r)
    let ts ← lex n r
    some (t.toList ++ ts)

/-- An element that is not closed yet. -/
abbrev Frame := Txt × List (Txt × Txt) × List Dom

/-- Add text to the innermost open element; neighbouring pieces are one. -/
def addChars (s : Txt) (cs : List Dom) : List Dom :=
  if s = [] then cs
  else match cs.getLast? with
    | some (.text u) => cs.dropLast ++ [.text (u ++ s)]
    | _ => cs ++ [.text s]

/-- One tag or piece of text; the innermost open element comes first, the document itself last. -/
def buildStep (fs : List Frame) (t : Tok) : Option (List Frame) :=
  match fs, t with
  | [], _ => none
  | (g, a, cs) :: fs, .chars s => some ((g, a, addChars s cs) :: fs)
  | (g, a, cs) :: fs, .start tag as e =>
    if (as.map Prod.fst).Nodup then
      if e then some ((g, a, cs ++ [.elem tag as []]) :: fs)
      else some ((tag, as, []) :: (g, a, cs) :: fs)
    else none
  | (g, a, cs) :: fs, .stop tag =>
    match fs with
    | [] => none
    | (g', a', cs') :: fs => if g = tag then some ((g', a', cs' ++ [.elem g a cs]) :: fs) else none

/-- The root element: the only one, with white space around it. -/
def rootOf (cs : List Dom) : Option Dom :=
  if cs.all fun | .text t => t.all xmlSpace | .elem _ _ _ => true then
    match cs.filter fun | .text _ => false | .elem _ _ _ => true with
    | [e] => some e
    | _ => none
  else none

/-- The expat parser. -/
def parseDom (t : Txt) : Option Dom :=
  let s := normEnds t
  if s.all xmlChar then do
    let ts ← lex s.length s
    match ← ts.foldlM buildStep [([], [], [])] with
    | [(_, _, cs)] => rootOf cs
    | _ => none
  else none

/-! ## Namespaces -/

/-- The declaration of a namespace: prefix and name; no prefix for the default. -/
def declOf (kv : Txt × Txt) : Option (Txt × Txt) :=
  if kv.1 = ['x', 'm', 'l', 'n', 's'] then some ([], kv.2)
  else if ['x', 'm', 'l', 'n', 's', ':'].isPrefixOf kv.1 then some (kv.1.drop 6, kv.2)
  else none

/-- The namespace of a prefix. -/
def spaceOf (env : List (Txt × Txt)) (p : Txt) : Option Txt :=
  if p = ['x', 'm', 'l'] then some "http://www.w3.org/XML/1998/namespace".toList else env.lookup p

/-- `ElementTree` names: `{namespace}name`.  A prefix must have been declared. -/
def qualify (env : List (Txt × Txt)) (attr : Bool) (name : Txt) : Option Txt :=
  match name.dropWhile (· ≠ ':') with
  | [] =>
    if attr then some name
    else match env.lookup [] with
      | some (c :: u) => some ('{' :: c :: u ++ '}' :: name)
      | _ => some name
  | _ :: l => (spaceOf env (name.takeWhile (· ≠ ':'))).map fun u => '{' :: u ++ '}' :: l

/-- The text before the first child. -/
def leadText : List Dom → Txt
  | .text t :: r => t ++ leadText r
  | _ => []

/-- No text is `None`. -/
def optText (t : Txt) : Option String := if t = [] then none else some (String.ofList t)

/-- The attributes with `ElementTree` names, without declarations. -/
def resolveAttrs (env : List (Txt × Txt)) (as : List (Txt × Txt)) : Option (Dict String) :=
  (as.filter fun kv => (declOf kv).isNone).mapM fun kv =>
    (qualify env true kv.1).map fun k => (String.ofList k, String.ofList kv.2)

mutual

/-- The `ElementTree` elements of a document part: one, or none for text (text after a child is
not used by the repository). -/
def resolve (env : List (Txt × Txt)) : Dom → Option (List Xml)
  | .text _ => some []
  | .elem tag as cs => do
    let env := as.filterMap declOf ++ env
    let tag ← qualify env false tag
    let at' ← resolveAttrs env as
    let xs ← resolveAll env cs
    some [.mk (String.ofList tag) at' (optText (leadText cs)) xs]

/-- See `resolve`. -/
def resolveAll (env : List (Txt × Txt)) : List Dom → Option (List Xml)
  | [] => some []
  | d :: ds => do
    let x ← resolve env d
    let xs ← resolveAll env ds
    some (x ++ xs)

end

/-- `etree.parse(file).getroot()`. -/
def parse (t : Txt) : Py Xml :=
  match (parseDom t).bind (resolve []) with
  | some [x] => .ok x
  | _ => .error .parseError

/-! ## Writing -/

/-- `_escape_cdata` of `ElementTree`; its replacements one after the other do this to each
character. -/
def escapeText (c : Char) : Txt :=
  if c = '&' then ['&', 'a', 'm', 'p', ';']
  else if c = '<' then ['&', 'l', 't', ';']
  else if c = '>' then ['&', 'g', 't', ';']
  else [c]

/-- `_escape_attrib` of `ElementTree`. -/
def escapeAttr (c : Char) : Txt :=
  if c = '"' then ['&', 'q', 'u', 'o', 't', ';']
  else if c = '\n' then ['&', '#', '1', '0', ';']
  else escapeText c

/-- `_write_data` of `minidom`, for texts and attributes. -/
def escapeData (c : Char) : Txt :=
  if c = '"' then ['&', 'q', 'u', 'o', 't', ';'] else escapeText c

/-- Attributes are written in the order of their names. -/
def sortAttrs (as : List (Txt × Txt)) : List (Txt × Txt) :=
  as.insertionSort fun a b => ¬ b.1 < a.1

/-- ` name="value"` for each attribute. -/
def attrsText (esc : Char → Txt) (as : List (Txt × Txt)) : Txt :=
  as.flatMap fun kv => ' ' :: kv.1 ++ '=' :: '"' :: kv.2.flatMap esc ++ ['"']

/-- Attributes as characters. -/
def attrTxt (as : Dict String) : List (Txt × Txt) := as.map fun kv => (kv.1.toList, kv.2.toList)

mutual

/-- `_serialize_xml` of `ElementTree`.  Tags and names of attributes with namespaces of their own
(`{…}`), which the repository does not write, are not translated to prefixes. -/
def treeText : Xml → Txt
  | .mk tag as text cs =>
    let t := (text.getD "").toList
    '<' :: tag.toList ++ attrsText escapeAttr (sortAttrs (attrTxt as)) ++
      (if t = [] ∧ cs.isEmpty then [' ', '/', '>']
      else '>' :: t.flatMap escapeText ++ treeTexts cs ++ '<' :: '/' :: tag.toList ++ ['>'])

/-- See `treeText`. -/
def treeTexts : List Xml → Txt
  | [] => []
  | x :: xs => treeText x ++ treeTexts xs

end

/-- `etree.tostring(root, encoding='UTF-8')`. -/
def tostring (x : Xml) : Txt := "<?xml version='1.0' encoding='UTF-8'?>\n".toList ++ treeText x

mutual

/-- `writexml(writer, indent, "\t", "\n")` of `minidom`, `n` tabs deep. -/
def pretty (n : ℕ) : Dom → Txt
  | .text t => (List.replicate n '\t' ++ t ++ ['\n']).flatMap escapeData
  | .elem tag as cs =>
    List.replicate n '\t' ++ '<' :: tag ++ attrsText escapeData (sortAttrs as) ++
      (match cs with
      | [] => ['/', '>', '\n']
      | [.text t] => '>' :: t.flatMap escapeData ++ '<' :: '/' :: tag ++ ['>', '\n']
      | cs => '>' :: '\n' :: prettyAll (n + 1) cs ++ List.replicate n '\t' ++ '<' :: '/' :: tag ++
          ['>', '\n'])

/-- See `pretty`. -/
def prettyAll (n : ℕ) : List Dom → Txt
  | [] => []
  | d :: ds => pretty n d ++ prettyAll n ds

end

/-- `clf/ProcessList.py:66-76` `xmlPrettify`: the document as etree text, parsed by `minidom`, and
written with line breaks and tabs.  What expat does not accept is an error. -/
def xmlPrettify (x : Xml) : Py Txt :=
  match parseDom (tostring x) with
  | none => .error .parseError
  | some d =>
    match resolve [] d with
    | none => .error .parseError
    | some _ => .ok ("<?xml version=\"1.0\" ?>\n".toList ++ pretty 0 d)

/-- Characters that Python 2 writes to a file without being told an encoding. -/
def ascii (t : Txt) : Bool := t.all fun c => c.toNat < 128

end XmlText

variable {K : Type} [Field K] [LinearOrder K] [IsStrictOrderedRing K] [FloorRing K]

/-- `clf/ProcessList.py:150-177` `writeFile` without gzip, on characters: what the file holds
afterwards, and whether the call raises.  `old` is what it held.  The text is made before the file
is opened, and opening it empties it; then text that is not ASCII raises a `UnicodeEncodeError`. -/
def PList.storeText (compat : ℕ) (selfContained : Bool) (l : PList K) (old : Option Txt) :
    Option Txt × Py Unit :=
  match (l.write compat selfContained).bind XmlText.xmlPrettify with
  | .error e => (old, .error e)
  | .ok t => if XmlText.ascii t then (some t, .ok ()) else (some [], .error .valueError)

/-- `clf/ProcessList.py:236-258` `readFile` of a file that is not gzipped, on characters.  With
the Duiker feature set reading is tried twice; the second time decides. -/
def readText (A : Arith K) (compat : ℕ) (load : String → Py (Option (List (Node K)))) (strict : Bool)
    (t : Txt) : Py (PList K) := do
  let x ← XmlText.parse t
  readList A compat load strict x

end CLF
