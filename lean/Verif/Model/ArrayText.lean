import Verif.Model.IndexMap
import Verif.Model.Text

/-!
# XML elements; writing and reading `Array` and `IndexMap`

`clf/Array.py:133-248`, `clf/IndexMap.py:155-174`.
-/

namespace CLF

/-- An `xml.etree.ElementTree` element: tag, attributes, text, children. -/
inductive Xml
  | mk (tag : String) (attrs : Dict String) (text : Option String) (children : List Xml)

namespace Xml

/-- `element.tag`. -/
def tag : Xml → String | mk t _ _ _ => t
/-- `element.attrib`. -/
def attrs : Xml → Dict String | mk _ a _ _ => a
/-- `element.text`. -/
def text : Xml → Option String | mk _ _ t _ => t
/-- `for child in element`. -/
def children : Xml → List Xml | mk _ _ _ c => c

/-- Text after serialising and parsing: an element with empty text is written like one
without text and read as such. -/
def normText : Option String → Option String
  | some s => if s = "" then none else some s
  | none => none

mutual
/-- What `etree.parse` returns for a document that `etree`/`minidom` serialised
(`clf/ProcessList.py:213-277, 305-345`; the two libraries are trusted to preserve tags,
attributes, non-empty text and the order of children; whitespace they put between
elements is not represented). -/
def reparse : Xml → Xml
  | mk t a x c => mk t a (normText x) (reparseAll c)
/-- See `reparse`. -/
def reparseAll : List Xml → List Xml
  | [] => []
  | x :: xs => reparse x :: reparseAll xs
end

end Xml

variable {K : Type} [Field K] [LinearOrder K] [IsStrictOrderedRing K] [FloorRing K]

/-- An `Array` whose values keep the sign of zero (`clf/Array.py:70-94`). -/
structure SArr (K : Type) where
  dims : List ℕ
  values : List (SFlt K)
  integers : Bool := false
  rawHalfs : Bool := false
  floatEncoding : String := "string"

/-- How one value is written: decimal, or the bits of a format as an integer or
as hex. -/
inductive Enc
  | decimal
  | int (f : Fmt)
  | hex (f : Fmt)
  deriving DecidableEq, Repr

/-- Field width of `"%15s"` / `"%16s"` (`clf/Array.py:168-201`). -/
def Enc.pad : Enc → ℕ
  | .hex f => if f = double then 16 else 15
  | _ => 15

/-- The encodings that are recorded in the `floatEncoding` attribute
(`clf/Array.py:162-164`). -/
def knownEncoding (s : String) : Bool :=
  s = "integer16bit" || s = "integer32bit" || s = "integer64bit" ||
  s = "hex16bit" || s = "hex32bit" || s = "hex64bit"

/-- The branch taken for a row by `Array.write` (`clf/Array.py:158-201`). -/
def writeEnc (compat : ℕ) (rawHalfs : Bool) (enc : String) : Py Enc :=
  if enc ≠ "string" then
    if hasFeature compat duiker then
      if rawHalfs || enc = "integer16bit" then .ok (.int half)
      else if enc = "integer32bit" then .ok (.int single)
      else if enc = "integer64bit" then .ok (.int double)
      else if enc = "hex16bit" then .ok (.hex half)
      else if enc = "hex32bit" then .ok (.hex single)
      else if enc = "hex64bit" then .ok (.hex double)
      else .ok .decimal
    else .error .unsupportedExtension
  else if rawHalfs then .ok (.int half)
  else .ok .decimal

/-- `struct.pack(">f", x)` refuses finite values that round to infinity; the other
conversions (numpy casts, `">d"`) do not (`clf/Common.py:115-129`).  Doubles do not
overflow, being doubles already. -/
def packable (f : Fmt) (x : SFlt K) : Bool :=
  match x with
  | .fin _ m => !(f = single && f.encodeMag m == f.infCode)
  | _ => true

/-- `halfToHex`, `float32ToHex`, `doubleToHex` (`clf/Common.py:115-129`). -/
def floatToHex (f : Fmt) (x : SFlt K) : Py Txt :=
  if packable f x then .ok (showFixed 16 (f.width / 4) (x.bits f)) else .error .overflow

/-- `hexToHalf`, `hexToFloat32`, `hexToDouble` (`clf/Common.py:119-132`). -/
def hexToFloat (f : Fmt) (t : Txt) : Py (SFlt K) := do
  let n ← parseHex (f.width / 4) t
  pure (SFlt.ofBits f n)

/-- Text of one value before padding to the column width (`clf/Array.py:168-201`,
`clf/Common.py:95-129`). -/
def writeToken (e : Enc) (x : SFlt K) : Py Txt :=
  match e with
  | .decimal => .ok (show9 x)
  | .int f => .ok (showNat (x.bits f))
  | .hex f => floatToHex f x

/-- `str(int(x))`, computed for integer-valued arrays and then always overwritten
(`clf/Array.py:153-154`): only its exceptions matter. -/
def intCheck (x : SFlt K) : Py Unit :=
  match x with
  | .nan => .error .valueError
  | .inf _ => .error .overflow
  | .fin _ _ => .ok ()

/-- One row of text (`clf/Array.py:150-202`). -/
def writeRow (compat : ℕ) (a : SArr K) (sample : List (SFlt K)) : Py Txt := do
  if a.integers then
    let _ ← sample.mapM intCheck
  let e ← writeEnc compat a.rawHalfs a.floatEncoding
  let ts ← sample.mapM (writeToken e)
  pure (joinWith [' '] (ts.map (padLeft e.pad)) ++ ['\n'])

/-- Row length used for writing (`clf/Array.py:140-146`). -/
def columnsOf (dims : List ℕ) : Py ℕ :=
  if dims.length = 2 ∨ dims.length = 4 then pyIdx dims (-1) else pyGet dims 1

/-- `clf/Array.py:133-209` `write`: the element.  Dimensions are natural numbers
here. -/
def SArr.write (compat : ℕ) (a : SArr K) (elementType : String := "Array") : Py Xml := do
  let columns ← columnsOf a.dims
  let rows ← pyDivNat a.values.length columns
  let texts ← (List.range rows).mapM fun n =>
    writeRow compat a (pySlice a.values (n * columns) ((n + 1) * columns))
  let dim := joinWith [' '] (a.dims.map showNat)
  pure (.mk elementType
    ([("dim", String.ofList dim)] ++
      if 0 < rows ∧ a.floatEncoding ≠ "string" ∧ knownEncoding a.floatEncoding
      then [("floatEncoding", a.floatEncoding)] else [])
    (some (String.ofList (['\n'] ++ texts.flatten ++ ['\t', '\t']))) [])

/-- The cast chosen by `Array.read` (`clf/Array.py:219-240`). -/
def readEnc (rawHalfs : Bool) (enc : String) : Enc :=
  if rawHalfs || enc = "integer16bit" then .int half
  else if enc = "integer32bit" then .int single
  else if enc = "integer64bit" then .int double
  else if enc = "hex16bit" then .hex half
  else if enc = "hex32bit" then .hex single
  else if enc = "hex64bit" then .hex double
  else .decimal

/-- One value read: `cast(text)` stored into an array of the encoding's type
(`clf/Array.py:219-246`).  Bit patterns are values of that type already; decimals
are stored into a float32 array, `store`.  An integer too large for its type is an
`OverflowError` here. -/
def readToken (store : SFlt K → SFlt K) (e : Enc) (t : Txt) : Py (SFlt K) :=
  match e with
  | .decimal => do
    let x ← parseFloat t
    pure (store x)
  | .int f => do
    let n ← parseNat t
    if n < 2 ^ f.width then pure (SFlt.ofBits f n) else .error .overflow
  | .hex f => hexToFloat f t

/-- `clf/Array.py:211-248` `read` on an array constructed with the given flags.
Attributes are applied in the order given; their keys are different, so the order does
not matter. -/
def SArr.read (store : SFlt K → SFlt K) (init : SArr K) (x : Xml) : Py (SArr K) := do
  let dims ← match x.attrs.get? "dim" with
    | some v => (words v.toList).mapM parseNat
    | none => pure init.dims
  let enc := match x.attrs.get? "floatEncoding" with
    | some v => v
    | none => init.floatEncoding
  match x.text with
  | none => .error .attributeError
  | some t =>
    let vs ← (words t.toList).mapM (readToken store (readEnc init.rawHalfs enc))
    pure { init with dims := dims, floatEncoding := enc, values := vs }

/-- The array of a node, whose values do not keep the sign of zero. -/
def Arr.toS (a : Arr K) : SArr K :=
  ⟨a.dims, a.values.map SFlt.ofFlt, a.integers, a.rawHalfs, a.floatEncoding⟩

/-- See `Arr.toS`. -/
def SArr.toArr (a : SArr K) : Arr K :=
  ⟨a.dims, a.values.map SFlt.toFlt, a.integers, a.rawHalfs, a.floatEncoding⟩

/-- `Array.write` for node arrays. -/
def Arr.write (compat : ℕ) (a : Arr K) : Py Xml := a.toS.write compat

/-- `Array.read` for node arrays; `A.f32` is the float32 store. -/
def Arr.read (A : Arith K) (init : Arr K) (x : Xml) : Py (Arr K) := do
  let a ← init.toS.read (fun v => SFlt.ofFlt (A.f32 v.toFlt)) x
  pure a.toArr

/-! ## Index maps -/

/-- `int(x)`: truncation towards zero; NaN and infinities raise
(`clf/IndexMap.py:160`). -/
def truncInt (x : Flt K) : Py ℤ :=
  match x with
  | .fin v => .ok (if v < 0 then -⌊-v⌋ else ⌊v⌋)
  | .inf _ => .error .overflow
  | .nan => .error .valueError

/-- `"%s@%s" % (float(a), int(b))` (`clf/IndexMap.py:160`). -/
def pairTxt (p : Flt K × Flt K) : Py Txt := do
  let n ← truncInt p.2
  pure (str12 (SFlt.ofFlt p.1) ++ ['@'] ++ showInt n)

/-- `clf/IndexMap.py:155-163` `write`.  Python 2's two-argument `map` pads the
shorter list with `None`, on which `float` or `int` raises `TypeError`; the pairs
before that point are formatted first and may raise earlier. -/
def IndexMap.write (m : IndexMap K) : Py Xml := do
  let ts ← (m.inputs.zip m.outputs).mapM pairTxt
  if m.inputs.length ≠ m.outputs.length then .error .typeError
  else pure (.mk "IndexMap" [("dim", String.ofList (showNat m.dimension))]
    (some (String.ofList (joinWith [' '] ts))) [])

/-- `text.split(sep)` for a one-character separator. -/
def splitOn (sep : Char) : Txt → List Txt
  | [] => [[]]
  | c :: cs =>
    if c = sep then [] :: splitOn sep cs
    else match splitOn sep cs with
      | [] => [[c]]
      | w :: ws => (c :: w) :: ws

/-- `float(p.split('@')[i])` (`clf/IndexMap.py:172-173`). -/
def readPairPart (i : ℕ) (p : Txt) : Py (Flt K) := do
  let s ← pyGet (splitOn '@' p) i
  let v ← parseFloat (K := K) s
  pure v.toFlt

/-- `clf/IndexMap.py:165-174` `read`. -/
def IndexMap.read (init : IndexMap K) (x : Xml) : Py (IndexMap K) := do
  let dim ← match x.attrs.get? "dim" with
    | some v => parseNat v.toList
    | none => pure init.dimension
  match x.text with
  | none => .error .attributeError
  | some t =>
    let ins ← (words t.toList).mapM (readPairPart 0)
    let outs ← (words t.toList).mapM (readPairPart 1)
    pure ⟨dim, ins, outs⟩

end CLF
