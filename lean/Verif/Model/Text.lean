import Verif.Model.Ieee

/-!
# Text

Python's number formatting and parsing, as far as the repository relies on it, on
lists of characters.  `SFlt` is a float with a sign of its own, so that `-0.0` has
a text and a bit pattern different from `0.0`.
-/

namespace CLF

/-- Text as a list of characters. -/
abbrev Txt := List Char

/-! ## Signed floats -/

/-- A float as sign and magnitude (the magnitude of a finite float is not
negative). -/
inductive SFlt (K : Type)
  | fin (neg : Bool) (m : K)
  | inf (neg : Bool)
  | nan
  deriving DecidableEq, Repr

namespace SFlt
variable {K : Type} [Field K] [LinearOrder K] [IsStrictOrderedRing K] [FloorRing K]

/-- Forget the sign of zero. -/
def toFlt : SFlt K → Flt K
  | fin neg m => .fin (if neg then -m else m)
  | inf neg => .inf neg
  | nan => .nan

/-- A float whose zero is taken to be positive. -/
def ofFlt : Flt K → SFlt K
  | .fin x => fin (decide (x < 0)) |x|
  | .inf neg => inf neg
  | .nan => nan

/-- Bit pattern after rounding to a format: `halfToUInt16`, `float32ToUInt32`,
`doubleToUInt64` (`clf/Common.py:95-96, 102-103, 109-110`), keeping the sign of zero.
NaN is given the canonical quiet pattern. -/
def bits (f : Fmt) : SFlt K → ℕ
  | fin neg m => (if neg then f.signBit else 0) + f.encodeMag m
  | inf neg => (if neg then f.signBit else 0) + f.infCode
  | nan => f.infCode + 2 ^ (f.mant - 1)

/-- Value of a bit pattern: `uint16ToHalf`, `uint32ToFloat32`, `uint64ToDouble`
(`clf/Common.py:92-93, 99-100, 106-107`), keeping the sign of zero; NaN payloads are
forgotten. -/
def ofBits (f : Fmt) (n : ℕ) : SFlt K :=
  let c := n % f.signBit
  let neg : Bool := decide (f.signBit ≤ n)
  if c < f.infCode then fin neg (f.magVal c)
  else if c = f.infCode then inf neg
  else nan

/-- Storing into an array of the format's type. -/
def round (f : Fmt) (x : SFlt K) : SFlt K := ofBits f (bits f x)

end SFlt

/-! ## Whitespace, joining, padding -/

/-- ASCII whitespace, the separators of `str.split()`. -/
def isSpace (c : Char) : Bool :=
  c = ' ' || c = '\t' || c = '\n' || c = '\r' || c = '\x0b' || c = '\x0c'

/-- Split at every whitespace character (pieces may be empty). -/
def pieces : Txt → List Txt
  | [] => [[]]
  | c :: cs =>
    if isSpace c then [] :: pieces cs
    else match pieces cs with
      | [] => [[c]]
      | w :: ws => (c :: w) :: ws

/-- `text.split()`. -/
def words (t : Txt) : List Txt := (pieces t).filter (· ≠ [])

/-- `sep.join(list)`. -/
def joinWith (sep : Txt) : List Txt → Txt
  | [] => []
  | [w] => w
  | w :: ws => w ++ sep ++ joinWith sep ws

/-- `"%15s" % text` and the like. -/
def padLeft (n : ℕ) (t : Txt) : Txt := List.replicate (n - t.length) ' ' ++ t

/-- `text.strip()`. -/
def strip (t : Txt) : Txt := ((t.dropWhile isSpace).reverse.dropWhile isSpace).reverse

/-! ## Integers -/

/-- Digits of a natural number in base `b`, most significant first, none for
zero. The first argument bounds the number of digits. -/
def digitsAux (b : ℕ) : ℕ → ℕ → List ℕ
  | 0, _ => []
  | k + 1, n => if n = 0 then [] else digitsAux b k (n / b) ++ [n % b]

/-- `str(n)` of a non-negative integer. -/
def showNat (n : ℕ) : Txt :=
  if n = 0 then ['0'] else (digitsAux 10 n n).map Nat.digitChar

/-- `str(n)` of an integer. -/
def showInt (n : ℤ) : Txt := if n < 0 then '-' :: showNat n.natAbs else showNat n.natAbs

/-- Exactly `w` digits in base `b`, most significant first. -/
def fixedDigits (b : ℕ) : ℕ → ℕ → List ℕ
  | 0, _ => []
  | w + 1, n => fixedDigits b w (n / b) ++ [n % b]

/-- `"%0wd" % n`, or fixed-width lower-case hex for `b = 16`
(`struct.pack(">H", n).encode("hex")`, `clf/Common.py:115-133`). -/
def showFixed (b w n : ℕ) : Txt := (fixedDigits b w n).map Nat.digitChar

/-- Value of a decimal digit. -/
def decVal (c : Char) : Option ℕ :=
  if '0' ≤ c ∧ c ≤ '9' then some (c.toNat - '0'.toNat) else none

/-- Value of a hex digit of either case. -/
def hexVal (c : Char) : Option ℕ :=
  if '0' ≤ c ∧ c ≤ '9' then some (c.toNat - '0'.toNat)
  else if 'a' ≤ c ∧ c ≤ 'f' then some (c.toNat - 'a'.toNat + 10)
  else if 'A' ≤ c ∧ c ≤ 'F' then some (c.toNat - 'A'.toNat + 10)
  else none

/-- Read digits onto an accumulator. -/
def readDigits (val : Char → Option ℕ) (b : ℕ) : ℕ → Txt → Option ℕ
  | acc, [] => some acc
  | acc, c :: cs => match val c with
    | some d => readDigits val b (acc * b + d) cs
    | none => none

/-- `int(text)` for a non-negative decimal integer; anything else is a
`ValueError` (signs are accepted by Python but never written by the repository for
the values read this way). -/
def parseNat (t : Txt) : Py ℕ :=
  match strip t with
  | [] => .error .valueError
  | t => match readDigits decVal 10 0 t with
    | some n => .ok n
    | none => .error .valueError

/-- `struct.unpack(fmt, text.decode("hex"))` for a format of `w` hex digits
(`clf/Common.py:119-121`): text of another length or with other characters
raises. -/
def parseHex (w : ℕ) (t : Txt) : Py ℕ :=
  if t.length = w then
    match readDigits hexVal 16 0 t with
    | some n => .ok n
    | none => .error .typeError
  else .error .valueError

/-! ## Floats -/

variable {K : Type} [Field K] [LinearOrder K] [IsStrictOrderedRing K] [FloorRing K]

/-- A leading minus sign. -/
def signTxt (neg : Bool) : Txt := if neg then ['-'] else []

/-- `"%6.9f" % x` (`clf/Array.py:184, 201`): round half even to nine decimals. -/
def show9 : SFlt K → Txt
  | .nan => padLeft 6 "nan".toList
  | .inf neg => padLeft 6 (signTxt neg ++ "inf".toList)
  | .fin neg m =>
    let q := (Fmt.rne (m * 10 ^ 9)).toNat
    padLeft 6 (signTxt neg ++ showNat (q / 10 ^ 9) ++ ['.'] ++ showFixed 10 9 (q % 10 ^ 9))

/-- Decimal exponent and twelve-digit significand of a positive value, rounded half
even (`'%.12g'`). -/
def sig12 (m : K) : ℤ × ℕ :=
  let e := Int.log 10 m
  let q := (Fmt.rne (m / 10 ^ (e - 11))).toNat
  if q = 10 ^ 12 then (e + 1, 10 ^ 11) else (e, q)

/-- Drop trailing zeros. -/
def dropZeros (t : Txt) : Txt := (t.reverse.dropWhile (· = '0')).reverse

/-- The exponent part of `'%g'`: sign and at least two digits. -/
def showExp (e : ℤ) : Txt :=
  ['e', if e < 0 then '-' else '+'] ++
    (if e.natAbs < 10 then '0' :: showNat e.natAbs else showNat e.natAbs)

/-- `str(x)` of a Python 2 float: `'%.12g'`, with `.0` added to a result that would
look like an integer (used by `"%s"`, e.g. `clf/ProcessNode.py:164`,
`clf/IndexMap.py:160`). -/
def str12 : SFlt K → Txt
  | .nan => "nan".toList
  | .inf neg => signTxt neg ++ "inf".toList
  | .fin neg m =>
    if m = 0 then signTxt neg ++ "0.0".toList
    else
      let (e, q) := sig12 m
      let ds := showFixed 10 12 q
      if -4 ≤ e ∧ e < 12 then
        let (ip, fp) : Txt × Txt :=
          if 0 ≤ e then (ds.take (e.toNat + 1), ds.drop (e.toNat + 1))
          else (['0'], List.replicate ((-e).toNat - 1) '0' ++ ds)
        let fp := dropZeros fp
        signTxt neg ++ ip ++ ['.'] ++ (if fp = [] then ['0'] else fp)
      else
        let fp := dropZeros (ds.drop 1)
        signTxt neg ++ ds.take 1 ++ (if fp = [] then [] else '.' :: fp) ++ showExp e

/-- Optional sign of a number text. -/
def takeSign : Txt → Bool × Txt
  | '-' :: t => (true, t)
  | '+' :: t => (false, t)
  | t => (false, t)

/-- Lower case, for the letters of `inf` and `nan`. -/
def lower (t : Txt) : Txt := t.map Char.toLower

/-- The leading digits and the rest. -/
def spanDigits (t : Txt) : Txt × Txt :=
  (t.takeWhile fun c => (decVal c).isSome, t.dropWhile fun c => (decVal c).isSome)

/-- The digits after a decimal point, if there is one, and the rest. -/
def takeFraction : Txt → Txt × Txt
  | '.' :: r => spanDigits r
  | r => ([], r)

/-- The exponent part `e[sign]digits`, zero if there is none. -/
def parseExp : Txt → Option ℤ
  | [] => some 0
  | c :: r =>
    if c = 'e' ∨ c = 'E' then
      let (neg, r) := takeSign r
      if r = [] then none
      else match readDigits decVal 10 0 r with
        | some e => some (if neg then -(e : ℤ) else (e : ℤ))
        | none => none
    else none

/-- Unsigned decimal number `digits[.digits][e[sign]digits]`: significand and
decimal exponent. -/
def parseDecimal (t : Txt) : Option (ℕ × ℤ) :=
  let (ip, r) := spanDigits t
  let (fp, r) := takeFraction r
  if ip = [] ∧ fp = [] then none
  else
    match readDigits decVal 10 0 (ip ++ fp), parseExp r with
    | some n, some e => some (n, e - fp.length)
    | _, _ => none

/-- `float(text)`.  The result is exact; rounding to double precision is not
modelled. -/
def parseFloat (t : Txt) : Py (SFlt K) :=
  let (neg, t) := takeSign (strip t)
  if lower t = "inf".toList ∨ lower t = "infinity".toList then .ok (.inf neg)
  else if lower t = "nan".toList then .ok .nan
  else match parseDecimal t with
    | some (n, e) => .ok (.fin neg ((n : K) * 10 ^ e))
    | none => .error .valueError

end CLF
