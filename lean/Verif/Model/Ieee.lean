import Verif.Model.Num
import Mathlib.Data.Int.Log

/-!
# IEEE binary formats and bit casts (`clf/Common.py:90-133`)

numpy's `float16`, `float32` and `float64` are instances of one parametric
format.  A float of a given width is identified with its bit pattern (a natural
number); `decode` is its value, `encode` the nearest pattern (ties to even).
-/

namespace CLF

/-- A binary interchange format: number of fraction bits and exponent bits. -/
structure Fmt where
  mant : ℕ
  ebits : ℕ
  deriving DecidableEq, Repr

/-- IEEE binary16 (`np.float16`). -/
def half : Fmt := ⟨10, 5⟩
/-- IEEE binary32 (`np.float32`). -/
def single : Fmt := ⟨23, 8⟩
/-- IEEE binary64 (`np.float64`). -/
def double : Fmt := ⟨52, 11⟩

namespace Fmt

/-- Exponent bias. -/
def bias (f : Fmt) : ℤ := 2 ^ (f.ebits - 1) - 1
/-- Total width in bits. -/
def width (f : Fmt) : ℕ := 1 + f.ebits + f.mant
/-- The sign bit, as a number: codes from here on are negative. -/
def signBit (f : Fmt) : ℕ := 2 ^ (f.ebits + f.mant)
/-- Magnitude code of infinity: exponent all ones, fraction zero. -/
def infCode (f : Fmt) : ℕ := (2 ^ f.ebits - 1) * 2 ^ f.mant

variable {K : Type} [Field K] [LinearOrder K] [IsStrictOrderedRing K] [FloorRing K]

/-- Value of a finite magnitude code: fraction and exponent fields, subnormal
when the exponent field is zero. -/
def magVal (f : Fmt) (c : ℕ) : K :=
  let e := c / 2 ^ f.mant
  let m := c % 2 ^ f.mant
  if e = 0 then (m : K) * 2 ^ (1 - f.bias - f.mant)
  else ((2 ^ f.mant + m : ℕ) : K) * 2 ^ ((e : ℤ) - f.bias - f.mant)

/-- Value of a bit pattern: `uint16ToHalf`, `uint32ToFloat32`, `uint64ToDouble`
(`clf/Common.py:92-93, 99-100, 106-107`), seen as a float.  The sign of zero and
NaN payloads are forgotten here. -/
def decode (f : Fmt) (n : ℕ) : Flt K :=
  let c := n % f.signBit
  let neg : Bool := decide (f.signBit ≤ n)
  if c < f.infCode then .fin (if neg then -f.magVal c else f.magVal c)
  else if c = f.infCode then .inf neg
  else .nan

/-- Round to nearest integer, ties to even. -/
def rne (q : K) : ℤ :=
  let fl := ⌊q⌋
  if q - fl < 1 / 2 then fl
  else if 1 / 2 < q - fl then fl + 1
  else if fl % 2 = 0 then fl else fl + 1

/-- Exponent of the binade a non-negative value is rounded in (never below the
subnormal exponent). -/
def binExp (f : Fmt) (x : K) : ℤ :=
  if x ≤ 0 then 1 - f.bias else max (Int.log 2 x) (1 - f.bias)

/-- Magnitude code nearest to a non-negative value, overflowing to infinity. -/
def encodeMag (f : Fmt) (x : K) : ℕ :=
  let E := f.binExp x
  let k := rne (x / 2 ^ (E - f.mant))
  min f.infCode ((E - (1 - f.bias)).toNat * 2 ^ f.mant + k.toNat)

/-- Bit pattern of the value rounded to the format: `np.float16(x)` followed by
`halfToUInt16` and friends (`clf/Common.py:95-96, 102-103, 109-110`).  NaN is
given the canonical quiet pattern. -/
def encode (f : Fmt) : Flt K → ℕ
  | .nan => f.infCode + 2 ^ (f.mant - 1)
  | .inf neg => (if neg then f.signBit else 0) + f.infCode
  | .fin x => (if x < 0 then f.signBit else 0) + f.encodeMag |x|

/-- Rounding to the format: the value of the nearest pattern. -/
def round (f : Fmt) (x : Flt K) : Flt K := f.decode (f.encode x)

end Fmt

end CLF
