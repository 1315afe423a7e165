import Verif.Model.Ieee
import Verif.Model.Py

/-!
# Packed half-floats (`filterImageWithCLF.py:66-111`)

Before version 1.8, OpenImageIO hands over half-float values as floats, two halfs in the
four bytes of one float, the first in the low bytes.  A buffer is the list of its bit
patterns; numpy does not copy buffers of the right type, so the patterns are kept as they
are.  On the way through Python a float may become a `double` and a `float` again, which
makes signalling NaNs quiet: that is `quiet`.
-/

namespace CLF

variable {K : Type} [Field K] [LinearOrder K] [IsStrictOrderedRing K] [FloorRing K]

/-- `np.frombuffer(halfs, dtype=np.float32)`: a buffer whose size is no multiple of four is a
`ValueError`. -/
def packHalfs : List ℕ → Py (List ℕ)
  | [] => .ok []
  | [_] => .error .valueError
  | a :: b :: r => do
    let ws ← packHalfs r
    pure ((a + 65536 * b) :: ws)

/-- `np.frombuffer(floats, dtype=np.float16)`. -/
def unpackHalfs (ws : List ℕ) : List ℕ := (ws.map fun w => [w % 65536, w / 65536]).flatten

/-- The conversion of a float to `double` and back, on the bit patterns: the first bit of the
mantissa of a NaN is set. -/
def quiet (w : ℕ) : ℕ :=
  if w / 8388608 % 256 = 255 ∧ w % 8388608 ≠ 0 ∧ w / 4194304 % 2 = 0 then w + 4194304 else w

/-- `filterImageWithCLF.py:72-74` `floatToHalfs`, on the pattern of the float. -/
def floatToHalfs (w : ℕ) : Flt K × Flt K := (half.decode (w % 65536), half.decode (w / 65536))

/-- `filterImageWithCLF.py:79-81` `halfsToFloat`: the pattern of the float. -/
def halfsToFloat (a b : Flt K) : ℕ := half.encode a + 65536 * half.encode b

/-- `filterImageWithCLF.py:86-96` `oiioFloatPixelsToNPHalfArray`: the values of the array.
`width`, `height` and `channels` are not used. -/
def unpackPixels (version : ℕ) (data : List ℕ) : List (Flt K) :=
  if version < 10800 then (unpackHalfs data).map half.decode
  else data.map fun c => half.decode (c % 65536)

/-- `filterImageWithCLF.py:102-111` `npHalfArrayToOIIOFloatPixels`: the buffer that is
written. -/
def packPixels (version : ℕ) (pixels : List (Flt K)) : Py (List ℕ) :=
  if version < 10800 then packHalfs (pixels.map half.encode)
  else .ok (pixels.map half.encode)

end CLF
