import Verif.Model.BitDepth
import Verif.Model.Ieee

/-!
# `clf/Array.py` lookups

The table part of an `Array` element and the lookup methods.  `_interp1ds`
(lines 289-318) is never used because `sciPyEnabled` is always false (lines
56-62) and is not modelled.
-/

namespace CLF

/-- `clf/Array.py:70-94`: dimensions, values and encoding flags of an Array. -/
structure Arr (K : Type) where
  dims : List ℕ
  values : List (Flt K)
  integers : Bool := false
  rawHalfs : Bool := false
  floatEncoding : String := "string"

variable {K : Type} [Field K] [LinearOrder K] [IsStrictOrderedRing K] [FloorRing K]

namespace Arr

/-- `clf/Array.py:325-345` `lookup1D(index, channel)`. -/
def lookup1D (a : Arr K) (index : ℤ) (channel : ℕ) : Py (Flt K) := do
  let d0 ← pyGet a.dims 0
  let d1 ← pyGet a.dims 1
  if d1 = 3 then
    let channel : ℤ := max 0 (min 2 (channel : ℤ))
    if index < 0 then pyIdx a.values (0 + channel)
    else if (d0 : ℤ) ≤ index then pyIdx a.values (((d0 : ℤ) - 1) * d1 + channel)
    else pyIdx a.values (index * d1 + channel)
  else
    if index < 0 then pyIdx a.values 0
    else if (d0 : ℤ) ≤ index then pyIdx a.values ((d0 : ℤ) - 1)
    else pyIdx a.values index

/-- `clf/Array.py:486-507` `lookup1DLinear(position, channel)`. -/
def lookup1DLinear (a : Arr K) (position : Flt K) (channel : ℕ) : Py (Flt K) := do
  let d0 ← pyGet a.dims 0
  match position * .fin ((d0 : K) - 1) with
  | .nan => pure .nan
  | .inf s => pure (.inf s)
  | .fin index =>
    let indexLow : ℤ := ⌊index⌋
    let indexHigh : ℤ := ⌈index⌉
    let interp : Flt K := .fin (index - indexLow)
    let value1 ← a.lookup1D indexLow channel
    let value2 ← a.lookup1D indexHigh channel
    pure ((.fin 1 - interp) * value1 + interp * value2)

/-- `clf/Array.py:510-532` `lookup1DCubic`.  `useSciPy` is never passed and
`sciPyEnabled` is false, so the first branch is always taken; it calls the
unqualified name `lookup1DLinear`, which does not exist at module level. -/
def lookup1DCubic (a : Arr K) (_position : Flt K) (_channel : ℕ) : Py (Flt K) := do
  let _ ← pyGet a.dims 0
  .error .nameError

/-- Clamp of a half code into the finite codes of one sign,
`max(indexMin, min(indexMax, code))` (`clf/Array.py:417, 424`). -/
def clampCode (lo hi code : ℤ) : ℕ := (max lo (min hi code)).toNat

/-- `clf/Array.py:362-465` `lookup1DHalfDomainInterpolated`.  Halves are
identified with their codes, so `halfToUInt16` is the identity.  The difference
and quotient of lines 406-432 are exact here. A `-0.0` input is treated as
`+0.0` (the sign of zero is not represented). -/
def lookup1DHalfDomainInterpolated (a : Arr K) (position : Flt K) (channel : ℕ) :
    Py (Flt K) := do
  let half1 := half.encode position
  let value1 : Flt K := half.decode half1
  match value1 with
  | .nan => a.lookup1D 31745 channel
  | .inf _ =>
    if Flt.lt position (.fin 0) then a.lookup1D 64512 channel
    else a.lookup1D 31744 channel
  | .fin _ =>
    let floatDifference := position - value1
    let negative := Flt.lt position (.fin 0)
    let offset : ℤ := if negative then -1 else 1
    let indexMin : ℤ := if negative then 32768 else 0
    let indexMax : ℤ := if negative then 64511 else 31743
    let half2 :=
      if Flt.le (.fin 0) floatDifference then clampCode indexMin indexMax (half1 + offset)
      else clampCode indexMin indexMax (half1 - offset)
    let halfRange : Flt K := half.decode half2 - value1
    let ratio : Flt K := if halfRange = .fin 0 then .fin 0 else floatDifference / halfRange
    let v1 ← a.lookup1D half1 channel
    let v2 ← a.lookup1D half2 channel
    pure ((.fin 1 - ratio) * v1 + ratio * v2)

/-- `clf/Array.py:468-483` `lookup1DHalfDomain`.  `interpolate=False` goes to
`lookup1DHalfDomainNearest` (lines 348-359), whose test reads the undefined name
`interpolate`. -/
def lookup1DHalfDomain (a : Arr K) (position : Flt K) (channel : ℕ) (interpolate : Bool := true) :
    Py (Flt K) :=
  if interpolate then a.lookup1DHalfDomainInterpolated position channel
  else .error .nameError

/-- The first three dimensions; fewer is a `TypeError` in line 539 (`None - 1`). -/
def dims3 (a : Arr K) : Py (ℕ × ℕ × ℕ) :=
  match a.dims with
  | d0 :: d1 :: d2 :: _ => .ok (d0, d1, d2)
  | _ => .error .typeError

/-- `clf/Array.py:534-548` `lookup3D(index3)`: each index is clamped into its
dimension, then a slice of three values is returned. -/
def lookup3D (a : Arr K) (i j k : ℤ) : Py (List (Flt K)) := do
  let (d0, d1, d2) ← a.dims3
  let i : ℕ := (max 0 (min i ((d0 : ℤ) - 1))).toNat
  let j : ℕ := (max 0 (min j ((d1 : ℤ) - 1))).toNat
  let k : ℕ := (max 0 (min k ((d2 : ℤ) - 1))).toNat
  let index1 := (i * d0 * d1 + j * d1 + k) * 3
  pure (pySlice a.values index1 (index1 + 3))

/-- `math.modf` on a finite value: fractional part and integral part, truncating
towards zero (`clf/Array.py:564-573`). -/
def modf (x : K) : K × ℤ :=
  let n : ℤ := if x < 0 then ⌈x⌉ else ⌊x⌋
  (x - n, n)

/-- The shared prologue of `clf/Array.py:550-586` and `609-648`: clamp the
position, split each scaled coordinate, and fetch the eight corners, in the
order `000, 001, 010, 011, 100, 101, 110, 111` (indices 0-7 of
`enclosingCubeColors`).  The clamped position is always finite. -/
def corners (a : Arr K) (position : List (Flt K)) :
    Py ((K × K × K) × List (List (Flt K))) := do
  let position := position.map clamp01
  let d0 ← pyGet a.dims 0
  let pr ← pyGet position 0
  let d1 ← pyGet a.dims 1
  let pg ← pyGet position 1
  let d2 ← pyGet a.dims 2
  let pb ← pyGet position 2
  match pr * .fin ((d0 : K) - 1), pg * .fin ((d1 : K) - 1), pb * .fin ((d2 : K) - 1) with
  | .fin xr, .fin xg, .fin xb =>
    let (fr, r) := modf xr
    let (fg, g) := modf xg
    let (fb, b) := modf xb
    let c000 ← a.lookup3D r g b
    let c001 ← a.lookup3D r g (b + 1)
    let c010 ← a.lookup3D r (g + 1) b
    let c011 ← a.lookup3D r (g + 1) (b + 1)
    let c100 ← a.lookup3D (r + 1) g b
    let c101 ← a.lookup3D (r + 1) g (b + 1)
    let c110 ← a.lookup3D (r + 1) (g + 1) b
    let c111 ← a.lookup3D (r + 1) (g + 1) (b + 1)
    pure ((fr, fg, fb), [c000, c001, c010, c011, c100, c101, c110, c111])
  | _, _, _ => .error .valueError

/-- `clf/Array.py:550-601` `lookup3DTrilinear`. -/
def lookup3DTrilinear (a : Arr K) (position : List (Flt K)) : Py (List (Flt K)) := do
  let ((fr, fg, fb), c) ← a.corners position
  match c with
  | [c0, c1, c2, c3, c4, c5, c6, c7] =>
    let e0 ← mix c0 c1 (.fin fb)
    let e2 ← mix c2 c3 (.fin fb)
    let e4 ← mix c4 c5 (.fin fb)
    let e6 ← mix c6 c7 (.fin fb)
    let g0 ← mix e0 e2 (.fin fg)
    let g4 ← mix e4 e6 (.fin fg)
    mix g0 g4 (.fin fr)
  | _ => .error .valueError

/-- One channel of a weighted sum of four corner colours, as written out in each
branch of `clf/Array.py:671-774`. -/
def blend4 (w0 w1 w2 w3 : K) (a b c d : List (Flt K)) (ch : ℕ) : Py (Flt K) := do
  let a ← pyGet a ch
  let b ← pyGet b ch
  let c ← pyGet c ch
  let d ← pyGet d ch
  pure (Flt.fin w0 * a + Flt.fin w1 * b + Flt.fin w2 * c + Flt.fin w3 * d)

/-- `clf/Array.py:609-776` `lookup3DTetrahedral`: six branches on the order of
the fractional parts. -/
def lookup3DTetrahedral (a : Arr K) (position : List (Flt K)) : Py (List (Flt K)) := do
  let ((fx, fy, fz), c) ← a.corners position
  match c with
  | [n000, n001, n010, n011, n100, n101, n110, n111] =>
    let pick : ℕ → Py (Flt K) :=
      if fx > fy then
        if fy > fz then blend4 (1 - fx) (fx - fy) (fy - fz) fz n000 n100 n110 n111
        else if fx > fz then blend4 (1 - fx) (fx - fz) (fz - fy) fy n000 n100 n101 n111
        else blend4 (1 - fz) (fz - fx) (fx - fy) fy n000 n001 n101 n111
      else
        if fz > fy then blend4 (1 - fz) (fz - fy) (fy - fx) fx n000 n001 n011 n111
        else if fz > fx then blend4 (1 - fy) (fy - fz) (fz - fx) fx n000 n010 n011 n111
        else blend4 (1 - fy) (fy - fx) (fx - fz) fz n000 n010 n110 n111
    let r ← pick 0
    let g ← pick 1
    let b ← pick 2
    pure [r, g, b]
  | _ => .error .valueError

end Arr

end CLF
