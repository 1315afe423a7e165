import Verif.Model.Process

/-!
# Range, Matrix and LUT nodes with every operation rounded

The functions of `Model/Array.lean`, `Model/IndexMap.lean` and
`Model/Process.lean` again, with the result of every arithmetic operation
rounded to the format that numpy gives it.  Numbers that are Python floats or
integers, and results of operations with one, are `float64`; an operation on two
numpy scalars has the wider of their formats.  Values of pixels are `float32`,
entries of a table have the format `t` of the array (`clf/Array.py:219-241`;
`float64` for a list of Python floats).  Conversions of dimensions to `float64`
are taken to be exact.

How a result is rounded to a format is the parameter `R`; it is `Fmt.round` for
IEEE arithmetic, and without rounding the functions are those of the other
files (`Lemmas/RoundedExact.lean`).
-/

namespace CLF

/-- How results are rounded to a format. -/
abbrev Rounding (K : Type) := Fmt → Flt K → Flt K

/-- The format of an operation on numpy scalars of two formats. -/
def Fmt.wider (f g : Fmt) : Fmt := if f.mant < g.mant then g else f

variable {K : Type} [Field K] [LinearOrder K] [IsStrictOrderedRing K] [FloorRing K]

/-- Rounding to nearest, ties to even. -/
def ieee : Rounding K := Fmt.round

/-- No rounding. -/
def unrounded : Rounding K := fun _ x => x

/-! ## Bit depths -/

/-- `clf/ProcessNode.py:77-90` `bitDepthToNormalized`: the divisor is a Python float. -/
def toUnitR (R : Rounding K) (v : Flt K) (d : Depth) : Flt K :=
  if d = depth "8i" then R double (v / .fin (2 ^ 8 - 1))
  else if d = depth "10i" then R double (v / .fin (2 ^ 10 - 1))
  else if d = depth "12i" then R double (v / .fin (2 ^ 12 - 1))
  else if d = depth "16i" then R double (v / .fin (2 ^ 16 - 1))
  else v

/-- `clf/ProcessNode.py:92-105` `normalizedToBitDepth`: the factor is a Python float. -/
def fromUnitR (R : Rounding K) (v : Flt K) (d : Depth) : Flt K :=
  if d = depth "8i" then R double (v * .fin (2 ^ 8 - 1))
  else if d = depth "10i" then R double (v * .fin (2 ^ 10 - 1))
  else if d = depth "12i" then R double (v * .fin (2 ^ 12 - 1))
  else if d = depth "16i" then R double (v * .fin (2 ^ 16 - 1))
  else v

/-! ## Lookups -/

/-- A weighted sum `w*a + v*b` in `float64` (`clf/Array.py:504`, `clf/Common.py:86`). -/
def sum2R (R : Rounding K) (w a v b : Flt K) : Flt K :=
  R double (R double (w * a) + R double (v * b))

namespace Arr

/-- `clf/Array.py:486-507` `lookup1DLinear`: the position is multiplied by a Python integer. -/
def lookup1DLinearR (R : Rounding K) (a : Arr K) (position : Flt K) (channel : ℕ) : Py (Flt K) := do
  let d0 ← pyGet a.dims 0
  match R double (position * .fin ((d0 : K) - 1)) with
  | .nan => pure .nan
  | .inf s => pure (.inf s)
  | .fin index =>
    let indexLow : ℤ := ⌊index⌋
    let indexHigh : ℤ := ⌈index⌉
    let interp := R double (.fin (index - indexLow))
    let value1 ← a.lookup1D indexLow channel
    let value2 ← a.lookup1D indexHigh channel
    pure (sum2R R (R double (.fin 1 - interp)) value1 interp value2)

/-- `clf/Array.py:362-465` `lookup1DHalfDomainInterpolated` of a table of format `t`: the difference
of line 406 is `float32`, the range of the halves `float16`, their ratio `float32`, `1-ratio`
`float64`. -/
def lookup1DHalfDomainInterpolatedR (R : Rounding K) (t : Fmt) (a : Arr K) (position : Flt K) (channel : ℕ) :
    Py (Flt K) := do
  let half1 := half.encode position
  let value1 : Flt K := half.decode half1
  match value1 with
  | .nan => a.lookup1D 31745 channel
  | .inf _ =>
    if Flt.lt position (.fin 0) then a.lookup1D 64512 channel
    else a.lookup1D 31744 channel
  | .fin _ =>
    let floatDifference := R single (position - value1)
    let negative := Flt.lt position (.fin 0)
    let offset : ℤ := if negative then -1 else 1
    let indexMin : ℤ := if negative then 32768 else 0
    let indexMax : ℤ := if negative then 64511 else 31743
    let half2 :=
      if Flt.le (.fin 0) floatDifference then clampCode indexMin indexMax (half1 + offset)
      else clampCode indexMin indexMax (half1 - offset)
    let halfRange : Flt K := R half (half.decode half2 - value1)
    let ratio : Flt K := if halfRange = .fin 0 then .fin 0 else R single (floatDifference / halfRange)
    let v1 ← a.lookup1D half1 channel
    let v2 ← a.lookup1D half2 channel
    pure (R double (R double (R double (.fin 1 - ratio) * v1) + R (t.wider single) (ratio * v2)))

end Arr

/-- `clf/Common.py:83-88` `mix`, the amount being a Python float. -/
def mixR (R : Rounding K) (value1 value2 : List (Flt K)) (mixAmount : Flt K) : Py (List (Flt K)) :=
  (List.range value1.length).mapM fun i => do
    let a ← pyGet value1 i
    let b ← pyGet value2 i
    pure (sum2R R (R double (.fin 1 - mixAmount)) a mixAmount b)

namespace Arr

/-- The shared prologue of `clf/Array.py:550-586` and `609-648`.  `math.modf` is exact. -/
def cornersR (R : Rounding K) (a : Arr K) (position : List (Flt K)) :
    Py ((K × K × K) × List (List (Flt K))) := do
  let position := position.map clamp01
  let d0 ← pyGet a.dims 0
  let pr ← pyGet position 0
  let d1 ← pyGet a.dims 1
  let pg ← pyGet position 1
  let d2 ← pyGet a.dims 2
  let pb ← pyGet position 2
  match R double (pr * .fin ((d0 : K) - 1)), R double (pg * .fin ((d1 : K) - 1)),
      R double (pb * .fin ((d2 : K) - 1)) with
  | .fin xr, .fin xg, .fin xb =>
    let (fr, r) := modf xr
    let (fg, g) := modf xg
    let (fb, b) := modf xb
    let c000 ← a.lookup3D r g b
    let c001 ← a.lookup3D r g (b + 1)
    let c010 ← a.lookup3D r (g + 1) b
    let c011 ← a.lookup3D r (g + 1) (b + 1)
    let c100 ← a.lookup3D (r + 1) g b
    let c101 ← a.lookup3D (r + 1) g (b + 1)
    let c110 ← a.lookup3D (r + 1) (g + 1) b
    let c111 ← a.lookup3D (r + 1) (g + 1) (b + 1)
    pure ((fr, fg, fb), [c000, c001, c010, c011, c100, c101, c110, c111])
  | _, _, _ => .error .valueError

/-- `clf/Array.py:550-601` `lookup3DTrilinear`. -/
def lookup3DTrilinearR (R : Rounding K) (a : Arr K) (position : List (Flt K)) : Py (List (Flt K)) := do
  let ((fr, fg, fb), c) ← a.cornersR R position
  match c with
  | [c0, c1, c2, c3, c4, c5, c6, c7] =>
    let e0 ← mixR R c0 c1 (.fin fb)
    let e2 ← mixR R c2 c3 (.fin fb)
    let e4 ← mixR R c4 c5 (.fin fb)
    let e6 ← mixR R c6 c7 (.fin fb)
    let g0 ← mixR R e0 e2 (.fin fg)
    let g4 ← mixR R e4 e6 (.fin fg)
    mixR R g0 g4 (.fin fr)
  | _ => .error .valueError

/-- One channel of a weighted sum of four corner colours (`clf/Array.py:671-774`). -/
def blend4R (R : Rounding K) (w0 w1 w2 w3 : Flt K) (a b c d : List (Flt K)) (ch : ℕ) : Py (Flt K) := do
  let a ← pyGet a ch
  let b ← pyGet b ch
  let c ← pyGet c ch
  let d ← pyGet d ch
  pure (R double (R double (sum2R R w0 a w1 b + R double (w2 * c)) + R double (w3 * d)))

/-- `clf/Array.py:609-776` `lookup3DTetrahedral`. -/
def lookup3DTetrahedralR (R : Rounding K) (a : Arr K) (position : List (Flt K)) : Py (List (Flt K)) := do
  let ((fx, fy, fz), c) ← a.cornersR R position
  let sub (x y : K) : Flt K := R double (.fin (x - y))
  match c with
  | [n000, n001, n010, n011, n100, n101, n110, n111] =>
    let pick : ℕ → Py (Flt K) :=
      if fx > fy then
        if fy > fz then blend4R R (sub 1 fx) (sub fx fy) (sub fy fz) (.fin fz) n000 n100 n110 n111
        else if fx > fz then blend4R R (sub 1 fx) (sub fx fz) (sub fz fy) (.fin fy) n000 n100 n101 n111
        else blend4R R (sub 1 fz) (sub fz fx) (sub fx fy) (.fin fy) n000 n001 n101 n111
      else
        if fz > fy then blend4R R (sub 1 fz) (sub fz fy) (sub fy fx) (.fin fx) n000 n001 n011 n111
        else if fz > fx then blend4R R (sub 1 fy) (sub fy fz) (sub fz fx) (.fin fx) n000 n010 n011 n111
        else blend4R R (sub 1 fy) (sub fy fx) (sub fx fz) (.fin fz) n000 n010 n110 n111
    let r ← pick 0
    let g ← pick 1
    let b ← pick 2
    pure [r, g, b]
  | _ => .error .valueError

end Arr

namespace IndexMap

/-- The search loop of `clf/IndexMap.py:117-126`; the knots are Python floats. -/
def searchR (R : Rounding K) (m : IndexMap K) (value : Flt K) : ℕ → ℕ → Py (Flt K)
  | _, 0 => .error .unboundLocal
  | i, n + 1 => do
    let hi ← pyGet m.inputs (i + 1)
    if Flt.le value hi then
      let lo ← pyGet m.inputs i
      let interp := R double (R double (value - lo) / R double (hi - lo))
      let outLow ← pyGet m.outputs i
      let outHigh ← pyGet m.outputs (i + 1)
      pure (R double (R double (interp * R double (outHigh - outLow)) + outLow))
    else searchR R m value (i + 1) n

/-- `clf/IndexMap.py:95-127` `_processRaw`. -/
def processR (R : Rounding K) (m : IndexMap K) (value : Flt K) : Py (Flt K) :=
  match value with
  | .nan => .ok .nan
  | .inf s => .ok (.inf s)
  | .fin _ => do
    let first ← pyGet m.inputs 0
    if Flt.le value first then pyGet m.outputs 0
    else
      let last ← pyIdx m.inputs (-1)
      if Flt.le last value then pyIdx m.outputs (-1)
      else m.searchR R value 0 m.inputs.length

end IndexMap

/-! ## Nodes -/

/-- One bound of a Range, normalised (`clf/Range.py:120-127`). -/
def rangeBoundR (R : Rounding K) (b : Base K) (key : String) (d : Depth) : Option (Flt K) :=
  (b.values.get? key).map fun v => R double (v / .fin (bitDepthSize d))

/-- The loop body of `clf/Range.py:149-178` for one value.  The bounds and the scale are Python
floats; every assignment stores a `float32`. -/
def rangeStepR (R : Rounding K) (inD outD : Depth) (clampOn : Bool)
    (minIn maxIn minOut maxOut : Option (Flt K)) (x : Flt K) : Py (Flt K) := do
  let x := R single (toUnitR R x inD)
  let x ← match minIn, maxIn, minOut, maxOut with
    | some minIn, some maxIn, some minOut, some maxOut => do
      let scale ← pyDivF (R double (maxOut - minOut)) (R double (maxIn - minIn))
      let scale := R double scale
      let x := R single (R double (R double (R double (x * scale) + minOut) - R double (minIn * scale)))
      pure (if clampOn then R single (Flt.pmin maxOut (Flt.pmax minOut x)) else x)
    | some minIn, _, some minOut, _ =>
      let x := R single (R double (R double (x + minOut) - minIn))
      pure (if clampOn then R single (Flt.pmax minOut x) else x)
    | _, some maxIn, _, some maxOut =>
      let x := R single (R double (R double (x + maxOut) - maxIn))
      pure (if clampOn then R single (Flt.pmin maxOut x) else x)
    | _, _, _, _ => pure x
  pure (R single (fromUnitR R x outD))

/-- `clf/Range.py:101-180` `process`. -/
def rangeProcessR (R : Rounding K) (b : Base K) (values : List (Flt K)) : Py (Res K) := do
  let inD ← b.attrE "inBitDepth"
  let outD ← b.attrE "outBitDepth"
  let clampOn : Bool := match b.attrs.get? "style" with
    | some s => s = .str "clamp"
    | none => true
  let minIn := rangeBoundR R b "minInValue" inD
  let maxIn := rangeBoundR R b "maxInValue" inD
  let minOut := rangeBoundR R b "minOutValue" outD
  let maxOut := rangeBoundR R b "maxOutValue" outD
  let dflt (o : Option (Flt K)) (v : K) : Option (Flt K) :=
    if (b.attrs.get? "defaultRange").isSome && o.isNone then some (.fin v) else o
  let out ← chanLoop values.length
    (fun _ => rangeStepR R inD outD clampOn (dflt minIn 0) (dflt maxIn 1) (dflt minOut 0)
      (dflt maxOut 1)) values
  pure ⟨out, out, true⟩

/-- One output row of `clf/Matrix.py:118-127`: the entries have format `t`, values and sums are
`float32`. -/
def matrixRowR (R : Rounding K) (t : Fmt) (d0 d1 : ℕ) (m value : List (Flt K)) (i : ℕ) : Py (Flt K) := do
  let offset := i * d1
  let acc ← (List.range d0).foldlM (init := Flt.fin 0) fun acc j => do
    let c ← pyGet m (j + offset)
    let v ← pyGet value j
    pure (R single (R (t.wider single) (acc + R (t.wider single) (c * v))))
  if d1 = d0 + 1 then do
    let c ← pyGet m (offset + d1 - 1)
    pure (R single (R (t.wider single) (acc + c)))
  else pure acc

/-- `clf/Matrix.py:92-139` `process`. -/
def matrixProcessR (R : Rounding K) (t : Fmt) (b : Base K) (values : List (Flt K)) (stride : ℕ) :
    Py (Res K) := do
  let _ ← b.attrE "inBitDepth"
  let _ ← b.attrE "outBitDepth"
  let a ← b.array
  pixelLoop stride values fun _ value => do
    let d0 ← pyGet a.dims 0
    let rows ← (List.range (min d0 value.length)).mapM fun i => do
      let d1 ← pyGet a.dims 1
      matrixRowR R t d0 d1 a.values value i
    pure (value, rows ++ value.drop (min d0 value.length))

/-- Normalisation of one channel before a lookup (`clf/LUT1D.py:172-185`, `clf/LUT3D.py:159-172`). -/
def lutNormalizeR (R : Rounding K) (maps : List (IndexMap K)) (inD : Depth) (dim : Py ℕ)
    (i : ℕ) (x : Flt K) : Py (Flt K) :=
  if 1 < maps.length then do
    let m ← pyGet maps i
    let y ← m.processR R x
    let d ← dim
    pure (R single (R double (R single y / .fin ((d : K) - 1))))
  else if 0 < maps.length then do
    let m ← pyGet maps 0
    let y ← m.processR R x
    let d ← dim
    pure (R single (R double (R single y / .fin ((d : K) - 1))))
  else pure (R single (toUnitR R x inD))

/-- `clf/LUT1D.py:139-214` `process`. -/
def lut1dProcessR (R : Rounding K) (t : Fmt) (b : Base K) (values : List (Flt K)) (stride : ℕ) :
    Py (Res K) := do
  let inD ← b.attrE "inBitDepth"
  let _ ← b.attrE "outBitDepth"
  let interpolation := b.styleOf "interpolation"
  let halfDomain := b.flag "halfDomain"
  let a ← b.array
  viewLoop stride values fun px =>
    chanLoop (min 3 px.length) (fun i x => do
      let x ← lutNormalizeR R b.indexMaps inD (pyGet a.dims 0) i x
      let y ←
        if interpolation = .str "cubic" then a.lookup1DCubic x i
        else if halfDomain then a.lookup1DHalfDomainInterpolatedR R t x i
        else a.lookup1DLinearR R x i
      pure (R single y)) px

/-- `outValue[0:3] = new` (`clf/LUT3D.py:177, 181`). -/
def assign3R (R : Rounding K) (px new : List (Flt K)) : Py (List (Flt K)) :=
  match new with
  | [r, g, b] => .ok ([R single r, R single g, R single b] ++ px.drop 3)
  | [x] => .ok ([R single x, R single x, R single x] ++ px.drop 3)
  | _ => .error .valueError

/-- `clf/LUT3D.py:130-196` `process`. -/
def lut3dProcessR (R : Rounding K) (b : Base K) (values : List (Flt K)) (stride : ℕ) :
    Py (Res K) := do
  let inD ← b.attrE "inBitDepth"
  let _ ← b.attrE "outBitDepth"
  let interpolation := b.styleOf "interpolation"
  let a ← b.array
  viewLoop stride values fun px => do
    let px ← chanLoop (min 3 px.length)
      (fun i x => lutNormalizeR R b.indexMaps inD (pyGet a.dims i) i x) px
    if interpolation = .str "trilinear" then do
      let c ← a.lookup3DTrilinearR R px
      assign3R R px c
    else if interpolation = .str "tetrahedral" then do
      let c ← a.lookup3DTetrahedralR R px
      assign3R R px c
    else pure px

end CLF
