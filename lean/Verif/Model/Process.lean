import Verif.Model.Node

/-!
# Node `process` methods

`process` is modelled on a `float32` numpy array, which is what `ProcessList`
always passes (`clf/ProcessList.py:346`): slices are views, so writing to
`outValue` writes to the argument array.  Every store into an array goes through
`A.f32`.
-/

namespace CLF

variable {K : Type} [Field K] [LinearOrder K] [IsStrictOrderedRing K] [FloorRing K]

/-- What a call of `process` leaves behind: the returned array, the final
contents of the argument array, and whether the returned array *is* the argument
array. -/
structure Res (K : Type) where
  out : List (Flt K)
  arg : List (Flt K)
  same : Bool

/-- A loop `for i in range(n): outValue[i] = f(i, outValue[i])` over the first
channels of a pixel. -/
def chanLoop (n : ℕ) (f : ℕ → Flt K → Py (Flt K)) (px : List (Flt K)) : Py (List (Flt K)) :=
  (List.range n).foldlM (init := px) fun px i => do
    let x ← pyGet px i
    let y ← f i x
    pySet px i y

/-- The pixel loop shared by the node classes (e.g. `clf/LUT1D.py:160-213`): a zero
stride means one pixel; each pixel is the slice `values[p*stride:(p+1)*stride]`;
`body` gets the whole argument array and the slice, and returns the slice's new
contents in the argument array and in the result array.  Left-over values at the
end stay `0.0` in the result. -/
def pixelLoop (stride : ℕ) (values : List (Flt K))
    (body : List (Flt K) → List (Flt K) → Py (List (Flt K) × List (Flt K))) : Py (Res K) := do
  let stride := if stride = 0 then values.length else stride
  let n ← pyDivNat values.length stride
  let init := (values, List.replicate values.length (Flt.fin (0 : K)))
  let (vals, out) ← (List.range n).foldlM (init := init) fun (vals, out) p => do
    let (v, o) ← body vals (pySlice vals (p * stride) ((p + 1) * stride))
    pure (pySplice vals (p * stride) v, pySplice out (p * stride) o)
  pure ⟨out, vals, false⟩

/-- A pixel loop whose `outValue` is a view of the argument array
(`clf/LUT1D.py:169`), so both arrays get the same contents. -/
def viewLoop (stride : ℕ) (values : List (Flt K))
    (body : List (Flt K) → Py (List (Flt K))) : Py (Res K) :=
  pixelLoop stride values fun _ px => do
    let o ← body px
    pure (o, o)

/-! ## Range -/

/-- One bound of a Range, normalised (`clf/Range.py:120-127`). -/
def rangeBound (b : Base K) (key : String) (d : Depth) : Option (Flt K) :=
  (b.values.get? key).map fun v => v / .fin (bitDepthSize d)

/-- The loop body of `clf/Range.py:149-178` for one value. -/
def rangeStep (A : Arith K) (inD outD : Depth) (clampOn : Bool)
    (minIn maxIn minOut maxOut : Option (Flt K)) (x : Flt K) : Py (Flt K) := do
  let x := A.f32 (bitDepthToNormalized x inD)
  let x ← match minIn, maxIn, minOut, maxOut with
    | some minIn, some maxIn, some minOut, some maxOut => do
      let scale ← pyDivF (maxOut - minOut) (maxIn - minIn)
      let x := A.f32 (x * scale + minOut - minIn * scale)
      pure (if clampOn then A.f32 (Flt.pmin maxOut (Flt.pmax minOut x)) else x)
    | some minIn, _, some minOut, _ =>
      let x := A.f32 (x + minOut - minIn)
      pure (if clampOn then A.f32 (Flt.pmax minOut x) else x)
    | _, some maxIn, _, some maxOut =>
      let x := A.f32 (x + maxOut - maxIn)
      pure (if clampOn then A.f32 (Flt.pmin maxOut x) else x)
    | _, _, _, _ => pure x
  pure (A.f32 (normalizedToBitDepth x outD))

/-- `clf/Range.py:101-180` `process`; the returned array is the argument. -/
def rangeProcess (A : Arith K) (b : Base K) (values : List (Flt K)) : Py (Res K) := do
  let inD ← b.attrE "inBitDepth"
  let outD ← b.attrE "outBitDepth"
  let clampOn : Bool := match b.attrs.get? "style" with
    | some s => s = .str "clamp"
    | none => true
  let minIn := rangeBound b "minInValue" inD
  let maxIn := rangeBound b "maxInValue" inD
  let minOut := rangeBound b "minOutValue" outD
  let maxOut := rangeBound b "maxOutValue" outD
  let dflt (o : Option (Flt K)) (v : K) : Option (Flt K) :=
    if (b.attrs.get? "defaultRange").isSome && o.isNone then some (.fin v) else o
  let out ← chanLoop values.length
    (fun _ => rangeStep A inD outD clampOn (dflt minIn 0) (dflt maxIn 1) (dflt minOut 0)
      (dflt maxOut 1)) values
  pure ⟨out, out, true⟩

/-! ## Matrix -/

/-- One output row of `clf/Matrix.py:118-127`. -/
def matrixRow (A : Arith K) (d0 d1 : ℕ) (m value : List (Flt K)) (i : ℕ) : Py (Flt K) := do
  let offset := i * d1
  let acc ← (List.range d0).foldlM (init := Flt.fin 0) fun acc j => do
    let c ← pyGet m (j + offset)
    let v ← pyGet value j
    pure (A.f32 (acc + c * v))
  if d1 = d0 + 1 then do
    let c ← pyGet m (offset + d1 - 1)
    pure (A.f32 (acc + c))
  else pure acc

/-- `clf/Matrix.py:92-139` `process`.  The bit depths are fetched but not used. -/
def matrixProcess (A : Arith K) (b : Base K) (values : List (Flt K)) (stride : ℕ) :
    Py (Res K) := do
  let _ ← b.attrE "inBitDepth"
  let _ ← b.attrE "outBitDepth"
  let a ← b.array
  pixelLoop stride values fun _ value => do
    let d0 ← pyGet a.dims 0
    let rows ← (List.range (min d0 value.length)).mapM fun i => do
      let d1 ← pyGet a.dims 1
      matrixRow A d0 d1 a.values value i
    pure (value, rows ++ value.drop (min d0 value.length))

/-! ## LUTs -/

/-- Normalisation of one channel before a lookup: index map then division, or bit
depth (`clf/LUT1D.py:172-185`, `clf/LUT3D.py:159-172`).  `dim` is the dimension
the result is divided by. -/
def lutNormalize (A : Arith K) (maps : List (IndexMap K)) (inD : Depth) (dim : Py ℕ)
    (i : ℕ) (x : Flt K) : Py (Flt K) :=
  if 1 < maps.length then do
    let m ← pyGet maps i
    let y ← m.process x
    let d ← dim
    pure (A.f32 (A.f32 y / .fin ((d : K) - 1)))
  else if 0 < maps.length then do
    let m ← pyGet maps 0
    let y ← m.process x
    let d ← dim
    pure (A.f32 (A.f32 y / .fin ((d : K) - 1)))
  else pure (A.f32 (bitDepthToNormalized x inD))

/-- `clf/LUT1D.py:139-214` `process`. -/
def lut1dProcess (A : Arith K) (b : Base K) (values : List (Flt K)) (stride : ℕ) :
    Py (Res K) := do
  let inD ← b.attrE "inBitDepth"
  let _ ← b.attrE "outBitDepth"
  let interpolation := b.styleOf "interpolation"
  let halfDomain := b.flag "halfDomain"
  let a ← b.array
  viewLoop stride values fun px =>
    chanLoop (min 3 px.length) (fun i x => do
      let x ← lutNormalize A b.indexMaps inD (pyGet a.dims 0) i x
      let y ←
        if interpolation = .str "cubic" then a.lookup1DCubic x i
        else if halfDomain then a.lookup1DHalfDomain x i
        else a.lookup1DLinear x i
      pure (A.f32 y)) px

/-- `outValue[0:3] = new` on a numpy pixel of at least three channels
(`clf/LUT3D.py:177, 181`): three values are stored, one value is broadcast, any
other length is a `ValueError`. -/
def assign3 (A : Arith K) (px new : List (Flt K)) : Py (List (Flt K)) :=
  match new with
  | [r, g, b] => .ok ([A.f32 r, A.f32 g, A.f32 b] ++ px.drop 3)
  | [x] => .ok ([A.f32 x, A.f32 x, A.f32 x] ++ px.drop 3)
  | _ => .error .valueError

/-- `clf/LUT3D.py:130-196` `process`. -/
def lut3dProcess (A : Arith K) (b : Base K) (values : List (Flt K)) (stride : ℕ) :
    Py (Res K) := do
  let inD ← b.attrE "inBitDepth"
  let _ ← b.attrE "outBitDepth"
  let interpolation := b.styleOf "interpolation"
  let a ← b.array
  viewLoop stride values fun px => do
    let px ← chanLoop (min 3 px.length)
      (fun i x => lutNormalize A b.indexMaps inD (pyGet a.dims i) i x) px
    if interpolation = .str "trilinear" then do
      let c ← a.lookup3DTrilinear px
      assign3 A px c
    else if interpolation = .str "tetrahedral" then do
      let c ← a.lookup3DTetrahedral px
      assign3 A px c
    else pure px

/-! ## ASC CDL -/

/-- The CDL parameters with their defaults (`clf/ASCCDL.py:146-158`). -/
structure Cdl (K : Type) where
  slope : List (Flt K)
  offset : List (Flt K)
  power : List (Flt K)
  saturation : Flt K

/-- `clf/ASCCDL.py:146-158`. -/
def CdlValues.resolve (v : CdlValues K) : Cdl K where
  slope := v.slope.getD [.fin 1, .fin 1, .fin 1]
  offset := v.offset.getD [.fin 0, .fin 0, .fin 0]
  power := v.power.getD [.fin 1, .fin 1, .fin 1]
  saturation := v.saturation.getD (.fin 1)

/-- Rec. 709 luma (`clf/ASCCDL.py:180, 194, 204, 216`). -/
def luma (px : List (Flt K)) : Py (Flt K) := do
  let r ← pyGet px 0
  let g ← pyGet px 1
  let b ← pyGet px 2
  pure (.fin (2126 / 10000) * r + .fin (7152 / 10000) * g + .fin (722 / 10000) * b)

/-- Quotient of `clf/ASCCDL.py:208, 223`: the numerator is a numpy float when the
clamped value was strictly inside (0, 1), otherwise a Python float, for which a
zero divisor raises. -/
def cdlDiv (outSat a b : Flt K) : Py (Flt K) :=
  if Flt.lt (.fin 0) outSat && Flt.lt outSat (.fin 1) then .ok (a / b) else pyDivF a b

/-- `clf/ASCCDL.py:175-183` styles `Fwd`, `v1.2_Fwd`. -/
def cdlFwd (A : Arith K) (c : Cdl K) (inD outD : Depth) (px : List (Flt K)) :
    Py (List (Flt K)) := do
  let px ← chanLoop 3 (fun i x => do
    let x := A.f32 (bitDepthToNormalized x inD)
    let s ← pyGet c.slope i
    let o ← pyGet c.offset i
    let p ← pyGet c.power i
    let y ← pyPow A (clamp01 (x * s + o)) p
    pure (A.f32 y)) px
  let l ← luma px
  chanLoop 3 (fun _ x => do
    let x := A.f32 (clamp01 (l + c.saturation * (x - l)))
    pure (A.f32 (normalizedToBitDepth x outD))) px

/-- `clf/ASCCDL.py:185-197` styles `FwdNoClamp`, `noClampFwd`. -/
def cdlFwdNoClamp (A : Arith K) (c : Cdl K) (inD outD : Depth) (px : List (Flt K)) :
    Py (List (Flt K)) := do
  let px ← chanLoop 3 (fun i x => do
    let x := A.f32 (bitDepthToNormalized x inD)
    let s ← pyGet c.slope i
    let o ← pyGet c.offset i
    let tmp := x * s + o
    if Flt.lt tmp (.fin 0) then pure (A.f32 tmp)
    else do
      let p ← pyGet c.power i
      pure (A.f32 (A.pow tmp p))) px
  let l ← luma px
  chanLoop 3 (fun _ x => do
    let x := A.f32 (l + c.saturation * (x - l))
    pure (A.f32 (normalizedToBitDepth x outD))) px

/-- `clf/ASCCDL.py:199-210` styles `Rev`, `v1.2_Rev`. -/
def cdlRev (A : Arith K) (c : Cdl K) (inD outD : Depth) (px : List (Flt K)) :
    Py (List (Flt K)) := do
  let px ← chanLoop 3 (fun _ x =>
    pure (A.f32 (clamp01 (A.f32 (bitDepthToNormalized x inD))))) px
  let l ← luma px
  chanLoop 3 (fun i x => do
    let isat ← pyDivF (.fin 1) c.saturation
    let outSat := l + isat * (x - l)
    let p ← pyGet c.power i
    let ip ← pyDivF (.fin 1) p
    let w ← pyPow A (clamp01 outSat) ip
    let o ← pyGet c.offset i
    let s ← pyGet c.slope i
    let q ← cdlDiv outSat (w - o) s
    let x := A.f32 (clamp01 (A.f32 q))
    pure (A.f32 (normalizedToBitDepth x outD))) px

/-- `clf/ASCCDL.py:212-224` styles `RevNoClamp`, `noClampRev` (which clamp
`outSat` all the same). -/
def cdlRevNoClamp (A : Arith K) (c : Cdl K) (inD outD : Depth) (px : List (Flt K)) :
    Py (List (Flt K)) := do
  let px ← chanLoop 3 (fun _ x => pure (A.f32 (bitDepthToNormalized x inD))) px
  let l ← luma px
  chanLoop 3 (fun i x => do
    let isat ← pyDivF (.fin 1) c.saturation
    let outSat := l + isat * (x - l)
    let q ←
      if Flt.lt outSat (.fin 0) then do
        let o ← pyGet c.offset i
        let s ← pyGet c.slope i
        cdlDiv outSat (clamp01 outSat - o) s
      else do
        let p ← pyGet c.power i
        let ip ← pyDivF (.fin 1) p
        let w ← pyPow A (clamp01 outSat) ip
        let o ← pyGet c.offset i
        let s ← pyGet c.slope i
        cdlDiv outSat (w - o) s
    pure (A.f32 (normalizedToBitDepth (A.f32 q) outD))) px

/-- `clf/ASCCDL.py:141`: the Autodesk-only style keywords. -/
def cdlVendorStyles : List AVal :=
  [.str "v1.2_Fwd", .str "noClampFwd", .str "v1.2_Rev", .str "noClampRev"]

/-- The style dispatch of `clf/ASCCDL.py:175-224`; any other style leaves the
pixel alone. -/
def cdlPixel (A : Arith K) (style : AVal) (c : Cdl K) (inD outD : Depth)
    (px : List (Flt K)) : Py (List (Flt K)) :=
  if style = .str "Fwd" ∨ style = .str "v1.2_Fwd" then cdlFwd A c inD outD px
  else if style = .str "FwdNoClamp" ∨ style = .str "noClampFwd" then
    cdlFwdNoClamp A c inD outD px
  else if style = .str "Rev" ∨ style = .str "v1.2_Rev" then cdlRev A c inD outD px
  else if style = .str "RevNoClamp" ∨ style = .str "noClampRev" then
    cdlRevNoClamp A c inD outD px
  else .ok px

/-- `clf/ASCCDL.py:123-234` `process`. -/
def cdlProcess (A : Arith K) (compat : ℕ) (v : CdlValues K) (b : Base K)
    (values : List (Flt K)) (stride : ℕ) : Py (Res K) := do
  let stride := if stride = 0 then values.length else stride
  if stride < 3 then pure ⟨values, values, true⟩
  else do
    let inD ← b.attrE "inBitDepth"
    let outD ← b.attrE "outBitDepth"
    let style := b.styleOf "style"
    if !hasFeature compat autodesk && cdlVendorStyles.contains style then
      .error .unsupportedExtension
    else viewLoop stride values (cdlPixel A style v.resolve inD outD)

/-! ## ExposureContrast -/

/-- The first three channels under `clf/ExtensionExposureContrast.py:139-162`.
`video` calls `pow` with one argument (`TypeError`), `log` uses the name `math`
which the module does not import (`NameError`); both only once a pixel with a
first channel exists. -/
def ecChannels (A : Arith K) (style : AVal) (exposure contrast pivot : Flt K)
    (inD outD : Depth) (px : List (Flt K)) : Py (List (Flt K)) :=
  if style = .str "linear" then
    chanLoop 3 (fun _ x => do
      let x := A.f32 (bitDepthToNormalized x inD)
      let g ← pyPow A (.fin 2) exposure
      let w ← pyPow A (Flt.pmax (.fin 0) (g * x / pivot)) contrast
      let x := A.f32 (pivot * w)
      pure (A.f32 (normalizedToBitDepth x outD))) px
  else if style = .str "video" then
    chanLoop 3 (fun _ _ => do
      let _ ← pyPow A pivot (.fin (100 / 183))
      let g ← pyPow A (.fin 2) exposure
      let _ ← pyDivF g pivot
      .error .typeError) px
  else if style = .str "log" then
    chanLoop 3 (fun _ _ => .error .nameError) px
  else .ok px

/-- `clf/ExtensionExposureContrast.py:103-172` `process`.  The extra channels are
read from the start of the whole array (line 166 says `values[i]`, not
`value[i]`). -/
def ecProcess (A : Arith K) (exposure contrast pivot : Flt K) (b : Base K)
    (values : List (Flt K)) (stride : ℕ) : Py (Res K) := do
  let inD ← b.attrE "inBitDepth"
  let outD ← b.attrE "outBitDepth"
  let style := b.styleOf "style"
  pixelLoop stride values fun vals px => do
    let px' ← ecChannels A style exposure contrast pivot inD outD px
    let o := px'.take 3 ++ pySlice vals (min 3 px.length) px.length
    pure (o, o)

/-! ## Gamma -/

/-- `clf/ExtensionGamma.py:119`, `clf/ExtensionLog.py:132`: channel letters. -/
def channelIndex (c : String) : Py ℕ :=
  if c = "R" then .ok 0 else if c = "G" then .ok 1 else if c = "B" then .ok 2
  else .error .keyError

/-- `clf/ExtensionGamma.py:115-127`: the parameter rows folded into per-channel
`(gamma, offset)`. -/
def gammaParams (ps : List (GammaParam K)) : Py (List (Flt K × Flt K)) :=
  ps.foldlM (init := List.replicate 3 (.fin 1, .fin 0)) fun acc p =>
    match p.channel with
    | none => .ok (List.replicate 3 (p.gamma, p.offset))
    | some c => do
      let i ← channelIndex c
      pySet acc i (p.gamma, p.offset)

/-- `clf/ExtensionGamma.py:148` on a normalised value. -/
def gammaBasicFwd (A : Arith K) (g : Flt K) (x : Flt K) : Py (Flt K) :=
  pyPow A (Flt.pmax (.fin 0) x) g

/-- `clf/ExtensionGamma.py:154`.  `1/gamma` is float division here; an integer
`gamma` passed to `setGamma` would make it an integer division (not modelled). -/
def gammaBasicRev (A : Arith K) (g : Flt K) (x : Flt K) : Py (Flt K) := do
  let ig ← pyDivF (.fin 1) g
  pyPow A (Flt.pmax (.fin 0) x) ig

/-- `clf/ExtensionGamma.py:161-165`. -/
def moncurveFwd (A : Arith K) (g o : Flt K) (x : Flt K) : Py (Flt K) := do
  let pivot ← pyDivF o (g - .fin 1)
  if Flt.le x pivot then do
    let a ← pyDivF (g - .fin 1) o
    let q ← pyDivF (g * o) ((g - .fin 1) * (o + .fin 1))
    let w ← pyPow A q g
    pure (a * w * x)
  else
    pyPow A (Flt.pmax (.fin 0) ((x + o) / (o + .fin 1))) g

/-- `clf/ExtensionGamma.py:173-177`; the first line computes a pivot that the
comparison on the next line does not use. -/
def moncurveRev (A : Arith K) (g o : Flt K) (x : Flt K) : Py (Flt K) := do
  let q ← pyDivF (g * o) ((g - .fin 1) * (o + .fin 1))
  let _pivot ← pyPow A q g
  let threshold ← pyDivF o (g - .fin 1)
  if Flt.le x threshold then do
    let a ← pyDivF (g - .fin 1) o
    let wa ← pyPow A a (g - .fin 1)
    let c ← pyDivF (.fin 1 + o) g
    let wc ← pyPow A c g
    pure (wa * wc * x)
  else do
    let ig ← pyDivF (.fin 1) g
    let w ← pyPow A (Flt.pmax (.fin 0) x) ig
    pure (w * (.fin 1 + o) - o)

/-- The four named styles, as functions of a normalised value
(`clf/ExtensionGamma.py:145-179`). -/
def gammaStyle (A : Arith K) (style : AVal) : Option (Flt K → Flt K → Flt K → Py (Flt K)) :=
  if style = .str "basicFwd" then some fun g _ x => gammaBasicFwd A g x
  else if style = .str "basicRev" then some fun g _ x => gammaBasicRev A g x
  else if style = .str "moncurveFwd" then some (moncurveFwd A)
  else if style = .str "moncurveRev" then some (moncurveRev A)
  else none

/-- `clf/ExtensionGamma.py:105-189` `process`; an unknown style leaves the pixels
alone. -/
def gammaProcess (A : Arith K) (ps : List (GammaParam K)) (b : Base K)
    (values : List (Flt K)) (stride : ℕ) : Py (Res K) := do
  let inD ← b.attrE "inBitDepth"
  let outD ← b.attrE "outBitDepth"
  let params ← gammaParams ps
  viewLoop stride values fun px =>
    match gammaStyle A (b.styleOf "style") with
    | none => .ok px
    | some f => chanLoop 3 (fun i x => do
        let (g, o) ← pyGet params i
        let x := A.f32 (bitDepthToNormalized x inD)
        let y ← f g o x
        pure (A.f32 (normalizedToBitDepth (A.f32 y) outD))) px

/-! ## Log -/

/-- `clf/ExtensionLog.py:125-146`: the parameter rows folded into per-channel
`(gamma, refWhite, refBlack, highlight, shadow)`. -/
def logParams (ps : List (LogParam K)) : Py (List (LogParam K)) :=
  let dflt : LogParam K := ⟨.fin (6 / 10), .fin 685, .fin 95, .fin 1, .fin 0, none⟩
  ps.foldlM (init := List.replicate 3 dflt) fun acc p =>
    match p.channel with
    | none => .ok (List.replicate 3 p)
    | some c => do
      let i ← channelIndex c
      pySet acc i p

/-- `FLOAT_MIN` (`clf/ExtensionLog.py:156`). -/
def floatMin : Flt K := .fin (11754943508222875 / 10 ^ 16 / 10 ^ 38)

/-- `clf/ExtensionLog.py:203-204, 215-216`: linear reference black and gain. -/
def logGain (A : Arith K) (p : LogParam K) : Py (Flt K × Flt K) := do
  let e ← pyDivF ((p.refBlack - p.refWhite) * .fin (2 / 1000)) p.gamma
  let lrb ← pyPow A (.fin 10) (Flt.pmin (.fin (-1 / 100000)) e)
  let gain ← pyDivF (p.highlight - p.shadow) (.fin 1 - lrb)
  pure (lrb, gain)

/-- `clf/ExtensionLog.py:203-209` on a normalised value. -/
def logToLin (A : Arith K) (p : LogParam K) (x : Flt K) : Py (Flt K) := do
  let (lrb, gain) ← logGain A p
  let rel := A.pow (.fin 10) ((.fin 1023 * x - p.refWhite) * .fin (2 / 1000) / p.gamma)
  pure ((rel - lrb) * gain + p.shadow)

/-- `clf/ExtensionLog.py:215-221` on a normalised value. -/
def linToLog (A : Arith K) (p : LogParam K) (x : Flt K) : Py (Flt K) := do
  let (lrb, gain) ← logGain A p
  let rel := lrb + (x - p.shadow) / gain
  pure ((p.refWhite + A.log10 (Flt.pmax floatMin rel) * p.gamma / .fin (2 / 1000)) / .fin 1023)

/-- The six named styles, as functions of a normalised value
(`clf/ExtensionLog.py:169-223`). -/
def logStyle (A : Arith K) (style : AVal) : Option (LogParam K → Flt K → Py (Flt K)) :=
  if style = .str "log10" then some fun _ x => pure (A.log10 (Flt.pmax x floatMin))
  else if style = .str "log2" then
    some fun _ x => pure (A.log10 (Flt.pmax x floatMin) / A.log10 (.fin 2))
  else if style = .str "antiLog10" then some fun _ x => pure (A.pow (.fin 10) x)
  else if style = .str "antiLog2" then some fun _ x => pure (A.pow (.fin 2) x)
  else if style = .str "logToLin" then some (logToLin A)
  else if style = .str "linToLog" then some (linToLog A)
  else none

/-- `clf/ExtensionLog.py:115-233` `process`; an unknown style leaves the pixels
alone.  (Its `stride` argument has no default; `ProcessList` and `Group` always
pass one.) -/
def logProcess (A : Arith K) (ps : List (LogParam K)) (b : Base K)
    (values : List (Flt K)) (stride : ℕ) : Py (Res K) := do
  let inD ← b.attrE "inBitDepth"
  let outD ← b.attrE "outBitDepth"
  let params ← logParams ps
  viewLoop stride values fun px =>
    match logStyle A (b.styleOf "style") with
    | none => .ok px
    | some f => chanLoop 3 (fun i x => do
        let p ← pyGet params i
        let x := A.f32 (bitDepthToNormalized x inD)
        let y ← f p x
        pure (A.f32 (normalizedToBitDepth (A.f32 y) outD))) px

/-- `process` of a node that holds no other nodes.  The base class returns the
undefined name `value` (`clf/ProcessNode.py:306-309`). -/
def leafProcess (A : Arith K) (compat : ℕ) (k : Kind K) (b : Base K)
    (values : List (Flt K)) (stride : ℕ) : Py (Res K) :=
  match k with
  | .range => rangeProcess A b values
  | .matrix => matrixProcess A b values stride
  | .lut1d => lut1dProcess A b values stride
  | .lut3d => lut3dProcess A b values stride
  | .cdl _ v => cdlProcess A compat v b values stride
  | .exposureContrast e c p => ecProcess A e c p b values stride
  | .gamma ps => gammaProcess A ps b values stride
  | .log ps => logProcess A ps b values stride
  | .plain => .error .nameError

/-! ## Lists of nodes -/

/-- The Range the code builds to bridge a bypassed node
(`clf/ProcessList.py:388`, `clf/ExtensionGroup.py:147`). -/
def adapterBase (inD outD : Depth) : Base K where
  attrs :=
    (match inD with | some v => [("inBitDepth", v)] | none => [("inBitDepth", AVal.other "None")]) ++
    (match outD with | some v => [("outBitDepth", v)] | none => [("outBitDepth", AVal.other "None")]) ++
    [("id", .str "adapter"), ("name", .str "adapter"), ("style", .str "noClamp")]

/-- Running state of a list: current result, contents of the argument array, and
whether the result still is the argument array. -/
abbrev Res.step (s : Res K) (r : Res K) : Res K :=
  ⟨r.out, if s.same then r.arg else s.arg, s.same && r.same⟩

mutual

/-- `node.process(values, stride)`.  A reference runs the list it resolved to,
which copies its argument first; an unresolved one returns its argument
(`clf/ExtensionReference.py:134-144`).  A group runs its children on the argument
itself (`clf/ExtensionGroup.py:117-156`). -/
def Node.process (A : Arith K) (compat : ℕ) (stride : ℕ) :
    Node K → List (Flt K) → Py (Res K)
  | .leaf k b, values => leafProcess A compat k b values stride
  | .group _ cs, values => runNodes A compat stride true none cs ⟨values, values, true⟩
  | .ref _ _ ns, values => do
    let copy := values.map A.f32
    let r ← runNodes A compat stride false none ns ⟨copy, copy, true⟩
    pure ⟨r.out, values, false⟩
  | .refMissing _ _, values => .ok ⟨values, values, true⟩

/-- The node loop of `clf/ProcessList.py:352-394` (`inGroup = false`) and
`clf/ExtensionGroup.py:121-153` (`inGroup = true`, which honours `bypass` under
every feature set).  `prev` is the previous node's output depth (`none` before
the first node). -/
def runNodes (A : Arith K) (compat : ℕ) (stride : ℕ) (inGroup : Bool) (prev : Option Depth) :
    List (Node K) → Res K → Py (Res K)
  | [], s => .ok s
  | n :: rest, s => do
    let s' ←
      if (n.attr "bypass").isNone || (!inGroup && !hasFeature compat autodesk) then do
        let r ← n.process A compat stride s.out
        pure (s.step r)
      else
        match prev, rest with
        | some inD, next :: _ =>
          if inD ≠ next.inDepth then do
            let r ← rangeProcess A (adapterBase inD next.inDepth) s.out
            pure (s.step r)
          else pure s
        | _, _ => pure s
    runNodes A compat stride inGroup (some n.outDepth) rest s'

end

/-- `clf/ProcessList.py:344-397` `process`: the values are copied into a fresh
`float32` array, then run through the nodes. -/
def processList (A : Arith K) (compat : ℕ) (ns : List (Node K)) (values : List (Flt K))
    (stride : ℕ) : Py (List (Flt K)) := do
  let copy := values.map A.f32
  let r ← runNodes A compat stride false none ns ⟨copy, copy, true⟩
  pure r.out

end CLF
