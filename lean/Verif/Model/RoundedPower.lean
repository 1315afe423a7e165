import Verif.Model.Rounded

/-!
# CDL, ExposureContrast, Gamma and Log nodes with every operation rounded

Source: `/repo/python/aces/clf/ASCCDL.py`, `clf/ExtensionExposureContrast.py`, `clf/ExtensionGamma.py`, `clf/ExtensionLog.py`.

The functions of `Model/Process.lean` again, as in `Model/Rounded.lean`: parameters and literals are Python floats, so that every
operation below is done in `float64`; every assignment to `outValue[i]` stores a `float32`.  Powers and logarithms are what the C
library computes, `L.pow` and `L.log10`; nothing is assumed here on how close they are to the exact ones.
-/

namespace CLF

variable {K : Type} [Field K] [LinearOrder K] [IsStrictOrderedRing K] [FloorRing K]

/-- A decimal literal in the source: a Python float. -/
def literalR (R : Rounding K) (x : K) : Flt K := R double (.fin x)

/-! ## ASC CDL -/

/-- `clf/ASCCDL.py:180, 194, 204, 216`. -/
def lumaR (R : Rounding K) (px : List (Flt K)) : Py (Flt K) := do
  let r ← pyGet px 0
  let g ← pyGet px 1
  let b ← pyGet px 2
  pure (R double (R double (R double (literalR R (2126 / 10000) * r) + R double (literalR R (7152 / 10000) * g))
    + R double (literalR R (722 / 10000) * b)))

/-- `luma + saturation * (outValue[i] - luma)` (`clf/ASCCDL.py:182, 196, 207, 219`). -/
def saturateR (R : Rounding K) (l s x : Flt K) : Flt K := R double (l + R double (s * R double (x - l)))

/-- `clf/ASCCDL.py:175-183` styles `Fwd`, `v1.2_Fwd`. -/
def cdlFwdR (R : Rounding K) (L : Arith K) (c : Cdl K) (inD outD : Depth) (px : List (Flt K)) : Py (List (Flt K)) := do
  let px ← chanLoop 3 (fun i x => do
    let x := R single (toUnitR R x inD)
    let s ← pyGet c.slope i
    let o ← pyGet c.offset i
    let p ← pyGet c.power i
    let y ← pyPow L (clamp01 (R double (R double (x * s) + o))) p
    pure (R single y)) px
  let l ← lumaR R px
  chanLoop 3 (fun _ x => do
    let x := R single (clamp01 (saturateR R l c.saturation x))
    pure (R single (fromUnitR R x outD))) px

/-- `clf/ASCCDL.py:185-197` styles `FwdNoClamp`, `noClampFwd`. -/
def cdlFwdNoClampR (R : Rounding K) (L : Arith K) (c : Cdl K) (inD outD : Depth) (px : List (Flt K)) : Py (List (Flt K)) := do
  let px ← chanLoop 3 (fun i x => do
    let x := R single (toUnitR R x inD)
    let s ← pyGet c.slope i
    let o ← pyGet c.offset i
    let tmp := R double (R double (x * s) + o)
    if Flt.lt tmp (.fin 0) then pure (R single tmp)
    else do
      let p ← pyGet c.power i
      pure (R single (L.pow tmp p))) px
  let l ← lumaR R px
  chanLoop 3 (fun _ x => do
    let x := R single (saturateR R l c.saturation x)
    pure (R single (fromUnitR R x outD))) px

/-- The quotient of `clf/ASCCDL.py:208, 221, 223`. -/
def cdlDivR (R : Rounding K) (outSat a b : Flt K) : Py (Flt K) := do
  let q ← cdlDiv outSat a b
  pure (R double q)

/-- `clf/ASCCDL.py:199-210` styles `Rev`, `v1.2_Rev`. -/
def cdlRevR (R : Rounding K) (L : Arith K) (c : Cdl K) (inD outD : Depth) (px : List (Flt K)) : Py (List (Flt K)) := do
  let px ← chanLoop 3 (fun _ x => pure (R single (clamp01 (R single (toUnitR R x inD))))) px
  let l ← lumaR R px
  chanLoop 3 (fun i x => do
    let isat ← pyDivF (.fin 1) c.saturation
    let outSat := saturateR R l (R double isat) x
    let p ← pyGet c.power i
    let ip ← pyDivF (.fin 1) p
    let w ← pyPow L (clamp01 outSat) (R double ip)
    let o ← pyGet c.offset i
    let s ← pyGet c.slope i
    let q ← cdlDivR R outSat (R double (w - o)) s
    let x := R single (clamp01 (R single q))
    pure (R single (fromUnitR R x outD))) px

/-- `clf/ASCCDL.py:212-224` styles `RevNoClamp`, `noClampRev`. -/
def cdlRevNoClampR (R : Rounding K) (L : Arith K) (c : Cdl K) (inD outD : Depth) (px : List (Flt K)) : Py (List (Flt K)) := do
  let px ← chanLoop 3 (fun _ x => pure (R single (toUnitR R x inD))) px
  let l ← lumaR R px
  chanLoop 3 (fun i x => do
    let isat ← pyDivF (.fin 1) c.saturation
    let outSat := saturateR R l (R double isat) x
    let q ←
      if Flt.lt outSat (.fin 0) then do
        let o ← pyGet c.offset i
        let s ← pyGet c.slope i
        cdlDivR R outSat (R double (clamp01 outSat - o)) s
      else do
        let p ← pyGet c.power i
        let ip ← pyDivF (.fin 1) p
        let w ← pyPow L (clamp01 outSat) (R double ip)
        let o ← pyGet c.offset i
        let s ← pyGet c.slope i
        cdlDivR R outSat (R double (w - o)) s
    pure (R single (fromUnitR R (R single q) outD))) px

/-- The style dispatch of `clf/ASCCDL.py:175-224`. -/
def cdlPixelR (R : Rounding K) (L : Arith K) (style : AVal) (c : Cdl K) (inD outD : Depth) (px : List (Flt K)) :
    Py (List (Flt K)) :=
  if style = .str "Fwd" ∨ style = .str "v1.2_Fwd" then cdlFwdR R L c inD outD px
  else if style = .str "FwdNoClamp" ∨ style = .str "noClampFwd" then cdlFwdNoClampR R L c inD outD px
  else if style = .str "Rev" ∨ style = .str "v1.2_Rev" then cdlRevR R L c inD outD px
  else if style = .str "RevNoClamp" ∨ style = .str "noClampRev" then cdlRevNoClampR R L c inD outD px
  else .ok px

/-- `clf/ASCCDL.py:123-234` `process`. -/
def cdlProcessR (R : Rounding K) (L : Arith K) (compat : ℕ) (v : CdlValues K) (b : Base K) (values : List (Flt K)) (stride : ℕ) :
    Py (Res K) := do
  let stride := if stride = 0 then values.length else stride
  if stride < 3 then pure ⟨values, values, true⟩
  else do
    let inD ← b.attrE "inBitDepth"
    let outD ← b.attrE "outBitDepth"
    let style := b.styleOf "style"
    if !hasFeature compat autodesk && cdlVendorStyles.contains style then
      .error .unsupportedExtension
    else viewLoop stride values (cdlPixelR R L style v.resolve inD outD)

/-! ## ExposureContrast -/

/-- `clf/ExtensionExposureContrast.py:139-162`. -/
def ecChannelsR (R : Rounding K) (L : Arith K) (style : AVal) (exposure contrast pivot : Flt K) (inD outD : Depth)
    (px : List (Flt K)) : Py (List (Flt K)) :=
  if style = .str "linear" then
    chanLoop 3 (fun _ x => do
      let x := R single (toUnitR R x inD)
      let g ← pyPow L (.fin 2) exposure
      let w ← pyPow L (Flt.pmax (.fin 0) (R double (R double (g * x) / pivot))) contrast
      let x := R single (R double (pivot * w))
      pure (R single (fromUnitR R x outD))) px
  else if style = .str "video" then
    chanLoop 3 (fun _ _ => do
      let _ ← pyPow L pivot (literalR R (100 / 183))
      let g ← pyPow L (.fin 2) exposure
      let _ ← pyDivF g pivot
      .error .typeError) px
  else if style = .str "log" then
    chanLoop 3 (fun _ _ => .error .nameError) px
  else .ok px

/-- `clf/ExtensionExposureContrast.py:103-172` `process`. -/
def ecProcessR (R : Rounding K) (L : Arith K) (exposure contrast pivot : Flt K) (b : Base K) (values : List (Flt K)) (stride : ℕ) :
    Py (Res K) := do
  let inD ← b.attrE "inBitDepth"
  let outD ← b.attrE "outBitDepth"
  let style := b.styleOf "style"
  pixelLoop stride values fun vals px => do
    let px' ← ecChannelsR R L style exposure contrast pivot inD outD px
    let o := px'.take 3 ++ pySlice vals (min 3 px.length) px.length
    pure (o, o)

/-! ## Gamma -/

/-- A quotient of Python floats. -/
def divR (R : Rounding K) (a b : Flt K) : Py (Flt K) := do
  let q ← pyDivF a b
  pure (R double q)

/-- `clf/ExtensionGamma.py:154`. -/
def gammaBasicRevR (R : Rounding K) (L : Arith K) (g : Flt K) (x : Flt K) : Py (Flt K) := do
  let ig ← divR R (.fin 1) g
  pyPow L (Flt.pmax (.fin 0) x) ig

/-- `clf/ExtensionGamma.py:161-165`. -/
def moncurveFwdR (R : Rounding K) (L : Arith K) (g o : Flt K) (x : Flt K) : Py (Flt K) := do
  let g1 := R double (g - .fin 1)
  let o1 := R double (o + .fin 1)
  let pivot ← divR R o g1
  if Flt.le x pivot then do
    let a ← divR R g1 o
    let q ← divR R (R double (g * o)) (R double (g1 * o1))
    let w ← pyPow L q g
    pure (R double (R double (a * w) * x))
  else
    pyPow L (Flt.pmax (.fin 0) (R double (R double (x + o) / o1))) g

/-- `clf/ExtensionGamma.py:173-177`. -/
def moncurveRevR (R : Rounding K) (L : Arith K) (g o : Flt K) (x : Flt K) : Py (Flt K) := do
  let g1 := R double (g - .fin 1)
  let q ← divR R (R double (g * o)) (R double (g1 * R double (o + .fin 1)))
  let _pivot ← pyPow L q g
  let threshold ← divR R o g1
  if Flt.le x threshold then do
    let a ← divR R g1 o
    let wa ← pyPow L a g1
    let c ← divR R (R double (.fin 1 + o)) g
    let wc ← pyPow L c g
    pure (R double (R double (wa * wc) * x))
  else do
    let ig ← divR R (.fin 1) g
    let w ← pyPow L (Flt.pmax (.fin 0) x) ig
    pure (R double (R double (w * R double (.fin 1 + o)) - o))

/-- The styles of `clf/ExtensionGamma.py:145-179`. -/
def gammaStyleR (R : Rounding K) (L : Arith K) (style : AVal) : Option (Flt K → Flt K → Flt K → Py (Flt K)) :=
  if style = .str "basicFwd" then some fun g _ x => gammaBasicFwd L g x
  else if style = .str "basicRev" then some fun g _ x => gammaBasicRevR R L g x
  else if style = .str "moncurveFwd" then some (moncurveFwdR R L)
  else if style = .str "moncurveRev" then some (moncurveRevR R L)
  else none

/-- `clf/ExtensionGamma.py:105-189` `process`. -/
def gammaProcessR (R : Rounding K) (L : Arith K) (ps : List (GammaParam K)) (b : Base K) (values : List (Flt K)) (stride : ℕ) :
    Py (Res K) := do
  let inD ← b.attrE "inBitDepth"
  let outD ← b.attrE "outBitDepth"
  let params ← gammaParams ps
  viewLoop stride values fun px =>
    match gammaStyleR R L (b.styleOf "style") with
    | none => .ok px
    | some f => chanLoop 3 (fun i x => do
        let (g, o) ← pyGet params i
        let x := R single (toUnitR R x inD)
        let y ← f g o x
        pure (R single (fromUnitR R (R single y) outD))) px

/-! ## Log -/

/-- The parameters of `clf/ExtensionLog.py:125-146`; the default gamma is the literal `0.6`. -/
def logParamsR (R : Rounding K) (ps : List (LogParam K)) : Py (List (LogParam K)) :=
  let dflt : LogParam K := ⟨literalR R (6 / 10), .fin 685, .fin 95, .fin 1, .fin 0, none⟩
  ps.foldlM (init := List.replicate 3 dflt) fun acc p =>
    match p.channel with
    | none => .ok (List.replicate 3 p)
    | some c => do
      let i ← channelIndex c
      pySet acc i p

/-- `FLOAT_MIN` (`clf/ExtensionLog.py:156`).  `pow(10,-38)` is taken to be the closest `float64`. -/
def floatMinR (R : Rounding K) : Flt K :=
  R double (literalR R (11754943508222875 / 10 ^ 16) * literalR R (1 / 10 ^ 38))

/-- `clf/ExtensionLog.py:203-204, 215-216`. -/
def logGainR (R : Rounding K) (L : Arith K) (p : LogParam K) : Py (Flt K × Flt K) := do
  let e ← divR R (R double (R double (p.refBlack - p.refWhite) * literalR R (2 / 1000))) p.gamma
  let lrb ← pyPow L (.fin 10) (Flt.pmin (literalR R (-1 / 100000)) e)
  let gain ← divR R (R double (p.highlight - p.shadow)) (R double (.fin 1 - lrb))
  pure (lrb, gain)

/-- `clf/ExtensionLog.py:203-209`. -/
def logToLinR (R : Rounding K) (L : Arith K) (p : LogParam K) (x : Flt K) : Py (Flt K) := do
  let (lrb, gain) ← logGainR R L p
  let rel := L.pow (.fin 10)
    (R double (R double (R double (R double (.fin 1023 * x) - p.refWhite) * literalR R (2 / 1000)) / p.gamma))
  pure (R double (R double (R double (rel - lrb) * gain) + p.shadow))

/-- `clf/ExtensionLog.py:215-221`. -/
def linToLogR (R : Rounding K) (L : Arith K) (p : LogParam K) (x : Flt K) : Py (Flt K) := do
  let (lrb, gain) ← logGainR R L p
  let rel := R double (lrb + R double (R double (x - p.shadow) / gain))
  pure (R double (R double (p.refWhite
    + R double (R double (L.log10 (Flt.pmax (floatMinR R) rel) * p.gamma) / literalR R (2 / 1000))) / .fin 1023))

/-- The styles of `clf/ExtensionLog.py:169-223`. -/
def logStyleR (R : Rounding K) (L : Arith K) (style : AVal) : Option (LogParam K → Flt K → Py (Flt K)) :=
  if style = .str "log10" then some fun _ x => pure (L.log10 (Flt.pmax x (floatMinR R)))
  else if style = .str "log2" then
    some fun _ x => pure (R double (L.log10 (Flt.pmax x (floatMinR R)) / L.log10 (.fin 2)))
  else if style = .str "antiLog10" then some fun _ x => pure (L.pow (.fin 10) x)
  else if style = .str "antiLog2" then some fun _ x => pure (L.pow (.fin 2) x)
  else if style = .str "logToLin" then some (logToLinR R L)
  else if style = .str "linToLog" then some (linToLogR R L)
  else none

/-- `clf/ExtensionLog.py:115-233` `process`. -/
def logProcessR (R : Rounding K) (L : Arith K) (ps : List (LogParam K)) (b : Base K) (values : List (Flt K)) (stride : ℕ) :
    Py (Res K) := do
  let inD ← b.attrE "inBitDepth"
  let outD ← b.attrE "outBitDepth"
  let params ← logParamsR R ps
  viewLoop stride values fun px =>
    match logStyleR R L (b.styleOf "style") with
    | none => .ok px
    | some f => chanLoop 3 (fun i x => do
        let p ← pyGet params i
        let x := R single (toUnitR R x inD)
        let y ← f p x
        pure (R single (fromUnitR R (R single y) outD))) px

end CLF
