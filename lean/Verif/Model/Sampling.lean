import Verif.Model.Build
import Verif.Model.Process

/-!
# Sampling process lists and inverting one-dimensional LUTs

`lutFormats/Sampling.py`.  Sample values are Python or numpy floats; their
arithmetic is exact here, and quotients follow the Python rule (a zero divisor
raises; with numpy `float32` samples it would give an infinity or NaN instead).
-/

namespace CLF

variable {K : Type} [Field K] [LinearOrder K] [IsStrictOrderedRing K] [FloorRing K]

/-- `bitDepths["FLOAT16"]` (`clf/ProcessNode.py:67-74`), the default of every node
constructor. -/
def float16 : AVal := .str "16f"

/-- A `Range` with default style, then the four bound setters (`clf/Range.py:60-79`). -/
def boundedRange (id : String) (minIn maxIn minOut maxOut : Flt K) : Node K :=
  .leaf .range { (newBase float16 float16 (.str id) (.str id) : Base K) with
    values := [("minInValue", minIn), ("maxInValue", maxIn), ("minOutValue", minOut),
      ("maxOutValue", maxOut)] }

/-- `Log(style=style)` (`clf/ExtensionLog.py:65-71`). -/
def styledLog (style : String) : Node K :=
  .leaf (.log []) ((newBase float16 float16 (.str "") (.str "")).setAttribute "style" (.str style))

/-- The search loop of `lutFormats/Sampling.py:132-136, 217-221`: the first index whose
sample of this channel is above `v`, otherwise the last index.  Without any index the
loop variable is unbound. -/
def inverseSearch (samples : List (Flt K)) (channels channel : ℕ) (v : Flt K) :
    Option ℕ → List ℕ → Py ℕ
  | none, [] => .error .unboundLocal
  | some i, [] => .ok i
  | _, i :: rest => do
    let s ← pyGet samples (i * channels + channel)
    if Flt.lt v s then .ok i else inverseSearch samples channels channel v (some i) rest

/-- `lutFormats/Sampling.py:130-152, 215-236`: the position in [0, 1] of the value `v`
in a table of `n` rows. -/
def inverseAt (n channels : ℕ) (samples : List (Flt K)) (channel : ℕ) (v : Flt K) :
    Py (Flt K) := do
  let lutIndex ← inverseSearch samples channels channel v none (List.range n)
  let low := lutIndex - 1
  let high := min (n - 1) lutIndex
  let interp ←
    if low = high then pure (Flt.fin 0)
    else do
      let a ← pyGet samples (low * channels + channel)
      let b ← pyGet samples (high * channels + channel)
      pyDivF (v - a) (b - a)
  pyDivF (interp + .fin (low : K)) (.fin ((n : K) - 1))

/-- `lutFormats/Sampling.py:77-177` `generateLUT1DInverseResampled`.  `resolution` is
`(n, channels)`.  The slice assignments of rows of `channels` values list the rows one
after another. -/
def inverseResampled (n channels : ℕ) (samples : List (Flt K)) (minIn maxIn : Flt K) :
    Py (List (Node K)) := do
  let m0 ← pyGet samples 0
  let minOut ← (List.range channels).foldlM (init := m0) fun acc c => do
    let s ← pyGet samples c
    pure (Flt.pmin acc s)
  let x0 ← pyIdx samples (-(channels : ℤ))
  let maxOut ← (List.range channels).foldlM (init := x0) fun acc (c : ℕ) => do
    let s ← pyIdx samples (-(channels : ℤ) + c)
    pure (Flt.pmax acc s)
  let rows ← (List.range (n * 2)).mapM fun (i : ℕ) => do
    let input ← pyDivF (.fin (i : K)) (.fin (((n * 2 : ℕ) : K) - 1))
    let ranged := input * (maxOut - minOut) + minOut
    (List.range channels).mapM fun c => inverseAt n channels samples c ranged
  let lut ← lut1dSetArray (newLut1d float16 float16 (.str "inverse_1d_lut") (.str "inverse_1d_lut"))
    channels rows.flatten
  pure [boundedRange "inverse_1d_range_1" minOut maxOut (.fin 0) (.fin 1), .leaf .lut1d lut,
    boundedRange "inverse_1d_range_2" (.fin 0) (.fin 1) minIn maxIn]

/-- `lutFormats/Sampling.py:181-250` `generateLUT1DInverseHalfDomain`.  The input range
is an argument that is not used. -/
def inverseHalfDomain (n channels : ℕ) (samples : List (Flt K)) (_minIn _maxIn : Flt K)
    (rawHalfs : Bool := false) : Py (List (Node K)) := do
  let rows ← (List.range 65536).mapM fun i => do
    let input : Flt K := half.decode i
    (List.range channels).mapM fun c =>
      if input.isNaN then pure input
      else if input.isInf then pure input
      else inverseAt n channels samples c input
  let lut ← lut1dSetArray (newLut1d float16 float16 (.str "inverse_1d_lut") (.str "inverse_1d_lut")
    (.str "linear") (if rawHalfs then .bool true else .str "") (.bool true)) channels rows.flatten
  pure [.leaf .lut1d lut]

/-- `lutFormats/Sampling.py:253-309` `generateLUT1DInverseIndexMap`. -/
def inverseIndexMap (n channels : ℕ) (samples : List (Flt K)) (minIn maxIn : Flt K) :
    Py (List (Node K)) := do
  let maps ← (List.range channels).mapM fun c => do
    let xs ← (List.range n).mapM fun i => pyGet samples (i * channels + c)
    pure (xs, (List.range n).map fun (i : ℕ) => Flt.fin (i : K))
  let rows ← (List.range n).mapM fun (i : ℕ) => do
    let v ← pyDivF (.fin (i : K)) (.fin ((n : K) - 1))
    pure (List.replicate channels v)
  let lut := newLut1d float16 float16 (.str "inverse_1d_lut") (.str "inverse_1d_lut")
  let lut ←
    if channels = 3 then do
      let r ← pyGet maps 0
      let g ← pyGet maps 1
      let b ← pyGet maps 2
      pure (setIndexMaps lut r (some (g, b)))
    else do
      let r ← pyGet maps 0
      pure (setIndexMaps lut r)
  let lut ← lut1dSetArray lut channels rows.flatten
  pure (.leaf .lut1d lut ::
    if minIn ≠ .fin 0 ∨ maxIn ≠ .fin 1 then
      [boundedRange "inverse_1d_range_1" (.fin 0) (.fin 1) minIn maxIn]
    else [])

/-- `float(i)/(n-1)*(hi-lo)+lo` (`lutFormats/Sampling.py:320-321, 342-347`). -/
def samplePoint (n : ℕ) (lo hi : Flt K) (i : ℕ) : Py (Flt K) := do
  let t ← pyDivF (.fin (i : K)) (.fin ((n : K) - 1))
  pure (t * (hi - lo) + lo)

/-- The one-dimensional sampling loop (`lutFormats/Sampling.py:317-324, 459-469,
513-518`): `f` is applied to grey values.  Each result has three values (a list never
changes the number of values, see C44), so the slice assignments list the results one
after another. -/
def sampleLoop (n : ℕ) (lo hi : Flt K) (f : List (Flt K) → Py (List (Flt K))) :
    Py (List (Flt K)) := do
  let rows ← (List.range n).mapM fun i => do
    let v ← samplePoint n lo hi i
    f [v, v, v]
  pure rows.flatten

/-- `lutFormats/Sampling.py:311-328` `sample1D`. -/
def sample1D (A : Arith K) (compat : ℕ) (ns : List (Node K)) (n : ℕ) (lo hi : Flt K) :
    Py (List (Flt K)) :=
  sampleLoop n lo hi fun v => processList A compat ns v 0

/-- `samples[r][g][b]`: lists of lists of lists of values. -/
abbrev Cube (K : Type) := List (List (List (List (Flt K))))

/-- `samples[r][g][b] = v`. -/
def cubeSet (s : Cube K) (r g b : ℕ) (v : List (Flt K)) : Py (Cube K) := do
  let plane ← pyGet s r
  let row ← pyGet plane g
  let row ← pySet row b v
  let plane ← pySet plane g row
  pySet s r plane

/-- The three-dimensional sampling loop (`lutFormats/Sampling.py:337-358, 479-507`).
The list is allocated with the *last* resolution as its outermost length and the first
as its innermost. -/
def cubeLoop (res : ℕ × ℕ × ℕ) (lo hi : Flt K) (f : List (Flt K) → Py (List (Flt K))) :
    Py (Cube K) :=
  let init : Cube K := List.replicate res.2.2 (List.replicate res.2.1 (List.replicate res.1
    [.fin 0, .fin 0, .fin 0]))
  (List.range res.1).foldlM (init := init) fun s r =>
    (List.range res.2.1).foldlM (init := s) fun s g =>
      (List.range res.2.2).foldlM (init := s) fun s b => do
        let x ← samplePoint res.1 lo hi r
        let y ← samplePoint res.2.1 lo hi g
        let z ← samplePoint res.2.2 lo hi b
        let v ← f [x, y, z]
        cubeSet s r g b v

/-- `lutFormats/Sampling.py:330-360` `sample3D`. -/
def sample3D (A : Arith K) (compat : ℕ) (ns : List (Node K)) (res : ℕ × ℕ × ℕ) (lo hi : Flt K) :
    Py (Cube K) :=
  cubeLoop res lo hi fun v => processList A compat ns v 0

/-- What `createShaper` returns. -/
structure Shaper (K : Type) where
  forward : List (Node K)
  inverse : List (Node K)
  lo : Flt K
  hi : Flt K

/-- `lutFormats/Sampling.py:362-432` `createShaper`; `none` is Python's `None`. -/
def createShaper (A : Arith K) (type : Option String) (lo hi : Flt K) : Py (Shaper K) :=
  if type = some "log2" then do
    let inLo ← pyPow A (.fin 2) lo
    let inHi ← pyPow A (.fin 2) hi
    pure ⟨[styledLog "log2", boundedRange "" lo hi (.fin 0) (.fin 1)],
      [boundedRange "" (.fin 0) (.fin 1) lo hi, styledLog "antiLog2"], inLo, inHi⟩
  else if type = some "linear" then
    pure ⟨[boundedRange "" lo hi (.fin 0) (.fin 1)], [boundedRange "" (.fin 0) (.fin 1) lo hi], lo, hi⟩
  else pure ⟨[], [], .fin 0, .fin 1⟩

/-- What `sample1D3D1D` returns. -/
structure Sampled (K : Type) where
  samplesIn : Option (List (Flt K))
  inLo : Flt K
  inHi : Flt K
  cube : Cube K
  samplesOut : Option (List (Flt K))
  outLo : Flt K
  outHi : Flt K

/-- A shaper argument: type, minimum, maximum. -/
abbrev ShaperSpec (K : Type) := Option String × Flt K × Flt K

/-- `if shaperType != None: v = shaper.process(v)` (`lutFormats/Sampling.py:488-499`). -/
def viaShaper (A : Arith K) (compat : ℕ) (type : Option String) (ns : List (Node K))
    (v : List (Flt K)) : Py (List (Flt K)) :=
  match type with
  | some _ => processList A compat ns v 0
  | none => .ok v

/-- `if shaperType != None: samples = … else: samples = None`
(`lutFormats/Sampling.py:455-471, 512-521`). -/
def shaperSamples (A : Arith K) (compat : ℕ) (type : Option String) (ns : List (Node K)) (n : ℕ)
    (lo hi : Flt K) : Py (Option (List (Flt K))) :=
  match type with
  | some _ => do
    let s ← sampleLoop n lo hi fun v => processList A compat ns v 0
    pure (some s)
  | none => .ok none

/-- `lutFormats/Sampling.py:434-528` `sample1D3D1D`.  The cube and the output samples
run over [0, 1] (`t*(1-0)+0` here for `t` there).  The output samples are taken with
the inverse of the *input* shaper (line 515). -/
def sample1D3D1D (A : Arith K) (compat : ℕ) (ns : List (Node K)) (nIn : ℕ) (res : ℕ × ℕ × ℕ)
    (nOut : ℕ) (shIn shOut : ShaperSpec K) : Py (Sampled K) := do
  let sIn ← createShaper A shIn.1 shIn.2.1 shIn.2.2
  let sOut ← createShaper A shOut.1 shOut.2.1 shOut.2.2
  let samplesIn ← shaperSamples A compat shIn.1 sIn.forward nIn sIn.lo sIn.hi
  let cube ← cubeLoop res (.fin 0) (.fin 1) fun v => do
    let v ← viaShaper A compat shIn.1 sIn.inverse v
    let v ← processList A compat ns v 0
    viaShaper A compat shOut.1 sOut.forward v
  let samplesOut ← shaperSamples A compat shOut.1 sIn.inverse nOut (.fin 0) (.fin 1)
  pure ⟨samplesIn, sIn.lo, sIn.hi, cube, samplesOut, sOut.lo, sOut.hi⟩

end CLF
