import Verif.Model.Sampling
import Verif.Model.Text

/-!
# SPI lookup tables

`lutFormats/LutSPI.py`.  A file is its text.  How a sample is turned into text by
`'%s'` and `str` depends on its Python type (`float`, or numpy's `float32`, whose
texts differ between numpy versions), so the writers take that function as an
argument; `str12` is the one for Python floats.  Numbers in files are read without a
sign where the code reads an integer (`parseNat`).
-/

namespace CLF

variable {K : Type} [Field K] [LinearOrder K] [IsStrictOrderedRing K] [FloorRing K]

/-- `text.splitlines()`. -/
def splitLines : Txt → List Txt
  | [] => []
  | '\r' :: '\n' :: r => [] :: splitLines r
  | c :: r =>
    if c = '\n' ∨ c = '\r' then [] :: splitLines r
    else match splitLines r with
      | [] => [[c]]
      | w :: ws => (c :: w) :: ws

/-- `"%f" % x`: round half even to six decimals. -/
def show6 : SFlt K → Txt
  | .nan => "nan".toList
  | .inf neg => signTxt neg ++ "inf".toList
  | .fin neg m =>
    let q := (Fmt.rne (m * 10 ^ 6)).toNat
    signTxt neg ++ showNat (q / 10 ^ 6) ++ ['.'] ++ showFixed 10 6 (q % 10 ^ 6)

/-- `float(text)`, without the sign of zero. -/
def readFlt (t : Txt) : Py (Flt K) := do
  let v ← parseFloat (K := K) t
  pure v.toFlt

/-! ## One-dimensional tables -/

/-- What `readSPI1D` collects (`lutFormats/LutSPI.py:164-168`). -/
structure Spi1d (K : Type) where
  length : ℕ
  components : ℕ
  samples : List (Flt K)
  lo : Flt K
  hi : Flt K

/-- The reading loop (`lutFormats/LutSPI.py:170-188`).  A blank line has no first
token. -/
def spi1dLoop (s : Spi1d K) : List Txt → Py (Spi1d K)
  | [] => .ok s
  | line :: rest => do
    let tokens := words line
    let t ← pyGet tokens 0
    if t = "Version".toList then do
      let v ← pyGet tokens 1
      let v ← parseNat v
      if v ≠ 1 then .ok s else spi1dLoop s rest
    else if t = "From".toList then do
      let a ← pyGet tokens 1
      let a ← readFlt a
      let b ← pyGet tokens 2
      let b ← readFlt b
      spi1dLoop { s with lo := a, hi := b } rest
    else if t = "Length".toList then do
      let v ← pyGet tokens 1
      let v ← parseNat v
      spi1dLoop { s with length := v } rest
    else if t = "Components".toList then do
      let v ← pyGet tokens 1
      let v ← parseNat v
      spi1dLoop { s with components := v } rest
    else if t = ['{'] ∨ t = ['}'] then spi1dLoop s rest
    else do
      let vs ← tokens.mapM readFlt
      spi1dLoop { s with samples := s.samples ++ vs } rest

/-- `lutFormats/LutSPI.py:158-188`. -/
def spi1dParse (content : Txt) : Py (Spi1d K) :=
  spi1dLoop ⟨0, 0, [], .fin 0, .fin 1⟩ (splitLines content)

/-- The forward nodes (`lutFormats/LutSPI.py:196-211`). -/
def spi1dForward (interpolation : AVal) (channels : ℕ) (samples : List (Flt K)) (lo hi : Flt K) :
    Py (List (Node K)) := do
  let lut ← lut1dSetArray (newLut1d float16 float16 (.str "lut1d") (.str "lut1d") interpolation)
    channels samples
  pure ((if lo ≠ .fin 0 ∨ hi ≠ .fin 1 then [boundedRange "range" lo hi (.fin 0) (.fin 1)] else []) ++
    [.leaf .lut1d lut])

/-- `lutFormats/LutSPI.py:152-227` `readSPI1D` on the text of the file. -/
def readSpi1d (content : Txt) (inverse : Bool := false) (interpolation : AVal := .str "linear")
    (useIndexMaps useHalfDomain : Bool := true) : Py (List (Node K)) := do
  let s : Spi1d K ← spi1dParse content
  if !inverse then spi1dForward interpolation s.components s.samples s.lo s.hi
  else if useIndexMaps then inverseIndexMap s.length s.components s.samples s.lo s.hi
  else if useHalfDomain then inverseHalfDomain s.length s.components s.samples s.lo s.hi true
  else inverseResampled s.length s.components s.samples s.lo s.hi

/-- `lutFormats/LutSPI.py:280-322` `writeSPI1D`: the text of the file. -/
def writeSpi1d (fmt : Flt K → Txt) (lo hi : Flt K) (data : List (Flt K)) (entries channels : ℕ)
    (components : ℕ := 3) : Py Txt := do
  let components := min (min 3 components) channels
  let rows ← (List.range entries).mapM fun i => do
    let vs ← (List.range components).mapM fun j => pyGet data (i * channels + j)
    pure (List.replicate 8 ' ' ++ (vs.map fun v => ' ' :: fmt v).flatten ++ ['\n'])
  pure ("Version 1\nFrom ".toList ++ show6 (.ofFlt lo) ++ [' '] ++ show6 (.ofFlt hi) ++
    "\nLength ".toList ++ showNat entries ++ "\nComponents ".toList ++ showNat components ++
    "\n{\n".toList ++ rows.flatten ++ "}\n".toList)

/-! ## Three-dimensional tables -/

/-- `map(int, line.split())` (`lutFormats/LutSPI.py:252, 254`). -/
def readNats (line : Txt) : Py (List ℕ) := (words line).mapM parseNat

/-- `tokens[0] == 3 or tokens[1] == 3` (`lutFormats/LutSPI.py:253`). -/
def spi3dThree (tokens : List ℕ) : Py Bool := do
  let a ← pyGet tokens 0
  if a = 3 then pure true
  else do
    let b ← pyGet tokens 1
    pure (b = 3)

/-- The table (`lutFormats/LutSPI.py:253-264`). -/
def spi3dTable (lines : List Txt) : Py (List ℕ × List (Flt K)) := do
  let l1 ← pyGet lines 1
  let tokens ← readNats l1
  let three ← spi3dThree tokens
  if three then do
    let l2 ← pyGet lines 2
    let resolution ← readNats l2
    let rows ← (lines.drop 3).mapM fun line => do
      let vs ← (words line).mapM (readFlt (K := K))
      pure (vs.drop 3)
    pure (resolution, rows.flatten)
  else pure ([0, 0, 0], [])

/-- `lutFormats/LutSPI.py:243-264`. -/
def spi3dParse (content : Txt) : Py (List ℕ × List (Flt K)) := do
  let lines := splitLines content
  let l0 ← pyGet lines 0
  let t ← pyGet (words l0) 0
  if t = "SPILUT".toList then do
    let v ← pyGet (words l0) 1
    let v ← readFlt (K := K) v
    if v = .fin 1 then spi3dTable lines else pure ([0, 0, 0], [])
  else pure ([0, 0, 0], [])

/-- `lutFormats/LutSPI.py:233-272` `readSPI3D` on the text of the file.  The argument
`inverse` is not used. -/
def readSpi3d (content : Txt) (_inverse : Bool := false) (interpolation : AVal := .str "linear") :
    Py (List (Node K)) := do
  let interpolation := if interpolation = .str "linear" then .str "trilinear" else interpolation
  let (resolution, samples) ← spi3dParse content
  pure [.leaf .lut3d (lut3dSetArray (newLut3d float16 float16 (.str "lut3d") (.str "lut3d")
    interpolation) resolution samples).1]

/-- One line of `writeSPI3D` (`lutFormats/LutSPI.py:354-357`). -/
def spi3dLine (fmt : Flt K → Txt) (r g b : ℕ) (v : List (Flt K)) : Txt :=
  joinWith [' '] [showNat r, showNat g, showNat b] ++ [' '] ++ joinWith [' '] (v.map fmt) ++ ['\n']

/-- `lutFormats/LutSPI.py:325-360` `writeSPI3D`: the text of the file. -/
def writeSpi3d (fmt : Flt K → Txt) (data : Cube K) (resolution : ℕ × ℕ × ℕ) : Py Txt := do
  let lines ← (List.range resolution.1).mapM fun r =>
    (List.range resolution.2.1).mapM fun g =>
      (List.range resolution.2.2).mapM fun b => do
        let plane ← pyGet data r
        let row ← pyGet plane g
        let v ← pyGet row b
        pure (spi3dLine fmt r g b v)
  pure ("SPILUT 1.0\n3 3\n".toList ++
    joinWith [' '] [showNat resolution.1, showNat resolution.2.1, showNat resolution.2.2] ++ ['\n'] ++
    (lines.map fun p => (p.map List.flatten).flatten).flatten)

end CLF
