import Verif.Model.Spi

/-!
# CSP lookup tables

`lutFormats/LutCSP.py`.  A file is its text.  `'%3.6f'` prints as `'%f'` does, since no
number prints shorter than three characters.  Integers are read without a sign
(`parseNat`).
-/

namespace CLF

variable {K : Type} [Field K] [LinearOrder K] [IsStrictOrderedRing K] [FloorRing K]

/-- `text.rstrip()`. -/
def rstrip (t : Txt) : Txt := (t.reverse.dropWhile isSpace).reverse

/-! ## Preluts -/

/-- The prelut of a channel: inputs and outputs. -/
abbrev Prelut (K : Type) := List (Flt K) × List (Flt K)

/-- The value of a prelut of (at most) `n` entries at `v`
(`lutFormats/LutCSP.py:215-228`).  The search is the one of `Sampling.py` over a
single column. -/
def prelutAt (n : ℕ) (p : Prelut K) (v : Flt K) : Py (Flt K) := do
  let i ← inverseSearch p.1 1 0 v none (List.range n)
  let low := i - 1
  let high := min (n - 1) i
  let a ← pyGet p.1 low
  let b ← pyGet p.1 high
  let interp ← pyDivF (v - a) (b - a)
  let y ← pyGet p.2 high
  let x ← pyGet p.2 low
  pure (interp * (y - x) + x)

/-- `lutFormats/LutCSP.py:155-240` `generateCLFPrelut`.  The slice assignments of rows of
three values list the rows one after another. -/
def cspPrelut (r g b : Prelut K) : Py (List (Node K)) := do
  let n := max (max r.1.length g.1.length) b.1.length
  let r0 ← pyGet r.1 0
  let g0 ← pyGet g.1 0
  let b0 ← pyGet b.1 0
  let lo := Flt.pmin (Flt.pmin r0 g0) b0
  let r1 ← pyIdx r.1 (-1)
  let g1 ← pyIdx g.1 (-1)
  let b1 ← pyIdx b.1 (-1)
  let hi := Flt.pmax (Flt.pmax r1 g1) b1
  let range := boundedRange "prelut_range" lo hi (.fin 0) (.fin 1)
  if 2 < n then do
    let rows ← (List.range (n * 2)).mapM fun (i : ℕ) => do
      let input ← pyDivF (.fin (i : K)) (.fin (((n * 2 : ℕ) : K) - 1))
      let ranged := input * (hi - lo) + lo
      [r, g, b].mapM fun p => prelutAt n p ranged
    let lut ← lut1dSetArray (newLut1d float16 float16 (.str "prelut_lut1d") (.str "prelut_lut1d")) 3
      rows.flatten
    pure [range, .leaf .lut1d lut]
  else pure [range]

/-! ## Reading -/

/-- `while lines[i].rstrip() == '': i += 1` (`lutFormats/LutCSP.py:280-282, 314-316`): the
lines from the first one with text on.  Without any the index runs over the end. -/
def skipBlank : List Txt → Py (List Txt)
  | [] => .error .indexError
  | l :: rest => if rstrip l = [] then skipBlank rest else .ok (l :: rest)

/-- The lines after the first `BEGIN METADATA` (`lutFormats/LutCSP.py:262-265`). -/
def afterBegin : List Txt → Py (List Txt)
  | [] => .error .indexError
  | l :: rest => if rstrip l = "BEGIN METADATA".toList then .ok rest else afterBegin rest

/-- The lines after `END METADATA` (`lutFormats/LutCSP.py:267-274`); none if there is no
such line. -/
def afterEnd : List Txt → List Txt
  | [] => []
  | l :: rest => if rstrip l = "END METADATA".toList then rest else afterEnd rest

/-- The prelut of one channel, three lines (`lutFormats/LutCSP.py:291-303`).  The entry
count is read but not used. -/
def readPrelut (lines : List Txt) (i : ℕ) : Py (Prelut K) := do
  let l ← pyGet lines i
  let _ ← parseNat l
  let l ← pyGet lines (i + 1)
  let xs ← (words l).mapM (readFlt (K := K))
  let l ← pyGet lines (i + 2)
  let ys ← (words l).mapM (readFlt (K := K))
  pure (xs, ys)

/-- The position in the table of the entry at file position `k`, for sides `n0` and `n1`
(`lutFormats/LutCSP.py:332-337`). -/
def cspIndex3 (n0 n1 k : ℕ) : Py ℕ := do
  let r ← if n0 = 0 then .error .zeroDivision else .ok (k % n0)
  let q ← pyDivNat k n0
  let g ← if n1 = 0 then .error .zeroDivision else .ok (q % n1)
  let b ← pyDivNat k (n0 * n1)
  pure ((r * n0 + g) * n1 + b)

/-- The loop over the lines of a table (`lutFormats/LutCSP.py:329-351, 357-373`): `place`
gives the position of the entry at each file position.  Lines of other than three numbers
count as a position, and leave the table as it is. -/
def cspLoop (place : ℕ → Py ℕ) : ℕ → List (Flt K) → List Txt → Py (List (Flt K))
  | _, samples, [] => .ok samples
  | k, samples, line :: rest => do
    let i ← place k
    let vs ← (words line).mapM (readFlt (K := K))
    cspLoop place (k + 1)
      (if vs.length = 3 then listSplice samples (i * 3) (i * 3 + 3) vs else samples) rest

/-- What `readCSP` collects. -/
structure Csp (K : Type) where
  three : Bool
  preluts : Prelut K × Prelut K × Prelut K
  resolution : List ℕ
  samples : List (Flt K)

/-- The table (`lutFormats/LutCSP.py:323-373`). -/
def cspTable (three : Bool) (resolution : List ℕ) (lines : List Txt) : Py (List (Flt K)) := do
  let n0 ← pyGet resolution 0
  if three then do
    let n1 ← pyGet resolution 1
    let n2 ← pyGet resolution 2
    cspLoop (cspIndex3 n0 n1) 0 (List.replicate (n0 * n1 * n2 * 3) (.fin 0)) lines
  else cspLoop .ok 0 (List.replicate (n0 * 3) (.fin 0)) lines

/-- The data after the metadata (`lutFormats/LutCSP.py:278-373`): one line is skipped in
any case. -/
def cspData (three : Bool) (lines : List Txt) : Py (Csp K) := do
  let d ← skipBlank (lines.drop 1)
  let r ← readPrelut d 0
  let g ← readPrelut d 3
  let b ← readPrelut d 6
  let d ← skipBlank (d.drop 10)
  let l ← pyGet d 0
  let resolution ← readNats l
  let samples ← cspTable three resolution (d.drop 1)
  pure ⟨three, (r, g, b), resolution, samples⟩

/-- `lutFormats/LutCSP.py:247-373`.  `none`: the file is neither 1D nor 3D.  The variable
`format` is unbound when the first word of the file is another one (line 387). -/
def cspParse (content : Txt) : Py (Option (Csp K)) := do
  let lines := splitLines content
  let l0 ← pyGet lines 0
  let t ← pyGet (words l0) 0
  if t = "CSPLUTV100".toList then do
    let l1 ← pyGet lines 1
    let format ← pyGet (words l1) 0
    if format = "1D".toList ∨ format = "3D".toList then do
      let data ← afterBegin (lines.drop 2)
      let c ← cspData (format = "3D".toList) (afterEnd data)
      pure (some c)
    else pure none
  else .error .unboundLocal

/-- `lutFormats/LutCSP.py:378-396`: the nodes.  A LUT3D node is given the resolution as its
dimensions. -/
def cspNodes (c : Csp K) : Py (List (Node K)) := do
  let pre ← cspPrelut c.preluts.1 c.preluts.2.1 c.preluts.2.2
  if c.three then
    pure (pre ++ [.leaf .lut3d
      (lut3dSetArray (newLut3d float16 float16 (.str "lut3d") (.str "lut3d")) c.resolution c.samples).1])
  else do
    let lut ← lut1dSetArray (newLut1d float16 float16 (.str "lut1d") (.str "lut1d")) 3 c.samples
    pure (pre ++ [.leaf .lut1d lut])

/-- `lutFormats/LutCSP.py:245-396` `readCSP` on the text of the file.  The arguments
`inverse` and `interpolation` are not used. -/
def readCsp (content : Txt) (_inverse : Bool := false) (_interpolation : AVal := .str "linear") :
    Py (List (Node K)) := do
  let c ← cspParse content
  match c with
  | some c => cspNodes c
  | none => pure []

/-! ## Writing -/

/-- The first lines (`lutFormats/LutCSP.py:426-432, 487-493, 530-536`). -/
def cspHead (format : String) : Txt :=
  "CSPLUTV100\n".toList ++ format.toList ++ "\n\nBEGIN METADATA\nEND METADATA\n\n".toList

/-- A two-entry prelut (`lutFormats/LutCSP.py:434-436`). -/
def cspPrelut2 (lo hi : Flt K) : Txt :=
  "2\n".toList ++ show6 (.ofFlt lo) ++ [' '] ++ show6 (.ofFlt hi) ++ "\n0.0 1.0\n".toList

/-- `lutFormats/LutCSP.py:399-461` `writeCSP1D`: the text of the file. -/
def writeCsp1d (lo hi : Flt K) (data : List (Flt K)) (entries channels : ℕ) (components : ℕ := 3) :
    Py Txt := do
  let components := min (min 3 components) channels
  let rows ← (List.range entries).mapM fun i => do
    let vs ←
      if components = 1 then do
        let v ← pyGet data (i * channels)
        pure [v, v, v]
      else (List.range components).mapM fun j => pyGet data (i * channels + j)
    pure ((vs.map fun v => ' ' :: show6 (.ofFlt v)).flatten ++ ['\n'])
  pure (cspHead "1D" ++ cspPrelut2 lo hi ++ cspPrelut2 lo hi ++ cspPrelut2 lo hi ++ ['\n'] ++
    showNat entries ++ ['\n'] ++ rows.flatten ++ ['\n'])

/-- The lines of a cube, red fastest (`lutFormats/LutCSP.py:507-514, 553-560`).  Blue runs
over the first side, red over the last. -/
def cspCube (data : Cube K) (resolution : ℕ × ℕ × ℕ) : Py Txt := do
  let lines ← (List.range resolution.1).mapM fun b =>
    (List.range resolution.2.1).mapM fun g =>
      (List.range resolution.2.2).mapM fun r => do
        let plane ← pyGet data r
        let row ← pyGet plane g
        let v ← pyGet row b
        pure (joinWith [' '] (v.map fun x => show6 (.ofFlt x)) ++ ['\n'])
  pure (joinWith [' '] [showNat resolution.1, showNat resolution.2.1, showNat resolution.2.2] ++
    ['\n'] ++ (lines.map fun p => (p.map List.flatten).flatten).flatten)

/-- `lutFormats/LutCSP.py:464-515` `writeCSP3D`: the text of the file. -/
def writeCsp3d (lo hi : Flt K) (data : Cube K) (resolution : ℕ × ℕ × ℕ) : Py Txt := do
  let cube ← cspCube data resolution
  pure (cspHead "3D" ++ cspPrelut2 lo hi ++ cspPrelut2 lo hi ++ cspPrelut2 lo hi ++ ['\n'] ++ cube)

/-- Numbers, each followed by a space (`lutFormats/LutCSP.py:541-549`). -/
def trailed (vs : List (Flt K)) : Txt := (vs.map fun v => show6 (.ofFlt v) ++ [' ']).flatten

/-- `lutFormats/LutCSP.py:518-561` `writeCSP1D3D`: the text of the file. -/
def writeCsp1d3d (samples : List (Flt K)) (n : ℕ) (lo hi : Flt K) (data : Cube K)
    (resolution : ℕ × ℕ × ℕ) : Py Txt := do
  let preluts ← (List.range 3).mapM fun c => do
    let xs ← (List.range n).mapM fun i => samplePoint n lo hi i
    let ys ← (List.range n).mapM fun i => pyGet samples (i * 3 + c)
    pure (showNat n ++ ['\n'] ++ trailed xs ++ ['\n'] ++ trailed ys ++ ['\n'])
  let cube ← cspCube data resolution
  pure (cspHead "3D" ++ preluts.flatten ++ ['\n'] ++ cube)

end CLF
