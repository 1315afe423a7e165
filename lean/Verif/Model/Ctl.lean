import Verif.Model.Spi

/-!
# Writing sampled transforms as CTL programs

`lutFormats/LutCTL.py`.  A file is its text; as for SPI, the function that prints a sample
with `'%s'` is an argument.  A field width of 3 never pads anything.
-/

namespace CLF

variable {K : Type} [Field K] [LinearOrder K] [IsStrictOrderedRing K] [FloorRing K]

/-- `"%3.9f" % x`: round half even to nine decimals. -/
def fixed9 : SFlt K → Txt
  | .nan => "nan".toList
  | .inf neg => signTxt neg ++ "inf".toList
  | .fin neg m =>
    let q := (Fmt.rne (m * 10 ^ 9)).toNat
    signTxt neg ++ showNat (q / 10 ^ 9) ++ ['.'] ++ showFixed 10 9 (q % 10 ^ 9)

/-- The first lines of the function (`lutFormats/LutCTL.py:186-202, 282-298`). -/
def ctlMain : Txt :=
  ("void main\n(\n  input varying float rIn,\n  input varying float gIn,\n" ++
   "  input varying float bIn,\n  input varying float aIn,\n  output varying float rOut,\n" ++
   "  output varying float gOut,\n  output varying float bOut,\n  output varying float aOut\n)\n{\n" ++
   "  float r = rIn;\n  float g = gIn;\n  float b = bIn;\n\n  // Apply LUT\n").toList

/-- Its last lines (`lutFormats/LutCTL.py:211-216, 300-305`). -/
def ctlEnd : Txt := "\n  rOut = r;\n  gOut = g;\n  bOut = b;\n  aOut = aIn;\n}\n".toList

/-- One table (`lutFormats/LutCTL.py:167-174, 177-184`).  Both branches write
`data[i * channels]`, whatever the channel. -/
def ctlTable (fmt : Flt K → Txt) (name : Txt) (data : List (Flt K)) (entries channels : ℕ) : Py Txt := do
  let lines ← (List.range entries).mapM fun (i : ℕ) => do
    let v ← pyGet data (i * channels)
    pure (fmt v ++ (if i + 1 ≠ entries then [','] else []) ++ ['\n'])
  pure ("const float ".toList ++ name ++ "[] = {\n".toList ++ lines.flatten ++ "};\n\n".toList)

/-- `r = lookup1D(lut, min1d, max1d, r);` (`lutFormats/LutCTL.py:203-210`). -/
def ctlLookup (x table : String) : Txt :=
  ("  " ++ x ++ " = lookup1D(" ++ table ++ ", min1d, max1d, " ++ x ++ ");\n").toList

/-- `lutFormats/LutCTL.py:131-219` `writeCTL1D`: the text of the file. -/
def writeCtl1d (fmt : Flt K → Txt) (lo hi : Flt K) (data : List (Flt K)) (entries channels : ℕ)
    (components : ℕ := 3) : Py Txt := do
  let components := min (min 3 components) channels
  let tables ←
    if components = 1 then ctlTable fmt "lut".toList data entries channels
    else do
      let ts ← (List.range components).mapM fun j =>
        ctlTable fmt ("lut".toList ++ showNat j) data entries channels
      pure ts.flatten
  let lookups :=
    if components = 1 then ctlLookup "r" "lut" ++ ctlLookup "g" "lut" ++ ctlLookup "b" "lut"
    else if components = 3 then ctlLookup "r" "lut0" ++ ctlLookup "g" "lut1" ++ ctlLookup "b" "lut2"
    else []
  pure ("// ".toList ++ showNat entries ++ " x ".toList ++ showNat components ++
    " 1D LUT generated by \"convertCLFtoLUT\"\n\nconst float min1d = ".toList ++ fixed9 (.ofFlt lo) ++
    ";\nconst float max1d = ".toList ++ fixed9 (.ofFlt hi) ++ ";\n\n".toList ++ tables ++ ctlMain ++
    lookups ++ ctlEnd)

/-- The text between two entries, or after the last one. -/
def ctlSep (i n : ℕ) (between last : String) : Txt := (if i + 1 ≠ n then between else last).toList

/-- The initial value of the cube (`lutFormats/LutCTL.py:255-279`). -/
def ctlCube (data : Cube K) (res : ℕ × ℕ × ℕ) : Py Txt := do
  let planes ← (List.range res.1).mapM fun (r : ℕ) => do
    let rows ← (List.range res.2.1).mapM fun (g : ℕ) => do
      let cells ← (List.range res.2.2).mapM fun (b : ℕ) => do
        let plane ← pyGet data r
        let row ← pyGet plane g
        let v ← pyGet row b
        pure (['{'] ++ joinWith ", ".toList (v.map fun x => show6 (.ofFlt x)) ++ ['}'] ++
          ctlSep b res.2.2 ",\n\t\t  " "\n ")
      pure ("\t\t{ ".toList ++ cells.flatten ++ ['}'] ++ ctlSep g res.2.1 ",\n" "\n")
    pure ("\t{\n".toList ++ rows.flatten ++ "\t}".toList ++ ctlSep r res.1 ", " "\n")
  pure ("{\n".toList ++ planes.flatten ++ "};\n".toList)

/-- Three times a number, as an initial value (`lutFormats/LutCTL.py:245-248`). -/
def ctlTriple (x : Flt K) : Txt :=
  ['{'] ++ joinWith ", ".toList (List.replicate 3 (fixed9 (.ofFlt x))) ++ ['}']

/-- `lutFormats/LutCTL.py:221-308` `writeCTL3D`: the text of the file. -/
def writeCtl3d (lo hi : Flt K) (data : Cube K) (res : ℕ × ℕ × ℕ) : Py Txt := do
  let cube ← ctlCube data res
  pure ("// ".toList ++ joinWith " x ".toList [showNat res.1, showNat res.2.1, showNat res.2.2] ++
    " 3D LUT generated by \"convertCLFtoLUT\"\n\nconst float min3d[3] = ".toList ++ ctlTriple lo ++
    ";\nconst float max3d[3] = ".toList ++ ctlTriple hi ++ ";\n\nconst float cube[".toList ++
    showNat res.1 ++ "][".toList ++ showNat res.2.1 ++ "][".toList ++ showNat res.2.2 ++
    "][3] = \n".toList ++ cube ++ ['\n'] ++ ctlMain ++
    "  lookup3D_f(cube, min3d, max3d, r, g, b, r, g, b);\n".toList ++ ctlEnd)

end CLF
