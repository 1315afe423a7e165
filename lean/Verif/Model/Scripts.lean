import Verif.Model.Ocio
import Verif.Model.Image

/-!
# The command line scripts

The `main` functions of `convertCLFtoLUT.py`, `convertLUTtoCLF.py`, `convertOCIOtoCLF.py` and
`filterImageWithCLF.py`, from the parsed options on.  What `optparse` does with the words of
the command line is not modelled; neither is what is printed.  Resolutions are natural
numbers.  An option that can be given several times is the list of its values, the empty
list standing for Python's `None`.
-/

namespace CLF

variable {K : Type} [Field K] [LinearOrder K] [IsStrictOrderedRing K] [FloorRing K]

/-! ## convertCLFtoLUT -/

/-- `convertCLFtoLUT.py:67-95` `convertCLFtoLUT`: what is written at the path.  `fs` holds the
CLF files; `lutFileFormat` is not passed on (line 87). -/
def convertClfToLut (A : Arith K) (compat : ℕ) (formats : List (LutClass K)) (fs : String → Option File)
    (fuel : ℕ) (clfPath : String) (lutPath : Txt) (_lutFileFormat : Option Txt) (dataFormat : String)
    (a : WriteArgs K) : Py (Option Written) := do
  let l ← readFile A compat fs fuel false clfPath
  registryWrite formats l.processes lutPath dataFormat a

/-- The options of `convertCLFtoLUT.py` (lines 143-159). -/
structure ToLutOptions (K : Type) where
  clf : Option String := none
  lut : Option Txt := none
  res1d : ℕ := 1024
  res3d : ℕ := 33
  res1d3d1d : List (ℕ × ℕ × ℕ) := []
  lo : Flt K
  hi : Flt K
  generate1d : Bool := false
  generate3d : Bool := false
  generate1d3d1d : Bool := false
  format : Option Txt := none
  shaperIn : List (Txt × Txt × Txt) := []
  shaperOut : List (Txt × Txt × Txt) := []

/-- A shaper option (`convertCLFtoLUT.py:177-191`). -/
def shaperOption (o : List (Txt × Txt × Txt)) : Py (ShaperSpec K) :=
  match o with
  | [] => .ok (none, .fin 0, .fin 1)
  | s :: _ => do
    let lo ← floatOfText (some (String.ofList s.2.1))
    let hi ← floatOfText (some (String.ofList s.2.2))
    pure (some (String.ofList s.1), lo, hi)

/-- The resolutions (`convertCLFtoLUT.py:170, 193-199`): those of the input curve, the
cube and the output curve.  In both cases the value of `--lutResolution3d` is replaced. -/
def resolutionOption (o : ToLutOptions K) : ℕ × ℕ × ℕ :=
  let lutResolution3d := o.res3d
  let (shaperIn, lutResolution3d, shaperOut) := match o.res1d3d1d with
    | r :: _ => (r.1, r.2.1, r.2.2)
    | [] => let _ := lutResolution3d; (1024, 33, 2)
  (shaperIn, lutResolution3d, shaperOut)

/-- The data format (`convertCLFtoLUT.py:201-208`). -/
def dataFormatOption (o : ToLutOptions K) : String :=
  if o.generate1d then "1D" else if o.generate3d then "3D"
  else if o.generate1d3d1d then "1D_3D_1D" else "1D"

/-- The arguments made from the options (`convertCLFtoLUT.py:169-199, 235-245`). -/
def toLutArgs (o : ToLutOptions K) : Py (WriteArgs K) := do
  let shIn ← shaperOption o.shaperIn
  let shOut ← shaperOption o.shaperOut
  let (rIn, r3d, rOut) := resolutionOption o
  pure { res1d := o.res1d, res3d := r3d, resIn := rIn, resCube := r3d, resOut := rOut, lo := o.lo
         hi := o.hi, shIn := shIn, shOut := shOut }

/-- `convertCLFtoLUT.py:97-245` `main`: what is written at the path of `--lut`, `none` if
nothing is. -/
def toLutMain (A : Arith K) (compat : ℕ) (formats : List (LutClass K)) (fs : String → Option File)
    (fuel : ℕ) (o : ToLutOptions K) : Py (Option Written) := do
  let a ← toLutArgs o
  match o.clf, o.lut with
  | some clf, some lut => convertClfToLut A compat formats fs fuel clf lut o.format (dataFormatOption o) a
  | _, _ => pure none

/-! ## Help texts -/

/-- The formats a help text lists for a capability (`convertCLFtoLUT.py:117-136`,
`convertLUTtoCLF.py:72-75`), by extension; the text has their descriptions. -/
def listedFormats (formats : List (LutClass K)) (capability : Capability) : List Txt :=
  (formats.map fun c => c.extensions.filter fun e => capability ∈ c.capabilities e).flatten

/-! ## convertLUTtoCLF -/

/-- The options of `convertLUTtoCLF.py` (lines 82-86). -/
structure ToClfOptions where
  lut : Option Txt := none
  clf : Option String := none
  inverse : Bool := false
  useIndexMaps : Bool := false
  useHalfDomain : Bool := false

/-- `convertLUTtoCLF.py:67-118` `main`: what is written at the path of `--clf`.  A list
without nodes is false (`clf/ProcessList.py:114-115`), and is not written. -/
def toClfMain (compat : ℕ) (formats : List (LutClass K)) (files : Txt → Py Txt) (o : ToClfOptions) :
    Py (Option File) :=
  match o.lut, o.clf with
  | some lut, some _ => do
    let l ← registryReadList formats files lut { inverse := o.inverse, useIndexMaps := o.useIndexMaps
                                                 useHalfDomain := o.useHalfDomain }
    match l with
    | none => pure none
    | some l =>
      if l.processes.isEmpty then pure none
      else do
        let f ← l.writeFile compat false false
        pure (some f)
  | _, _ => pure none

/-! ## convertOCIOtoCLF -/

/-- The options of `convertOCIOtoCLF.py` (lines 290-295). -/
structure OcioOptions where
  config : Option Txt := none
  source : List String := []
  destination : List String := []
  output : Option String := none
  useHalfDomain : Bool := false
  useIndexMaps : Bool := false

/-- `convertOCIOtoCLF.py:282-334` `main`: what is written at the path of `--output`.
`configs` loads a configuration. -/
def ocioMain (compat : ℕ) (formats : List (LutClass K)) (files : Txt → Py Txt)
    (configs : Txt → Py (OcioConfig K)) (o : OcioOptions) : Py (Option File) :=
  match o.config, o.output with
  | some path, some _ =>
    if o.source ≠ [] ∨ o.destination ≠ [] then do
      let config ← configs path
      convertOcio compat formats files config path o.source o.destination o.useIndexMaps o.useHalfDomain
    else pure none
  | _, _ => pure none

/-! ## filterImageWithCLF -/

/-- The options of `filterImageWithCLF.py` (lines 641-648) that say something about the
pixels.  `multithreaded` is `cpu_count()` if it is not given. -/
structure FilterOptions where
  input : Option Txt := none
  output : Option Txt := none
  clf : Option String := none
  outputBitDepth : Option String := none
  multithreaded : Option ℤ := none

/-- The number of processes (`filterImageWithCLF.py:646, 660-661`). -/
def workersOption (cpus : ℕ) (o : FilterOptions) : ℕ :=
  (min (cpus : ℤ) (max 1 (o.multithreaded.getD cpus))).toNat

/-- The test of line 675: the option is given, not empty, and not a bit depth. -/
def badDepthOption (o : FilterOptions) : Bool :=
  match o.outputBitDepth with
  | none => false
  | some d => d ≠ "" && AVal.str d ∉ bitDepthValues

/-- `filterImageWithCLF.py:620-700` `main`: the image written at the path of `--output`.
`images` loads an image (`none`: it cannot be opened). -/
def filterMain (A : Arith K) (compat : ℕ) (fs : String → Option File) (fuel : ℕ)
    (images : Txt → Option (Image K)) (cpus : ℕ) (schedule : List ℕ) (o : FilterOptions) :
    Py (Option (Image K)) :=
  if badDepthOption o then pure none
  else match o.clf with
    | none => pure none
    | some clf => do
      let l ← readFile A compat fs fuel false clf
      match o.input, o.output with
      | some input, some _ =>
        filterImage A compat (images input) l.processes (o.outputBitDepth.map AVal.str)
          (workersOption cpus o) schedule
      | _, _ => pure none

end CLF
