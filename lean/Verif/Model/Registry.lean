import Verif.Model.Csp
import Verif.Model.Ctl
import Verif.Model.LutClf

/-!
# The registry of LUT formats

`lutFormats/Registry.py`, `lutFormats/LutFormat.py` and the four format classes that
`lutFormats/__init__.py` imports.  The file system is a function from paths to texts; what
is written is the result.  A reader or writer that raises part of the way is modelled as
raising.
-/

namespace CLF

variable {K : Type} [Field K] [LinearOrder K] [IsStrictOrderedRing K] [FloorRing K]

/-- `lutFormats/Common.py:74-77`. -/
inductive Capability
  | read | write1d | write3d | write1d3d1d
  deriving DecidableEq, Repr

/-! ## Paths -/

/-- The part of a path after its last slash. -/
def baseName (path : Txt) : Txt := (path.reverse.takeWhile (· ≠ '/')).reverse

/-- `os.path.splitext(path)[1]` (Python's `posixpath`): from the last dot of the file name
on, unless only dots (or nothing) come before it. -/
def splitExt (path : Txt) : Txt :=
  let name := (baseName path).reverse
  match name.dropWhile (· ≠ '.') with
  | [] => []
  | _ :: before =>
    if before.all (· = '.') then [] else '.' :: (name.takeWhile (· ≠ '.')).reverse

/-- `os.path.splitext(lutPath)[1][1:].strip().lower()` (`lutFormats/Registry.py:93, 157`,
`lutFormats/LutSPI.py:104`). -/
def extensionOf (path : Txt) : Txt := lower (strip ((splitExt path).drop 1))

/-! ## Format classes -/

/-- The arguments of `read` after the path (`lutFormats/Registry.py:88-92`). -/
structure ReadArgs where
  inverse : Bool := false
  interpolation : AVal := .str "linear"
  useIndexMaps : Bool := true
  useHalfDomain : Bool := true

/-- The arguments of `write` after the style (`lutFormats/Registry.py:149-155`). -/
structure WriteArgs (K : Type) where
  res1d : ℕ
  res3d : ℕ
  resIn : ℕ
  resCube : ℕ
  resOut : ℕ
  lo : Flt K
  hi : Flt K
  shIn : ShaperSpec K
  shOut : ShaperSpec K

/-- What a writer leaves on disk: a text, or an XML file. -/
inductive Written
  | text (t : Txt)
  | clf (f : File)

/-- A format class.  `read` gives the nodes, the empty list standing for any false result;
`write` gives what was written, `none` standing for a false result. -/
structure LutClass (K : Type) where
  formats : List (Txt × List Capability)
  read : (Txt → Py Txt) → Txt → ReadArgs → Py (List (Node K))
  write : List (Node K) → Capability → WriteArgs K → Py (Option Written)

namespace LutClass

/-- `lutFormats/LutFormat.py:107-109`. -/
def extensions (c : LutClass K) : List Txt := c.formats.map fun f => lower f.1

/-- `lutFormats/LutFormat.py:112-118`: an empty extension asks for all of them. -/
def capabilities (c : LutClass K) (extension : Txt) : List Capability :=
  ((if extension = [] then c.formats
    else c.formats.filter fun f => lower f.1 = lower extension).map Prod.snd).flatten

/-- `extension in cls.extensions() and cls.isCapable(capability, extension)`
(`lutFormats/Registry.py:104, 180`, `lutFormats/LutFormat.py:121-127`). -/
def offers (c : LutClass K) (extension : Txt) (capability : Capability) : Bool :=
  extension ∈ c.extensions && capability ∈ c.capabilities extension

/-- `canRead`, `canWrite1D`, `canWrite3D` and `canWrite1D3D1D`
(`lutFormats/LutFormat.py:121-138`) for the four capabilities; no extension is the empty one. -/
def can (c : LutClass K) (capability : Capability) (extension : Txt := []) : Bool :=
  capability ∈ c.capabilities extension

end LutClass

/-- The methods a format class adds to the base class: `write1D`, `write3D`,
`write1D3D1D`.  Those of the base class say that they cannot write, and return `False`
(`lutFormats/LutFormat.py:226-260`). -/
structure Writers (K : Type) where
  write1d : List (Flt K) → ℕ → Flt K → Flt K → Py (Option Written) := fun _ _ _ _ => .ok none
  write3d : Cube K → ℕ × ℕ × ℕ → Flt K → Flt K → Py (Option Written) := fun _ _ _ _ => .ok none
  write1d3d1d : Sampled K → ℕ → ℕ × ℕ × ℕ → ℕ → Py (Option Written) := fun _ _ _ _ => .ok none

/-- `lutFormats/LutFormat.py:151-216` `LutFormat.write`: sample the list, then call the
method of the class.  The sizes of the cube are expanded from one number. -/
def formatWrite (A : Arith K) (compat : ℕ) (w : Writers K) (ns : List (Node K)) (style : Capability)
    (a : WriteArgs K) : Py (Option Written) :=
  match style with
  | .write1d => do
    let s ← sample1D A compat ns a.res1d a.lo a.hi
    w.write1d s a.res1d a.lo a.hi
  | .write3d => do
    let s ← sample3D A compat ns (a.res3d, a.res3d, a.res3d) a.lo a.hi
    w.write3d s (a.res3d, a.res3d, a.res3d) a.lo a.hi
  | .write1d3d1d => do
    let s ← sample1D3D1D A compat ns a.resIn (a.resCube, a.resCube, a.resCube) a.resOut a.shIn a.shOut
    w.write1d3d1d s a.resIn (a.resCube, a.resCube, a.resCube) a.resOut
  | .read => .ok none

/-- `return True` after writing a text. -/
def wroteText (t : Py Txt) : Py (Option Written) := t.map fun t => some (.text t)

/-- `LutFormatSPI` (`lutFormats/LutSPI.py:73-149`).  `writeSPI3D` is passed the input
range, and does not use it.  `readSPIMTX` (`lutFormats/LutSPI.py:275-277`) returns `False`. -/
def spiClass (A : Arith K) (compat : ℕ) (fmt : Flt K → Txt) : LutClass K where
  formats := [("spi1d".toList, [.read, .write1d]), ("spi3d".toList, [.read, .write3d]),
    ("spimtx".toList, [])]
  read files path a := do
    let extension := extensionOf path
    if extension = "spi1d".toList then do
      let t ← files path
      readSpi1d t a.inverse a.interpolation a.useIndexMaps a.useHalfDomain
    else if extension = "spi3d".toList then do
      let t ← files path
      readSpi3d t a.inverse a.interpolation
    else .ok []
  write := formatWrite A compat
    { write1d := fun s n lo hi => wroteText (writeSpi1d fmt lo hi s n 3 3)
      write3d := fun s res _ _ => wroteText (writeSpi3d fmt s res) }

/-- `writeCSP1D3D` without an input shaper (`lutFormats/LutCSP.py:518-561` with
`samples1dIn` `None`): the first value asked of it raises, unless the resolution is 0; with
resolution 1 the sample point raises before. -/
def writeCsp1d3dOpt (samples : Option (List (Flt K))) (n : ℕ) (lo hi : Flt K) (data : Cube K)
    (res : ℕ × ℕ × ℕ) : Py Txt :=
  match samples with
  | some s => writeCsp1d3d s n lo hi data res
  | none =>
    if n = 0 then writeCsp1d3d [] 0 lo hi data res
    else if n = 1 then .error .zeroDivision
    else .error .typeError

/-- `LutFormatCSP` (`lutFormats/LutCSP.py:72-153`). -/
def cspClass (A : Arith K) (compat : ℕ) : LutClass K where
  formats := [("csp".toList, [.read, .write1d, .write3d, .write1d3d1d])]
  read files path a := do
    let t ← files path
    readCsp t a.inverse a.interpolation
  write := formatWrite A compat
    { write1d := fun s n lo hi => wroteText (writeCsp1d lo hi s n 3 3)
      write3d := fun s res lo hi => wroteText (writeCsp3d lo hi s res)
      write1d3d1d := fun s n res _ =>
        wroteText (writeCsp1d3dOpt s.samplesIn n s.inLo s.inHi s.cube res) }

/-- `LutFormatCLF` (`lutFormats/LutCLF.py:74-115`).  The `read` of the base class asks for
an undefined name (`lutFormats/LutFormat.py:148`). -/
def clfClass (A : Arith K) (compat : ℕ) : LutClass K where
  formats := [("clf".toList, [.write1d3d1d])]
  read _ _ _ := .error .nameError
  write := formatWrite A compat
    { write1d3d1d := fun s n res _ => (writeClf compat s n res).map fun f => some (.clf f) }

/-- `LutFormatCTL` (`lutFormats/LutCTL.py:72-129`).  Its `read` calls a method that does not
exist. -/
def ctlClass (A : Arith K) (compat : ℕ) (fmt : Flt K → Txt) : LutClass K where
  formats := [("ctl".toList, [.write1d, .write3d])]
  read _ _ _ := .error .attributeError
  write := formatWrite A compat
    { write1d := fun s n lo hi => wroteText (writeCtl1d fmt lo hi s n 3 3)
      write3d := fun s res lo hi => wroteText (writeCtl3d lo hi s res) }

/-- The registered classes (`lutFormats/__init__.py:88-92`, `lutFormats/Registry.py:77-85`),
in some order: `values()` of a dictionary.  The base class has no formats and is not
registered. -/
def shippedFormats (A : Arith K) (compat : ℕ) (fmt : Flt K → Txt) : List (LutClass K) :=
  [spiClass A compat fmt, cspClass A compat, clfClass A compat, ctlClass A compat fmt]

/-! ## The registry -/

/-- `lutFormats/Registry.py:87-143` `read`, with `returnProcessNodes`.  `none`: not
supported. -/
def registryRead (cs : List (LutClass K)) (files : Txt → Py Txt) (path : Txt) (a : ReadArgs) :
    Py (Option (List (Node K))) :=
  match cs with
  | [] => .ok none
  | c :: rest =>
    if c.offers (extensionOf path) .read then do
      let ns ← c.read files path a
      match ns with
      | [] => registryRead rest files path a
      | n :: ns => pure (some (n :: ns))
    else registryRead rest files path a

/-- `read` without `returnProcessNodes` (`lutFormats/Registry.py:126-137`). -/
def registryReadList (cs : List (LutClass K)) (files : Txt → Py Txt) (path : Txt) (a : ReadArgs) :
    Py (Option (PList K)) :=
  (registryRead cs files path a).map fun o => o.map convertedList

/-- The write style of a data format (`lutFormats/Registry.py:163-168`). -/
def writeStyle (dataFormat : String) : Capability :=
  if dataFormat = "1D" then .write1d else if dataFormat = "3D" then .write3d else .write1d3d1d

/-- `lutFormats/Registry.py:145-203` `write`: what is written, `none` if nothing is.  (The
function itself returns `None` in any case.) -/
def registryWrite (cs : List (LutClass K)) (ns : List (Node K)) (path : Txt) (dataFormat : String)
    (a : WriteArgs K) : Py (Option Written) :=
  match cs with
  | [] => .ok none
  | c :: rest =>
    if c.offers (extensionOf path) (writeStyle dataFormat) then do
      let w ← c.write ns (writeStyle dataFormat) a
      match w with
      | none => registryWrite rest ns path dataFormat a
      | some w => pure (some w)
    else registryWrite rest ns path dataFormat a

end CLF
