import Verif.Model.RoundedSampling
import Verif.Model.RoundedList
import Verif.Model.Registry

/-!
# Sampling and writing lists in an arithmetic with rounding

Source: `/repo/python/aces/lutFormats/Sampling.py`, `lutFormats/LutFormat.py`, `lutFormats/LutSPI.py`, `lutFormats/LutCSP.py`,
`lutFormats/LutCLF.py`, `lutFormats/LutCTL.py`.

The functions of `Model/Sampling.lean` and `Model/Registry.lean` again, with sample positions of `Model/RoundedSampling.lean` and lists
evaluated as in `Model/RoundedList.lean`.  The samples are the `float32` numbers the list returns; the writers print them
(`Model/Spi.lean`, `Model/Csp.lean` and so on) and do no arithmetic with them.  The positions a CSP writer prints are computed there
without rounding.
-/

namespace CLF

variable {K : Type} [Field K] [LinearOrder K] [IsStrictOrderedRing K] [FloorRing K]

/-- The one-dimensional sampling loop (`lutFormats/Sampling.py:317-324, 459-469, 513-518`). -/
def sampleLoopR (R : Rounding K) (n : ℕ) (lo hi : Flt K) (f : List (Flt K) → Py (List (Flt K))) : Py (List (Flt K)) := do
  let rows ← (List.range n).mapM fun i => do
    let v ← samplePointR R n lo hi i
    f [v, v, v]
  pure rows.flatten

/-- `lutFormats/Sampling.py:311-328` `sample1D`. -/
def sample1DR (E : Evaluator K) (compat : ℕ) (ns : List (Node K)) (n : ℕ) (lo hi : Flt K) : Py (List (Flt K)) :=
  sampleLoopR E.rounding n lo hi fun v => processListR E compat ns v 0

/-- The three-dimensional sampling loop (`lutFormats/Sampling.py:337-358, 479-507`). -/
def cubeLoopR (R : Rounding K) (res : ℕ × ℕ × ℕ) (lo hi : Flt K) (f : List (Flt K) → Py (List (Flt K))) : Py (Cube K) :=
  let init : Cube K := List.replicate res.2.2 (List.replicate res.2.1 (List.replicate res.1
    [.fin 0, .fin 0, .fin 0]))
  (List.range res.1).foldlM (init := init) fun s r =>
    (List.range res.2.1).foldlM (init := s) fun s g =>
      (List.range res.2.2).foldlM (init := s) fun s b => do
        let x ← samplePointR R res.1 lo hi r
        let y ← samplePointR R res.2.1 lo hi g
        let z ← samplePointR R res.2.2 lo hi b
        let v ← f [x, y, z]
        cubeSet s r g b v

/-- `lutFormats/Sampling.py:330-360` `sample3D`. -/
def sample3DR (E : Evaluator K) (compat : ℕ) (ns : List (Node K)) (res : ℕ × ℕ × ℕ) (lo hi : Flt K) : Py (Cube K) :=
  cubeLoopR E.rounding res lo hi fun v => processListR E compat ns v 0

/-- `if shaperType != None: v = shaper.process(v)` (`lutFormats/Sampling.py:488-499`). -/
def viaShaperR (E : Evaluator K) (compat : ℕ) (type : Option String) (ns : List (Node K)) (v : List (Flt K)) : Py (List (Flt K)) :=
  match type with
  | some _ => processListR E compat ns v 0
  | none => .ok v

/-- `if shaperType != None: samples = … else: samples = None` (`lutFormats/Sampling.py:455-471, 512-521`). -/
def shaperSamplesR (E : Evaluator K) (compat : ℕ) (type : Option String) (ns : List (Node K)) (n : ℕ) (lo hi : Flt K) :
    Py (Option (List (Flt K))) :=
  match type with
  | some _ => do
    let s ← sampleLoopR E.rounding n lo hi fun v => processListR E compat ns v 0
    pure (some s)
  | none => .ok none

/-- `lutFormats/Sampling.py:434-528` `sample1D3D1D`; the powers of two in the bounds of a shaper are those of the library
(`lutFormats/Sampling.py:387-388`).  As in `sample1D3D1D` the positions over [0, 1] are `t*(1-0)+0` here for `t` there; the
additional operations change nothing (C131). -/
def sample1D3D1DR (E : Evaluator K) (compat : ℕ) (ns : List (Node K)) (nIn : ℕ) (res : ℕ × ℕ × ℕ)
    (nOut : ℕ) (shIn shOut : ShaperSpec K) : Py (Sampled K) := do
  let sIn ← createShaper E.library shIn.1 shIn.2.1 shIn.2.2
  let sOut ← createShaper E.library shOut.1 shOut.2.1 shOut.2.2
  let samplesIn ← shaperSamplesR E compat shIn.1 sIn.forward nIn sIn.lo sIn.hi
  let cube ← cubeLoopR E.rounding res (.fin 0) (.fin 1) fun v => do
    let v ← viaShaperR E compat shIn.1 sIn.inverse v
    let v ← processListR E compat ns v 0
    viaShaperR E compat shOut.1 sOut.forward v
  let samplesOut ← shaperSamplesR E compat shOut.1 sIn.inverse nOut (.fin 0) (.fin 1)
  pure ⟨samplesIn, sIn.lo, sIn.hi, cube, samplesOut, sOut.lo, sOut.hi⟩

/-- `lutFormats/LutFormat.py:151-216` `LutFormat.write`. -/
def formatWriteR (E : Evaluator K) (compat : ℕ) (w : Writers K) (ns : List (Node K)) (style : Capability) (a : WriteArgs K) :
    Py (Option Written) :=
  match style with
  | .write1d => do
    let s ← sample1DR E compat ns a.res1d a.lo a.hi
    w.write1d s a.res1d a.lo a.hi
  | .write3d => do
    let s ← sample3DR E compat ns (a.res3d, a.res3d, a.res3d) a.lo a.hi
    w.write3d s (a.res3d, a.res3d, a.res3d) a.lo a.hi
  | .write1d3d1d => do
    let s ← sample1D3D1DR E compat ns a.resIn (a.resCube, a.resCube, a.resCube) a.resOut a.shIn a.shOut
    w.write1d3d1d s a.resIn (a.resCube, a.resCube, a.resCube) a.resOut
  | .read => .ok none

/-- `LutFormatSPI` (`lutFormats/LutSPI.py:73-149`). -/
def spiClassR (E : Evaluator K) (compat : ℕ) (fmt : Flt K → Txt) : LutClass K :=
  { spiClass E.library compat fmt with
    write := formatWriteR E compat
      { write1d := fun s n lo hi => wroteText (writeSpi1d fmt lo hi s n 3 3)
        write3d := fun s res _ _ => wroteText (writeSpi3d fmt s res) } }

/-- `LutFormatCSP` (`lutFormats/LutCSP.py:72-153`). -/
def cspClassR (E : Evaluator K) (compat : ℕ) : LutClass K :=
  { cspClass E.library compat with
    write := formatWriteR E compat
      { write1d := fun s n lo hi => wroteText (writeCsp1d lo hi s n 3 3)
        write3d := fun s res lo hi => wroteText (writeCsp3d lo hi s res)
        write1d3d1d := fun s n res _ => wroteText (writeCsp1d3dOpt s.samplesIn n s.inLo s.inHi s.cube res) } }

/-- `LutFormatCLF` (`lutFormats/LutCLF.py:74-115`). -/
def clfClassR (E : Evaluator K) (compat : ℕ) : LutClass K :=
  { clfClass E.library compat with
    write := formatWriteR E compat
      { write1d3d1d := fun s n res _ => (writeClf compat s n res).map fun f => some (.clf f) } }

/-- `LutFormatCTL` (`lutFormats/LutCTL.py:72-129`). -/
def ctlClassR (E : Evaluator K) (compat : ℕ) (fmt : Flt K → Txt) : LutClass K :=
  { ctlClass E.library compat fmt with
    write := formatWriteR E compat
      { write1d := fun s n lo hi => wroteText (writeCtl1d fmt lo hi s n 3 3)
        write3d := fun s res lo hi => wroteText (writeCtl3d lo hi s res) } }

/-- The registered classes (`lutFormats/__init__.py:88-92`, `lutFormats/Registry.py:77-85`). -/
def shippedFormatsR (E : Evaluator K) (compat : ℕ) (fmt : Flt K → Txt) : List (LutClass K) :=
  [spiClassR E compat fmt, cspClassR E compat, clfClassR E compat, ctlClassR E compat fmt]

end CLF
