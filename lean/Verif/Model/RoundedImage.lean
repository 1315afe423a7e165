import Verif.Model.Image
import Verif.Model.RoundedList

/-!
# Image filtering in an arithmetic with rounding

Source: `/repo/python/aces/filterImageWithCLF.py`.

`filterImage` of `Model/Image.lean` once more, with the Ranges and the list replaced by their versions of `Model/Rounded.lean` and
`Model/RoundedList.lean`.  Slices are stored as `float32` (`np.array(ovalue, dtype=np.float32)`), and so is `processedPixels`, the array
the rows are copied into.
-/

namespace CLF

variable {K : Type} [Field K] [LinearOrder K] [IsStrictOrderedRing K] [FloorRing K]

/-- The conversions that slices and copies make. -/
def Evaluator.arith (E : Evaluator K) : Arith K := { E.library with f32 := E.rounding single }

/-- A Range, if there is one (`filterImageWithCLF.py:355-357, 364-366, 399-401, 408-410, 447-449, 455-457`). -/
def optRangeR (R : Rounding K) (r : Option (Base K)) (v : List (Flt K)) : Py (List (Flt K)) :=
  match r with
  | none => pure v
  | some b => do
    let r ← rangeProcessR R b v
    pure r.out

/-- The steps common to the row functions (`filterImageWithCLF.py:354-366, 398-410, 446-457`). -/
def filterValuesR (E : Evaluator K) (compat : ℕ) (j : Job K) (stride : ℕ) (v : List (Flt K)) : Py (List (Flt K)) := do
  let v ← optRangeR E.rounding j.inRange v
  let v ← processListR E compat j.nodes v stride
  optRangeR E.rounding j.outRange v

/-- `filterImageWithCLF.py:380-418` `filterRow_stride`. -/
def filterRowStrideR (E : Evaluator K) (compat : ℕ) (j : Job K) (row : ℕ) (out : List (Flt K)) : Py (List (Flt K)) := do
  progress j.height
  let index := row * j.width * j.channels
  let v ← filterValuesR E compat j j.channels (j.data.slice E.arith index (index + j.width * j.channels))
  copyInto E.arith out index (j.width * j.channels) v

/-- `filterImageWithCLF.py:425-475` `filterRow_parallel` and `filterRow_parallel_splitargs`: exceptions are swallowed. -/
def filterRowCaughtR (E : Evaluator K) (compat : ℕ) (j : Job K) (v : List (Flt K)) : Option (List (Flt K)) :=
  match (do progress j.height; filterValuesR E compat j j.channels v) with
  | .ok r => some r
  | .error _ => none

/-- `filterImageWithCLF.py:480-615` `filterImageWithCLF`. -/
def filterImageR (E : Evaluator K) (compat : ℕ) (img : Option (Image K)) (ns : List (Node K)) (outBitDepth : Option AVal) (multithreaded : ℕ)
    (schedule : List ℕ) : Py (Option (Image K)) := do
  let p ← readPixelArray img
  let (outD, j) := filterJob ns p outBitDepth
  let zeros := List.replicate (j.width * j.height * j.channels) (Flt.fin (0 : K))
  if 1 < multithreaded then
    let tasks := (List.range j.height).map fun x =>
      j.data.slice E.arith (x * j.width * j.channels) (x * j.width * j.channels + j.width * j.channels)
    match poolMap (filterRowCaughtR E compat j) tasks multithreaded schedule with
    | none => pure none
    | some rows =>
      match copyRows E.arith j rows zeros with
      | .error _ => pure none
      | .ok pixels => do
        let out ← writePixelArray pixels outD p.image
        pure (some out)
  else do
    let pixels ← filterRowStrideR E compat j 5 zeros
    let out ← writePixelArray pixels outD p.image
    pure (some out)

end CLF
