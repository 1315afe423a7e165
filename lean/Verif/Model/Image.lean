import Verif.Model.ArrayText
import Verif.Model.Build
import Verif.Model.Process

/-!
# Image filtering (`filterImageWithCLF.py`)

OpenImageIO is represented by what the code reads from an open image and what it hands to
an image to be written; opening and writing the output never fail.  A `HALF` image is given by its half values: the
packing of two halfs into a float (`filterImageWithCLF.py:70-111`) undoes what the library
does and is left out here; it is modelled in `HalfPack.lean`.  Of the metadata only `oiio:BitsPerSample` is represented; the other attributes are in `Metadata.lean`.
Messages are left out, except that printing one divides by a number of rows.
-/

namespace CLF

variable {K : Type} [Field K] [LinearOrder K] [IsStrictOrderedRing K] [FloorRing K]

/-- `inputImageSpec.format.basetype`; `other` is any type the tables of
`filterImageWithCLF.py:116-130` do not list. -/
inductive ImgType
  | uint8 | uint16 | half | float | other
  deriving DecidableEq, Repr

/-- The values of an image. -/
inductive Samples (K : Type)
  | ints (l : List ℕ)
  | floats (l : List (Flt K))
  deriving DecidableEq

/-- An image as it is read or written: type, size, the value of `oiio:BitsPerSample` and the
values in scan-line order. -/
structure Image (K : Type) where
  type : ImgType
  width : ℕ
  height : ℕ
  channels : ℕ
  bits : Option ℕ
  data : Samples K
  deriving DecidableEq

/-- `oiioBitDepthToCLFBitDepth` (`filterImageWithCLF.py:116-121`). -/
def typeDepth : ImgType → Py AVal
  | .uint8 => .ok (.str "8i")
  | .uint16 => .ok (.str "16i")
  | .half => .ok (.str "16f")
  | .float => .ok (.str "32f")
  | .other => .error .keyError

/-- `clfBitDepthToOIIOBitDepth` (`filterImageWithCLF.py:123-130`). -/
def depthType (d : AVal) : Py ImgType :=
  if d = .str "8i" then .ok .uint8
  else if d = .str "10i" then .ok .uint16
  else if d = .str "12i" then .ok .uint16
  else if d = .str "16i" then .ok .uint16
  else if d = .str "16f" then .ok .half
  else if d = .str "32f" then .ok .float
  else .error .keyError

/-- `x >> n`: a negative count is a `ValueError`. -/
def shiftRight (x : ℕ) (n : ℤ) : Py ℕ :=
  if n < 0 then .error .valueError else .ok (x >>> n.toNat)

/-- What `readPixelArray` returns of an image: its values, their bit depth, and the image. -/
structure PixelArray (K : Type) where
  data : Samples K
  depth : AVal
  image : Image K

/-- `filterImageWithCLF.py:135-200` `readPixelArray` with `bitDepthOverride="auto"`, the only
value that is used.  For an image that cannot be opened (`none`) seven values are unpacked into six
names. -/
def readPixelArray : Option (Image K) → Py (PixelArray K)
  | none => .error .valueError
  | some img => do
    let bitDepth ← typeDepth img.type
    match img.bits, img.type, img.data with
    | some n, .uint16, .ints l => do
      let bitDepth := if n = 10 then .str "10i" else if n = 12 then .str "12i" else bitDepth
      let bitShift : ℤ := 16 - n
      let l ← if bitShift ≠ 0 then l.mapM fun x => shiftRight x bitShift else pure l
      pure ⟨.ints l, bitDepth, img⟩
    | _, _, _ => pure ⟨img.data, bitDepth, img⟩

/-- `pixels[i] = int(x) << shift` on a numpy array of `n`-bit unsigned integers
(`filterImageWithCLF.py:232, 250`): integers beyond 64 bits raise, others keep their last
`n` bits. -/
def storeUInt (n shift : ℕ) (x : Flt K) : Py ℕ := do
  let i ← truncInt x
  let i := i * 2 ^ shift
  if -2 ^ 63 ≤ i ∧ i < 2 ^ 63 then pure (i % 2 ^ n).toNat else .error .overflow

/-- `bitDepthValue` (`filterImageWithCLF.py:270-275`). -/
def depthBits (d : AVal) : Py ℕ :=
  if d = .str "8i" then .ok 8
  else if d = .str "10i" then .ok 10
  else if d = .str "12i" then .ok 12
  else if d = .str "16i" then .ok 16
  else .error .keyError

/-- `filterImageWithCLF.py:205-328` `writePixelArray`: the image that is written.  `src` gives
the size and the metadata. -/
def writePixelArray (pixels : List (Flt K)) (d : AVal) (src : Image K) : Py (Image K) := do
  let type ← depthType d
  let data ← match type with
    | .uint8 => do
      let l ← pixels.mapM (storeUInt 8 0)
      pure (Samples.ints l)
    | .uint16 => do
      let bitShift := if d = .str "10i" then 6 else if d = .str "12i" then 4 else 0
      let l ← pixels.mapM (storeUInt 16 bitShift)
      pure (Samples.ints l)
    | .half => pure (Samples.floats (pixels.map half.round))
    | _ => pure (Samples.floats pixels)
  let bits ← match src.bits with
    | some _ => do
      let n ← depthBits d
      pure (some n)
    | none =>
      if type = .uint8 ∨ type = .uint16 then do
        let n ← depthBits d
        pure (some n)
      else pure none
  pure ⟨type, src.width, src.height, src.channels, bits, data⟩

/-! ## Rows -/

/-- The values of a slice of the image as floats: `np.array(ovalue, dtype=np.float32)`. -/
def Samples.slice (A : Arith K) (s : Samples K) (a b : ℕ) : List (Flt K) :=
  match s with
  | .ints l => (pySlice l a b).map fun x : ℕ => A.f32 (.fin (x : K))
  | .floats l => (pySlice l a b).map A.f32

/-- What a filter run works with: the list, the two Ranges, and the image. -/
structure Job (K : Type) where
  nodes : List (Node K)
  inRange : Option (Base K)
  outRange : Option (Base K)
  data : Samples K
  width : ℕ
  height : ℕ
  channels : ℕ

/-- `row % math.ceil((height-1)/100.0)` (the ceiling as an integer quotient), which comes before everything else in the row
functions (`filterImageWithCLF.py:347, 391, 440`). -/
def progress (height : ℕ) : Py Unit :=
  if ((height : ℤ) - 1 + 99) / 100 = 0 then .error .zeroDivision else .ok ()

/-- A Range, if there is one. -/
def optRange (A : Arith K) (r : Option (Base K)) (v : List (Flt K)) : Py (List (Flt K)) :=
  match r with
  | none => pure v
  | some b => do
    let r ← rangeProcess A b v
    pure r.out

/-- The steps common to the row functions (`filterImageWithCLF.py:354-366, 398-410,
446-457`). -/
def filterValues (A : Arith K) (compat : ℕ) (j : Job K) (stride : ℕ) (v : List (Flt K)) :
    Py (List (Flt K)) := do
  let v ← optRange A j.inRange v
  let v ← processList A compat j.nodes v stride
  optRange A j.outRange v

/-- `for c in range(n): out[index + c] = v[c]`. -/
def copyInto (A : Arith K) (out : List (Flt K)) (index n : ℕ) (v : List (Flt K)) :
    Py (List (Flt K)) :=
  (List.range n).foldlM (init := out) fun out c => do
    let x ← pyGet v c
    pySet out (index + c) (A.f32 x)

/-- `filterImageWithCLF.py:336-373` `filterRow_pixel`, which no other function calls; `out` is
`processedPixels`.  In `verbose` mode it uses the undefined name `j`. -/
def filterRowPixel (A : Arith K) (compat : ℕ) (j : Job K) (verbose : Bool) (row : ℕ)
    (out : List (Flt K)) : Py (List (Flt K)) := do
  progress j.height
  (List.range j.width).foldlM (init := out) fun out i => do
    let index := (row * j.width + i) * j.channels
    let v ← filterValues A compat j 0 (j.data.slice A index (index + j.channels))
    if verbose then .error .nameError
    copyInto A out index j.channels v

/-- `filterImageWithCLF.py:380-418` `filterRow_stride`. -/
def filterRowStride (A : Arith K) (compat : ℕ) (j : Job K) (row : ℕ) (out : List (Flt K)) :
    Py (List (Flt K)) := do
  progress j.height
  let index := row * j.width * j.channels
  let v ← filterValues A compat j j.channels (j.data.slice A index (index + j.width * j.channels))
  copyInto A out index (j.width * j.channels) v

/-- `filterImageWithCLF.py:425-465` `filterRow_parallel`, on the row's slice. -/
def filterRowParallel (A : Arith K) (compat : ℕ) (j : Job K) (v : List (Flt K)) :
    Py (List (Flt K)) := do
  progress j.height
  filterValues A compat j j.channels v

/-- `filterImageWithCLF.py:470-475` `filterRow_parallel_splitargs`: exceptions are swallowed
and `None` is returned. -/
def filterRowCaught (A : Arith K) (compat : ℕ) (j : Job K) (v : List (Flt K)) :
    Option (List (Flt K)) :=
  match filterRowParallel A compat j v with
  | .ok r => some r
  | .error _ => none

/-! ## The pool -/

/-- `multiprocessing.Pool.map_async` with `chunksize=1`: the tasks not yet taken with their
numbers, what each worker is working on, and the list of results, all `None` at first. -/
structure Pool (α β : Type) where
  queue : List (ℕ × α)
  workers : List (Option (ℕ × α))
  results : List (Option β)

/-- The pool when the call is made. -/
def Pool.start (β : Type) {α : Type} (workers : ℕ) (tasks : List α) : Pool α β where
  queue := tasks.zipIdx.map fun p => (p.2, p.1)
  workers := List.replicate workers none
  results := List.replicate tasks.length none

/-- Worker `w` makes a step: an idle one takes the next task, a busy one finishes and its
result is stored under the number of the task.  Arguments and results are copies (they are
pickled), so workers share nothing. -/
def Pool.step {α β : Type} (f : α → Option β) (p : Pool α β) (w : ℕ) : Pool α β :=
  match p.workers[w]?, p.queue with
  | some none, t :: rest => { p with queue := rest, workers := p.workers.set w (some t) }
  | some (some (i, a)), _ => { p with workers := p.workers.set w none, results := p.results.set i (f a) }
  | _, _ => p

/-- All tasks are finished. -/
def Pool.done {α β : Type} (p : Pool α β) : Bool :=
  p.queue.isEmpty && p.workers.all Option.isNone

/-- `result.get(0xFFFF)` after the workers made the steps of a schedule: the results, or a
timeout. -/
def poolMap {α β : Type} (f : α → Option β) (tasks : List α) (workers : ℕ) (schedule : List ℕ) :
    Option (List (Option β)) :=
  let p := schedule.foldl (Pool.step f) (Pool.start β workers tasks)
  if p.done then some p.results else none

/-- The copy loop `filterImageWithCLF.py:574-576`; a row that is `None` cannot be
subscripted. -/
def copyRows (A : Arith K) (j : Job K) (rows : List (Option (List (Flt K)))) (out : List (Flt K)) :
    Py (List (Flt K)) :=
  (List.range j.height).foldlM (init := out) fun out i =>
    (List.range (j.width * j.channels)).foldlM (init := out) fun out c => do
      let row ← pyGet rows i
      match row with
      | none => .error .typeError
      | some row => do
        let x ← pyGet row c
        pySet out (i * j.width * j.channels + c) (A.f32 x)

/-! ## Images -/

/-- A Range built with two depths only (`filterImageWithCLF.py:518, 522`); the depth of an
empty list is `None`. -/
def depthRange (inD outD : Depth) : Base K :=
  newBase (inD.getD (.other "None")) (outD.getD (.other "None")) (.str "") (.str "")

/-- `clf/ProcessList.py:299-303` `getInBitDepth`. -/
def listInDepth (ns : List (Node K)) : Depth :=
  match ns with
  | [] => none
  | n :: _ => n.attr "inBitDepth"

/-- `clf/ProcessList.py:308-312` `getOutBitDepth`. -/
def listOutDepth (ns : List (Node K)) : Depth :=
  match ns.getLast? with
  | none => none
  | some n => n.attr "outBitDepth"

/-- `clf.bitDepths.values()` (`clf/ProcessNode.py:67-74`). -/
def bitDepthValues : List AVal :=
  [.str "8i", .str "10i", .str "12i", .str "16i", .str "16f", .str "32f"]

/-- The set-up of `filterImageWithCLF.py:504-522`: the output depth and the job. -/
def filterJob (ns : List (Node K)) (p : PixelArray K) (outBitDepth : Option AVal) : AVal × Job K :=
  let outD := match outBitDepth with
    | some d => if d ∈ bitDepthValues then d else p.depth
    | none => p.depth
  let inRange := if listInDepth ns ≠ some p.depth then
    some (depthRange (some p.depth) (listInDepth ns)) else none
  let outRange := if listOutDepth ns ≠ some outD then
    some (depthRange (listOutDepth ns) (some outD)) else none
  (outD, ⟨ns, inRange, outRange, p.data, p.image.width, p.image.height, p.image.channels⟩)

/-- `filterImageWithCLF.py:480-615` `filterImageWithCLF`: the image that is written, or `none`
if the function returns without writing.  With more than one process the rows go through the
pool, whose workers follow the schedule; otherwise row 5 is filtered. -/
def filterImage (A : Arith K) (compat : ℕ) (img : Option (Image K)) (ns : List (Node K))
    (outBitDepth : Option AVal) (multithreaded : ℕ) (schedule : List ℕ) :
    Py (Option (Image K)) := do
  let p ← readPixelArray img
  let (outD, j) := filterJob ns p outBitDepth
  let zeros := List.replicate (j.width * j.height * j.channels) (Flt.fin (0 : K))
  if 1 < multithreaded then
    let tasks := (List.range j.height).map fun x =>
      j.data.slice A (x * j.width * j.channels) (x * j.width * j.channels + j.width * j.channels)
    match poolMap (filterRowCaught A compat j) tasks multithreaded schedule with
    | none => pure none
    | some rows =>
      match copyRows A j rows zeros with
      | .error _ => pure none
      | .ok pixels => do
        let out ← writePixelArray pixels outD p.image
        pure (some out)
  else do
    let pixels ← filterRowStride A compat j 5 zeros
    let out ← writePixelArray pixels outD p.image
    pure (some out)

end CLF
