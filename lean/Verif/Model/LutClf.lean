import Verif.Model.Sampling
import Verif.Model.Write

/-!
# Writing sampled transforms as CLF

`lutFormats/LutCLF.py`.
-/

namespace CLF

variable {K : Type} [Field K] [LinearOrder K] [IsStrictOrderedRing K] [FloorRing K]

/-- The first stage, made from the samples of the input shaper
(`lutFormats/LutCLF.py:134-144`).  Both `None` and an empty list are false. -/
def clfInput (samples : Option (List (Flt K))) (n : ℕ) (lo hi : Flt K)
    (useIndexMaps useHalfDomain : Bool := true) : Py (List (Node K)) :=
  match samples with
  | none => .ok []
  | some [] => .ok []
  | some s =>
    if useIndexMaps then inverseIndexMap n 3 s lo hi
    else if useHalfDomain then inverseHalfDomain n 3 s lo hi true
    else inverseResampled n 3 s lo hi

/-- The values of the cube, blue fastest (`lutFormats/LutCLF.py:147-154`).  The list is
allocated with as many entries as are then assigned in order. -/
def clfCube (data : Cube K) (res : ℕ × ℕ × ℕ) : Py (List (Flt K)) := do
  let vs ← (List.range res.1).mapM fun r =>
    (List.range res.2.1).mapM fun g =>
      (List.range res.2.2).mapM fun b =>
        (List.range 3).mapM fun c => do
          let plane ← pyGet data r
          let row ← pyGet plane g
          let v ← pyGet row b
          pyGet v c
  pure (vs.map fun p => (p.map List.flatten).flatten).flatten

/-- The last stage (`lutFormats/LutCLF.py:163-168`). -/
def clfOutput (samples : Option (List (Flt K))) : Py (List (Node K)) :=
  match samples with
  | none => .ok []
  | some [] => .ok []
  | some s => do
    let lut ← lut1dSetArray (newLut1d float16 float16 (.str "lut1d") (.str "lut1d")) 3 s
    pure [.leaf .lut1d lut]

/-- The LUT3D node (`lutFormats/LutCLF.py:156-158`). -/
def clfLut3d (res : ℕ × ℕ × ℕ) (values : List (Flt K)) : Node K :=
  .leaf .lut3d (lut3dSetArray (newLut3d float16 float16 (.str "lut3d") (.str "lut3d"))
    [res.1, res.2.1, res.2.2] values).1

/-- The nodes (`lutFormats/LutCLF.py:131-168`).  The output range is not used. -/
def clfNodes (s : Sampled K) (nIn : ℕ) (res : ℕ × ℕ × ℕ) (useIndexMaps useHalfDomain : Bool := true) :
    Py (List (Node K)) := do
  let input ← clfInput s.samplesIn nIn s.inLo s.inHi useIndexMaps useHalfDomain
  let values ← clfCube s.cube res
  let output ← clfOutput s.samplesOut
  pure (input ++ [clfLut3d res values] ++ output)

/-- The list around converted nodes (`lutFormats/LutCLF.py:171-179`,
`lutFormats/Registry.py:128-137`). -/
def convertedList (ns : List (Node K)) : PList K where
  attrs := [("id", .str "Converted lut"), ("compCLFversion", .other "1.0"),
    ("name", .str "Converted lut")]
  processes := ns

/-- `lutFormats/LutCLF.py:117-185` `writeCLF1D3D1D`: what the file holds. -/
def writeClf (compat : ℕ) (s : Sampled K) (nIn : ℕ) (res : ℕ × ℕ × ℕ)
    (useIndexMaps useHalfDomain : Bool := true) : Py File := do
  let ns ← clfNodes s nIn res useIndexMaps useHalfDomain
  (convertedList ns).writeFile compat false false

end CLF
