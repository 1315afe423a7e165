import Verif.Model.ArrayText
import Verif.Model.Node

/-!
# Arrays and groups as objects

Setters and getters of `Array`, and of the parts of `Group` and `ExposureContrast` that hold
other things.  An exception is caught by the caller, who goes on with the object as it was left.
-/

namespace CLF

/-- `clf/ProcessNode.py:125-126` `bitDepthIsFloatingPoint`. -/
def bitDepthIsFloatingPoint (d : Depth) : Bool :=
  !(d = depth "8i" || d = depth "10i" || d = depth "12i" || d = depth "16i")

variable {K : Type}

/-- An array and the global set of features (`clf/Common.py:60-76`, `clf/Array.py:73-94`).
The interpolators are left out: scipy is never used. -/
structure ArrState (K : Type) where
  compat : ℕ
  arr : Arr K

/-- Calls on an array, and the change of the features (`clf/Array.py:96-127`,
`clf/Common.py:70-72`). -/
inductive ArrCall (K : Type)
  | setDimensions (ds : List ℕ)
  | setValues (vs : List (Flt K))
  | setValuesAreIntegers (b : Bool)
  | setRawHalfs (b : Bool)
  | setFloatEncoding (s : String)
  | setFeatureCompatibility (m : ℕ)

/-- One call: the state it leaves, and what it raises. -/
def arrStep (s : ArrState K) : ArrCall K → ArrState K × Option PyErr
  | .setDimensions ds => ({ s with arr := { s.arr with dims := ds } }, none)
  | .setValues vs => ({ s with arr := { s.arr with values := vs } }, none)
  | .setValuesAreIntegers b => ({ s with arr := { s.arr with integers := b } }, none)
  | .setRawHalfs b => ({ s with arr := { s.arr with rawHalfs := b } }, none)
  | .setFloatEncoding e =>
    if hasFeature s.compat duiker then ({ s with arr := { s.arr with floatEncoding := e } }, none)
    else ({ s with arr := { s.arr with floatEncoding := "string" } }, some .unsupportedExtension)
  | .setFeatureCompatibility m => ({ s with compat := m }, none)

/-- A sequence of calls. -/
def arrRun (s : ArrState K) (cs : List (ArrCall K)) : ArrState K :=
  cs.foldl (fun s c => (arrStep s c).1) s

/-- `clf/ExtensionGroup.py:73-74` `addProcess`; the nodes of the group are not shared. -/
def groupAdd (n : Node K) (c : Node K) : Node K :=
  match n with
  | .group b cs => .group b (cs ++ [c])
  | n => n

/-- `clf/ExtensionGroup.py:75-76` `getProcesses`. -/
def groupProcesses : Node K → List (Node K)
  | .group _ cs => cs
  | _ => []

/-- `clf/ExtensionGroup.py:77-81` `getProcess`. -/
def groupFind (name : Option AVal) : List (Node K) → Option (Node K)
  | [] => none
  | n :: ns => if n.attr "name" = name then some n else groupFind name ns

/-- `clf/ExtensionExposureContrast.py:72-73` `setExposureContrastPivot`. -/
def setExposureContrastPivot (e c p : Flt K) : Node K → Node K
  | .leaf (.exposureContrast _ _ _) b => .leaf (.exposureContrast e c p) b
  | n => n

end CLF
