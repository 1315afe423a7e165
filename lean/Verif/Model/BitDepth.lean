import Verif.Model.Num

/-!
# Attributes and bit depths (`clf/ProcessNode.py`)
-/

namespace CLF

/-- Attribute values.  Values read from a file are strings, except that
`"True"`/`"False"` become booleans (`clf/ProcessNode.py:199-200`); values set
through the API may also be booleans, or other objects of which only the printed
form matters (`other`, e.g. the float `compCLFversion`). -/
inductive AVal
  | str (s : String)
  | bool (b : Bool)
  | other (text : String)
  deriving DecidableEq, Repr

/-- A Python dictionary as an association list. -/
abbrev Dict (α : Type) := List (String × α)

/-- `d[key]` or `None` (`getAttribute`, `clf/ProcessNode.py:271-276`). -/
def Dict.get? {α : Type} (d : Dict α) (k : String) : Option α :=
  match d with
  | [] => none
  | (k', v) :: t => if k' = k then some v else Dict.get? t k

/-- `d[key] = v` (`setAttribute`, `clf/ProcessNode.py:269-270`): replaces the
entry if the key is present, otherwise adds one. -/
def Dict.set {α : Type} (d : Dict α) (k : String) (v : α) : Dict α :=
  match d with
  | [] => [(k, v)]
  | (k', v') :: t => if k' = k then (k, v) :: t else (k', v') :: Dict.set t k v

/-- `d.pop(key)` / `del d[key]` on a dictionary. -/
def Dict.del {α : Type} (d : Dict α) (k : String) : Dict α :=
  d.filter fun p => p.1 ≠ k

/-- `d[key]`, raising `KeyError`. -/
def Dict.getE {α : Type} (d : Dict α) (k : String) : Py α :=
  match d.get? k with
  | some v => .ok v
  | none => .error .keyError

/-- A bit depth as the code sees it: the attribute value, or `None`
(`getInBitDepth`, `clf/ProcessNode.py:314-315`). -/
abbrev Depth := Option AVal

/-- The string depth, e.g. `depth "10i"` (`clf/ProcessNode.py:68-75`). -/
abbrev depth (s : String) : Depth := some (.str s)

variable {K : Type} [Field K] [LinearOrder K]

/-- `clf/ProcessNode.py:107-120` `bitDepthSize`. -/
def bitDepthSize (d : Depth) : K :=
  if d = depth "8i" then 2 ^ 8 - 1
  else if d = depth "10i" then 2 ^ 10 - 1
  else if d = depth "12i" then 2 ^ 12 - 1
  else if d = depth "16i" then 2 ^ 16 - 1
  else 1

/-- `clf/ProcessNode.py:77-90` `bitDepthToNormalized`. -/
def bitDepthToNormalized (v : Flt K) (d : Depth) : Flt K :=
  if d = depth "8i" then v / .fin (2 ^ 8 - 1)
  else if d = depth "10i" then v / .fin (2 ^ 10 - 1)
  else if d = depth "12i" then v / .fin (2 ^ 12 - 1)
  else if d = depth "16i" then v / .fin (2 ^ 16 - 1)
  else v

/-- `clf/ProcessNode.py:92-105` `normalizedToBitDepth`. -/
def normalizedToBitDepth (v : Flt K) (d : Depth) : Flt K :=
  if d = depth "8i" then v * .fin (2 ^ 8 - 1)
  else if d = depth "10i" then v * .fin (2 ^ 10 - 1)
  else if d = depth "12i" then v * .fin (2 ^ 12 - 1)
  else if d = depth "16i" then v * .fin (2 ^ 16 - 1)
  else v

/-- `clf/ProcessNode.py:122-123` `bitDepthIsInteger`. -/
def bitDepthIsInteger (d : Depth) : Bool :=
  d = depth "8i" || d = depth "10i" || d = depth "12i" || d = depth "16i"

/-- `clf/Common.py:61-66` feature masks, tested with bitwise `&`. -/
def autodesk : Nat := 0x1
/-- See `autodesk`. -/
def duiker : Nat := 0x2
/-- `getFeatureCompatibility() & featureSets[...]` as a truth value
(`clf/Common.py:70-76`); the global is passed as the argument `compat`. -/
def hasFeature (compat mask : Nat) : Bool := (compat &&& mask) != 0

end CLF
