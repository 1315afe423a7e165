import Verif.Model.Node

/-! # Specification: greys and the nodes that treat red, green and blue alike -/

namespace CLF.Spec

variable {K : Type}

/-- All pixels of `s` numbers each in `v` have equal red, green and blue. -/
def GreyImage (s : ℕ) (v : List (Flt K)) : Prop := ∀ k, k * s + s ≤ v.length → ∀ c < 3, v[k * s + c]? = v[k * s]?

/-- A table with one curve for all channels: it does not have three columns, or three equal ones. -/
def OneCurve (a : Arr K) : Prop :=
  a.dims[1]? ≠ some 3 ∨ (a.dims[0]? ≠ some 0 ∧ ∀ k, ∀ c < 3, a.values[k * 3 + c]? = a.values[k * 3]?)

/-- The values of a CDL are the same for all channels. -/
def SameForAll (l : Option (List (Flt K))) : Prop := ∀ v, l = some v → ∃ x, v = [x, x, x]

/-- A cube of finite entries whose entries on the grey diagonal are grey. -/
structure GreyDiagonal (a : Arr K) : Prop where
  shape : ∃ n rest, 0 < n ∧ a.dims = n :: n :: n :: rest ∧
    ∀ i < n, ∀ c < 3, a.values[(i * n * n + i * n + i) * 3 + c]? = a.values[(i * n * n + i * n + i) * 3]?
  finite : ∀ x ∈ a.values, ∃ q, x = .fin q

/-- A node that treats red, green and blue alike: a Range, an ExposureContrast, a 1D LUT with one curve for all channels, a 3D LUT that is not
trilinear and has greys on its diagonal, a CDL with the same slope, offset and power for all channels (and any saturation), a Gamma or Log
whose parameters name no channel, and groups and references of these.  LUTs have at most one IndexMap. -/
inductive Colourless : Node K → Prop
  | range {b : Base K} : Colourless (.leaf .range b)
  | lut1d {b : Base K} (array : ∀ a, b.array = .ok a → OneCurve a) (maps : b.indexMaps.length ≤ 1) : Colourless (.leaf .lut1d b)
  | lut3d {b : Base K} (interpolation : b.styleOf "interpolation" ≠ .str "trilinear") (array : ∀ a, b.array = .ok a → GreyDiagonal a)
      (maps : b.indexMaps.length ≤ 1) : Colourless (.leaf .lut3d b)
  | cdl {b : Base K} {w : Bool} {v : CdlValues K} (slope : SameForAll v.slope) (offset : SameForAll v.offset) (power : SameForAll v.power) :
      Colourless (.leaf (.cdl w v) b)
  | exposureContrast {b : Base K} {e c p : Flt K} : Colourless (.leaf (.exposureContrast e c p) b)
  | gamma {b : Base K} {ps : List (GammaParam K)} (params : ∀ p ∈ ps, p.channel = none) : Colourless (.leaf (.gamma ps) b)
  | log {b : Base K} {ps : List (LogParam K)} (params : ∀ p ∈ ps, p.channel = none) : Colourless (.leaf (.log ps) b)
  | group {b : Base K} {cs : List (Node K)} (children : ∀ n ∈ cs, Colourless n) : Colourless (.group b cs)
  | ref {b : Base K} {w : Bool} {ns : List (Node K)} (target : ∀ n ∈ ns, Colourless n) : Colourless (.ref b w ns)
  | refMissing {b : Base K} {w : Bool} : Colourless (.refMissing b w)

end CLF.Spec
