import Verif.Spec.Grey

/-! # Specification: rearranging channels -/

namespace CLF.Spec

variable {K : Type} [Field K] [LinearOrder K] [IsStrictOrderedRing K] [FloorRing K]

/-- A pixel: three colours, and further channels. -/
def pixelOf (p : (Fin 3 → Flt K) × List (Flt K)) : List (Flt K) := p.1 0 :: p.1 1 :: p.1 2 :: p.2

/-- An image made of pixels. -/
def imageOf (ps : List ((Fin 3 → Flt K) × List (Flt K))) : List (Flt K) := (ps.map pixelOf).flatten

/-- The image that has colour `σ c` of each pixel in the place of colour `c`: red and blue exchanged, for example, or red in all
places. -/
def rearranged (σ : Fin 3 → Fin 3) (ps : List ((Fin 3 → Flt K) × List (Flt K))) : List ((Fin 3 → Flt K) × List (Flt K)) :=
  ps.map fun p => (p.1 ∘ σ, p.2)

/-- A node that applies the same curve to red, green and blue: a Range, a 1D LUT with one curve and at most one IndexMap, an
ExposureContrast, a Gamma or Log whose parameters name no channel, and groups and references of these. -/
inductive OneCurveNode : Node K → Prop
  | range {b : Base K} : OneCurveNode (.leaf .range b)
  | lut1d {b : Base K} (array : ∀ a, b.array = .ok a → OneCurve a) (maps : b.indexMaps.length ≤ 1) : OneCurveNode (.leaf .lut1d b)
  | exposureContrast {b : Base K} {e c p : Flt K} : OneCurveNode (.leaf (.exposureContrast e c p) b)
  | gamma {b : Base K} {ps : List (GammaParam K)} (params : ∀ p ∈ ps, p.channel = none) : OneCurveNode (.leaf (.gamma ps) b)
  | log {b : Base K} {ps : List (LogParam K)} (params : ∀ p ∈ ps, p.channel = none) : OneCurveNode (.leaf (.log ps) b)
  | group {b : Base K} {cs : List (Node K)} (children : ∀ n ∈ cs, OneCurveNode n) : OneCurveNode (.group b cs)
  | ref {b : Base K} {w : Bool} {ns : List (Node K)} (target : ∀ n ∈ ns, OneCurveNode n) : OneCurveNode (.ref b w ns)
  | refMissing {b : Base K} {w : Bool} : OneCurveNode (.refMissing b w)

end CLF.Spec
