import Verif.Spec.Layout
import Verif.Model.Node

/-!
# Specifications: what the hypotheses say about a node's data
-/

namespace CLF

variable {K : Type} [Field K]

/-- `b` has depths `din`, `dout` and style `st`. -/
structure StyledNode (b : Base K) (din dout st : AVal) : Prop where
  inDepth : b.attrs.get? "inBitDepth" = some din
  outDepth : b.attrs.get? "outBitDepth" = some dout
  style : b.attrs.get? "style" = some st

/-- Slope 1, offset 0, power 1, saturation 1, given or left out. -/
structure NeutralCdl (v : CdlValues K) : Prop where
  slope : v.slope = none ∨ v.slope = some [.fin 1, .fin 1, .fin 1]
  offset : v.offset = none ∨ v.offset = some [.fin 0, .fin 0, .fin 0]
  power : v.power = none ∨ v.power = some [.fin 1, .fin 1, .fin 1]
  saturation : v.saturation = none ∨ v.saturation = some (.fin 1)

/-- The parameters of `v` are `s`, `o`, `p`, `σ` (an absent one stands for its
default). -/
structure CdlIs (v : CdlValues K) (s o p : Fin 3 → K) (σ : K) : Prop where
  slope : v.slope = some (Spec.fins s) ∨ (v.slope = none ∧ s = fun _ => 1)
  offset : v.offset = some (Spec.fins o) ∨ (v.offset = none ∧ o = fun _ => 0)
  power : v.power = some (Spec.fins p) ∨ (v.power = none ∧ p = fun _ => 1)
  saturation : v.saturation = some (.fin σ) ∨ (v.saturation = none ∧ σ = 1)

end CLF
