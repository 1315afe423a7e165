import Verif.Spec.Chain
import Verif.Spec.Half

/-!
# Specification of the curves of index maps and half-domain tables
-/

namespace CLF.Spec

variable {K : Type} [Field K] [LinearOrder K] [FloorRing K]

/-- The polygon through the points whose coordinates are listed, constant before the first and after the last. -/
def indexCurve : List K → List K → K → K
  | x0 :: x1 :: xs, y0 :: y1 :: ys, x =>
    if x ≤ x0 then y0 else if x ≤ x1 then affine x0 x1 y0 y1 x else indexCurve (x1 :: xs) (y1 :: ys) x
  | _, y :: _, _ => y
  | _, [], _ => 0

/-- No segment is steeper than `q`. -/
def SlopesWithin : List K → List K → K → Prop
  | x0 :: x1 :: xs, y0 :: y1 :: ys, q => (y1 - y0) / (x1 - x0) ≤ q ∧ SlopesWithin (x1 :: xs) (y1 :: ys) q
  | _, _, q => 0 ≤ q

/-- Between neighbouring halves whose entries are `V`, near the first of them and at places at most `D` in size, `ψ` is within `η` of the straight
line, and the entries are at most `C` in size. -/
structure HalfCurve (V : ℕ → K) (ψ : K → K) (D η C : K) : Prop where
  near : ∀ (i j : ℕ) (w : K), halfNeighbours i j → 0 ≤ w → w ≤ 1 / 2 → |(1 - w) * halfValue i + w * halfValue j| ≤ D →
    |(1 - w) * V i + w * V j - ψ ((1 - w) * halfValue i + w * halfValue j)| ≤ η
  size : ∀ (i j : ℕ) (w : K), halfNeighbours i j → 0 ≤ w → w ≤ 1 / 2 → |(1 - w) * halfValue i + w * halfValue j| ≤ D → |V i| ≤ C ∧ |V j| ≤ C

end CLF.Spec
