import Verif.Spec.Basic
import Mathlib.Data.List.OfFn
import Mathlib.Analysis.SpecialFunctions.Log.Base

/-!
# Specifications: sample grids, sampled curves, shapers
-/

namespace CLF.Spec

section
variable {K : Type} [Field K] [LinearOrder K]

/-- The `k`-th of the points that divide `[a, b]` into `m` equal parts. -/
def grid (m : ℕ) (a b : K) (k : ℕ) : K := a + k * ((b - a) / m)

/-- `(x, y)` lies on the polyline through the samples `s 0, …, s m` at the points of
the grid on `[a, b]`. -/
def OnCurve {m : ℕ} (a b : K) (s : Fin (m + 1) → K) (x y : K) : Prop :=
  ∃ k : Fin m, grid m a b k ≤ x ∧ x ≤ grid m a b (k + 1) ∧
    y = affine (grid m a b k) (grid m a b (k + 1)) (s k.castSucc) (s k.succ) x

/-- `(x, y)` lies on the polyline through the points `(X k, Y k)`. -/
def OnPolyline {m : ℕ} (X Y : Fin (m + 1) → K) (x y : K) : Prop :=
  ∃ k : Fin m, X k.castSucc ≤ x ∧ x ≤ X k.succ ∧
    y = affine (X k.castSucc) (X k.succ) (Y k.castSucc) (Y k.succ) x

/-- A cube of values as nested lists. -/
def cubeOf {α : Type} (n0 n1 n2 : ℕ) (F : ℕ → ℕ → ℕ → α) : List (List (List α)) :=
  (List.range n0).map fun r => (List.range n1).map fun g => (List.range n2).map fun b => F r g b

/-- `samples` (three per point) decode what `encode` does: encoding the samples taken at
the `m + 2` points of [0, 1] gives the points back. -/
def Decodes (encode : List (Flt K) → Py (List (Flt K))) (m : ℕ) (samples : List (Flt K)) :
    Prop :=
  ∀ k < m + 2, encode ((samples.drop (3 * k)).take 3)
    = .ok (List.replicate 3 (.fin (grid (m + 1) 0 1 k)))

end

/-- The shapers: `lo` goes to 0 and `hi` to 1, linearly in `x` or in its binary
logarithm. -/
inductive ShaperKind
  | linear
  | log2

/-- The name the code uses. -/
def ShaperKind.name : ShaperKind → String
  | linear => "linear"
  | log2 => "log2"

/-- The scale on which the shaper is linear. -/
noncomputable def ShaperKind.scale : ShaperKind → ℝ → ℝ
  | linear, x => x
  | log2, x => Real.logb 2 x

/-- Its inverse. -/
noncomputable def ShaperKind.unscale : ShaperKind → ℝ → ℝ
  | linear, y => y
  | log2, y => 2 ^ y

end CLF.Spec
