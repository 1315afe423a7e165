import Verif.Spec.Chain

/-! # Specifications: the ASC CDL without clamping -/

set_option linter.unusedSectionVars false

namespace CLF.Spec

variable {K : Type} [Field K] [LinearOrder K] [IsStrictOrderedRing K] [FloorRing K]

/-- Slope, offset and a curve per channel, without clamping. -/
def openGraded (S : K) (s o : Fin 3 → K) (ψ : Fin 3 → K → K) (v : Fin 3 → K) (i : Fin 3) : K := ψ i (v i / S * s i + o i)

/-- Slope, offset, a curve per channel and saturation, without clamping, from the scale `S` to the scale `T`. -/
def openGrade (S T : K) (s o : Fin 3 → K) (ψ : Fin 3 → K → K) (σ : K) (v : Fin 3 → K) (i : Fin 3) : K :=
  (luma (openGraded S s o ψ v) + σ * (openGraded S s o ψ v i - luma (openGraded S s o ψ v))) * T

/-- Between `-Z` and `Z`, `ψ` is at most `C` in size, and takes numbers at most `D` apart to numbers at most `E` apart. -/
structure OpenModulus (ψ : K → K) (Z D E C : K) : Prop where
  size : ∀ x, |x| ≤ Z → |ψ x| ≤ C
  close : ∀ x y, |x| ≤ Z → |y| ≤ Z → |x - y| ≤ D → |ψ x - ψ y| ≤ E

/-- Powers of `float64` numbers between 0 and `Z` with exponent `p`, as `L` computes them, are off from `ψ` by at most `δ`; below 0 `ψ` is
the identity. -/
structure OpenPower (L : Arith K) (p : K) (ψ : K → K) (Z δ : K) : Prop where
  below : ∀ x, x < 0 → ψ x = x
  near : ∀ b, double.round (.fin b) = .fin b → 0 ≤ b → b ≤ Z → ∃ w, L.pow (.fin b) (.fin p) = .fin w ∧ |w - ψ b| ≤ δ

end CLF.Spec
