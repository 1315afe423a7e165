import Mathlib.Algebra.Order.Field.Basic

/-!
# What a half-float bit pattern means

Independent of the model: sign bit, five exponent bits, ten fraction bits.
-/

namespace CLF.Spec

/-- The pattern is a number, not an infinity or NaN. -/
def halfFinite (n : ℕ) : Prop := n < 65536 ∧ n / 1024 % 32 ≠ 31

/-- The number a finite pattern stands for. -/
def halfValue {K : Type} [Field K] (n : ℕ) : K :=
  (if n / 32768 % 2 = 1 then -1 else 1) *
    (if n / 1024 % 32 = 0 then ((n % 1024 : ℕ) : K) / 2 ^ 24
      else ((1024 + n % 1024 : ℕ) : K) * 2 ^ (n / 1024 % 32) / 2 ^ 25)

/-- Two patterns of numbers of the same sign, at most one step apart. -/
def halfNeighbours (i j : ℕ) : Prop :=
  halfFinite i ∧ halfFinite j ∧ i / 32768 = j / 32768 ∧ i ≤ j + 1 ∧ j ≤ i + 1

end CLF.Spec
