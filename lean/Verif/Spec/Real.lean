import Verif.Spec.Layout
import Verif.Spec.Basic
import Mathlib.Analysis.SpecialFunctions.Log.Base

/-!
# Specifications: arithmetic with powers and logarithms
-/

namespace CLF.Spec

/-- The arithmetic is that of the real numbers on finite values: stores do not round,
`pow` is the real power wherever that is defined, `log10` the real logarithm. Results
on infinities and NaN are left open. -/
structure RealArith (A : Arith ℝ) : Prop where
  exact : A.Exact
  pow : ∀ b e : ℝ, 0 < b ∨ (b = 0 ∧ 0 ≤ e) → A.pow (.fin b) (.fin e) = .fin (b ^ e)
  log10 : ∀ x : ℝ, 0 < x → A.log10 (.fin x) = .fin (Real.logb 10 x)

section
variable {K : Type} [Field K] [LinearOrder K]

/-- `A` computes positive powers of non-negative finite values as `P`. -/
structure Powers (A : Arith K) (P : K → K → K) : Prop where
  exact : A.Exact
  pow : ∀ b e : K, 0 ≤ b → 0 < e → A.pow (.fin b) (.fin e) = .fin (P b e)

/-- Stores keep values of the interval `[0, c]` in it (as rounding to `float32` does
when `c` is a `float32`). -/
def Keeps (A : Arith K) (c : K) : Prop :=
  ∀ x, 0 ≤ x → x ≤ c → ∃ y, A.f32 (.fin x) = .fin y ∧ 0 ≤ y ∧ y ≤ c

/-- A finite code value of the legal range of a depth. -/
def InScale (d : Depth) (v : Flt K) : Prop := ∃ x, v = .fin x ∧ 0 ≤ x ∧ x ≤ fullScale d

/-- A value confined to [0, 1]. -/
def clip (x : K) : K := min 1 (max 0 x)

/-- Rec. 709 luma. -/
def luma (w : Fin 3 → K) : K := 2126 / 10000 * w 0 + 7152 / 10000 * w 1 + 722 / 10000 * w 2

end

theorem RealArith.powers {A : Arith ℝ} (h : RealArith A) : Powers A fun b e => b ^ e :=
  ⟨h.exact, fun b e hb he => h.pow b e (by
    rcases eq_or_lt_of_le hb with hb | hb
    · exact .inr ⟨hb.symm, he.le⟩
    · exact .inl hb)⟩

end CLF.Spec
