import Verif.Spec.Real
import Verif.Lemmas.RoundedLut

/-! # Specifications: what is assumed of the C library -/

namespace CLF.Spec

/-- Powers of positive numbers and logarithms as the C library computes them for `float64` arguments: off by at most some units in the
last place.  (glibc documents at most two units for either function.) -/
structure GoodLibrary (L : Arith ℝ) : Prop where
  pow : ∀ b e : ℝ, double.near b = b → double.near e = e → 0 < b → b ^ e ≤ 2 ^ 900 →
    ∃ w, L.pow (.fin b) (.fin e) = .fin w ∧ |w - b ^ e| ≤ b ^ e * (1 / 2 ^ 50) + 2 ^ (-1000 : ℤ)
  zero : ∀ e : ℝ, double.near e = e → 0 < e → L.pow (.fin 0) (.fin e) = .fin 0
  log10 : ∀ x : ℝ, double.near x = x → 0 < x → ∃ w, L.log10 (.fin x) = .fin w ∧ |w - Real.logb 10 x| ≤ |Real.logb 10 x| * (1 / 2 ^ 50)

/-- A library without errors is good. -/
theorem RealArith.good {A : Arith ℝ} (h : RealArith A) : GoodLibrary A where
  pow b e _ _ hb _ := ⟨b ^ e, h.pow b e (.inl hb), by rw [sub_self, abs_zero]; have := Real.rpow_pos_of_pos hb e; positivity⟩
  zero e _ he := by rw [h.pow 0 e (.inr ⟨rfl, he.le⟩), Real.zero_rpow he.ne']
  log10 x _ hx := ⟨Real.logb 10 x, h.log10 x hx, by rw [sub_self, abs_zero]; positivity⟩

/-- Neither very small nor very large. -/
def Middle (x : ℝ) : Prop := 2 ^ (-100 : ℤ) ≤ x ∧ x ≤ 2 ^ 90

end CLF.Spec
