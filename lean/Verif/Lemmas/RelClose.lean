import Mathlib.Analysis.SpecialFunctions.Pow.Real
import Mathlib.Analysis.SpecialFunctions.Log.Base

/-! # Relative errors of real powers -/

namespace CLF

/-- `a` is off from the positive number `b` by at most the fraction `ε` of it. -/
def Spec.RelClose (a b ε : ℝ) : Prop := |a - b| ≤ ε * b

open Spec (RelClose)

theorem Spec.RelClose.mono {a b ε δ : ℝ} (h : RelClose a b ε) (hb : 0 ≤ b) (hε : ε ≤ δ) : RelClose a b δ :=
  h.trans (mul_le_mul_of_nonneg_right hε hb)

theorem Spec.RelClose.lower {a b ε : ℝ} (h : RelClose a b ε) : (1 - ε) * b ≤ a := by
  have := (abs_le.mp h).1
  linarith

theorem Spec.RelClose.upper {a b ε : ℝ} (h : RelClose a b ε) : a ≤ (1 + ε) * b := by
  have := (abs_le.mp h).2
  linarith

theorem Spec.RelClose.pos {a b ε : ℝ} (h : RelClose a b ε) (hb : 0 < b) (hε : ε < 1) : 0 < a :=
  lt_of_lt_of_le (mul_pos (by linarith) hb) h.lower

theorem Spec.RelClose.trans {a b c ε δ : ℝ} (h : RelClose a b ε) (h' : RelClose b c δ) (hε : 0 ≤ ε) : RelClose a c (ε * (1 + δ) + δ) := by
  have h1 := mul_le_mul_of_nonneg_left h'.upper hε
  have h2 := abs_sub_le a b c
  unfold RelClose at *
  linarith

theorem Spec.RelClose.scale {a b ε : ℝ} (h : RelClose a b ε) {t : ℝ} (ht : 0 ≤ t) : RelClose (a * t) (b * t) ε := by
  unfold RelClose at *
  rw [← sub_mul, abs_mul, abs_of_nonneg ht, ← mul_assoc]
  exact mul_le_mul_of_nonneg_right h ht

theorem abs_log_le {t ε : ℝ} (h : |t - 1| ≤ ε) (hε : ε ≤ 1 / 2) : |Real.log t| ≤ 2 * ε := by
  have ht := abs_le.mp h
  have hp : 0 < t := by linarith
  have h1 := Real.log_le_sub_one_of_pos hp
  have h2 := Real.one_sub_inv_le_log_of_pos hp
  have h3 : t⁻¹ - 1 ≤ 2 * ε := by
    have e : t⁻¹ - 1 = (1 - t) / t := by field_simp
    rw [e, div_le_iff₀ hp]
    nlinarith
  rw [abs_le]
  constructor <;> linarith

theorem Spec.RelClose.pow {a b ε : ℝ} (h : RelClose a b ε) (hb : 0 < b) (hε : ε ≤ 1 / 2) (r : ℝ) (hr : |r| * ε ≤ 1 / 2) :
    RelClose (a ^ r) (b ^ r) (4 * (|r| * ε)) := by
  have ha := h.pos hb (by linarith)
  have ht : |a / b - 1| ≤ ε := by
    have e : a / b - 1 = (a - b) / b := by field_simp
    rw [e, abs_div, abs_of_pos hb, div_le_iff₀ hb]
    exact h
  have h1 := abs_log_le ht hε
  have e : a ^ r = b ^ r * Real.exp (r * Real.log (a / b)) := by
    rw [Real.rpow_def_of_pos ha, Real.rpow_def_of_pos hb, ← Real.exp_add, Real.log_div ha.ne' hb.ne']
    congr 1
    ring
  have h2 : |r * Real.log (a / b)| ≤ 2 * (|r| * ε) := by
    rw [abs_mul]
    have := mul_le_mul_of_nonneg_left h1 (abs_nonneg r)
    linarith
  have h3 := Real.abs_exp_sub_one_le (x := r * Real.log (a / b)) (by linarith)
  have hbr := Real.rpow_pos_of_pos hb r
  unfold RelClose
  rw [e]
  have e2 : b ^ r * Real.exp (r * Real.log (a / b)) - b ^ r = b ^ r * (Real.exp (r * Real.log (a / b)) - 1) := by ring
  rw [e2, abs_mul, abs_of_pos hbr, mul_comm]
  exact mul_le_mul_of_nonneg_right (by linarith) hbr.le

/-- A change of the exponent. -/
theorem within_exponent {b e e' δ : ℝ} (hb : 0 < b) (h : |(e' - e) * Real.log b| ≤ δ) (hδ : δ ≤ 1) : RelClose (b ^ e') (b ^ e) (2 * δ) := by
  have h3 := Real.abs_exp_sub_one_le (x := (e' - e) * Real.log b) (h.trans hδ)
  have hbr := Real.rpow_pos_of_pos hb e
  have e1 : b ^ e' = b ^ e * Real.exp ((e' - e) * Real.log b) := by
    rw [Real.rpow_def_of_pos hb, Real.rpow_def_of_pos hb, ← Real.exp_add]
    congr 1
    ring
  unfold RelClose
  rw [e1]
  have e2 : b ^ e * Real.exp ((e' - e) * Real.log b) - b ^ e = b ^ e * (Real.exp ((e' - e) * Real.log b) - 1) := by ring
  rw [e2, abs_mul, abs_of_pos hbr, mul_comm]
  exact mul_le_mul_of_nonneg_right (by linarith) hbr.le

end CLF
