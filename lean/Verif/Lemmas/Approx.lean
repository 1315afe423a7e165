import Verif.Lemmas.RoundedRange
import Verif.Lemmas.RelClose

/-! # Errors of computed numbers, counted in units of the last place of a bound -/

set_option linter.unusedSectionVars false

namespace CLF

/-- `x` is `X` up to `n` units, where a unit is the `2⁻⁵³`th part of a bound of `X`. -/
structure Approx (x X B n : ℝ) : Prop where
  size : |X| ≤ B
  near : |x - X| ≤ n * (B / 2 ^ 53)
  units : 0 ≤ n ∧ n ≤ 2 ^ 26

namespace Approx

variable {x X y Y B C n m : ℝ}

theorem nonneg (h : Approx x X B n) : 0 ≤ B := (abs_nonneg _).trans h.size

theorem exact (h : |X| ≤ B) : Approx X X B 0 := ⟨h, by simp, le_rfl, by norm_num⟩

theorem mono (h : Approx x X B n) (hm : n ≤ m) (hm' : m ≤ 2 ^ 26) : Approx x X B m :=
  ⟨h.size, h.near.trans (mul_le_mul_of_nonneg_right hm (div_nonneg h.nonneg (by norm_num))), h.units.1.trans hm, hm'⟩

theorem off (h : Approx x X B n) : |x - X| ≤ B / 2 ^ 27 := by
  refine h.near.trans ((mul_le_mul_of_nonneg_right h.units.2 (div_nonneg h.nonneg (by norm_num))).trans (le_of_eq ?_))
  ring

theorem abs_le (h : Approx x X B n) : |x| ≤ 2 * B := by
  have h1 := abs_add_le (x - X) X
  rw [sub_add_cancel] at h1
  have h2 := h.off
  have h3 := h.size
  have h4 := h.nonneg
  norm_num at h2
  linarith

/-- A result that is rounded. -/
theorem round (h : Approx x X B n) (h1 : 1 / 2 ^ 500 ≤ B) (h2 : B ≤ 2 ^ 299) (hn : n + 2 ≤ 2 ^ 26) :
    ieee double (.fin x) = .fin (double.near x) ∧ Approx (double.near x) X B (n + 2) ∧ double.near (double.near x) = double.near x := by
  refine ⟨double_fin (h.abs_le.trans ?_), ⟨h.size, ?_, by linarith [h.units.1], hn⟩, Fmt.near_near _ _⟩
  · have : (2 : ℝ) ^ 300 = 2 * 2 ^ 299 := pow_succ' 2 299
    rw [this]
    exact mul_le_mul_of_nonneg_left h2 (by norm_num)
  · have e := double_rounder.err x
    have t : (2 : ℝ) ^ (-1075 : ℤ) ≤ B / 2 ^ 60 := by
      have h3 : (2 : ℝ) ^ (-1075 : ℤ) ≤ 2 ^ (-560 : ℤ) := zpow_le_zpow_right₀ one_le_two (by norm_num)
      have h4 : (2 : ℝ) ^ (-560 : ℤ) = 1 / 2 ^ 500 / 2 ^ 60 := by
        rw [show (-560 : ℤ) = -(500 : ℕ) + -(60 : ℕ) by norm_num, zpow_add₀ (by norm_num), zpow_neg, zpow_neg, zpow_natCast, zpow_natCast]
        field_simp
      exact (h3.trans h4.le).trans (div_le_div_of_nonneg_right h1 (by positivity))
    have a1 := abs_add_le (x - X) X
    rw [sub_add_cancel] at a1
    have a2 := h.off
    have a3 := h.size
    have a4 := h.near
    have a5 := abs_sub_le (double.near x) x X
    have e1 : (n + 2) * (B / 2 ^ 53) = n * (B / 2 ^ 53) + B / 2 ^ 52 := by ring
    have b0 := h.nonneg
    rw [e1]
    generalize n * (B / 2 ^ 53) = q at *
    generalize (2 : ℝ) ^ (-1075 : ℤ) = η at *
    norm_num at e t a2 ⊢
    linarith

theorem mul (h : Approx x X B n) (h' : Approx y Y C m) (hn : n + 2 * m ≤ 2 ^ 26) : Approx (x * y) (X * Y) (B * C) (n + 2 * m) := by
  have b0 := h.nonneg
  have c0 := h'.nonneg
  refine ⟨by rw [abs_mul]; exact mul_le_mul h.size h'.size (abs_nonneg _) b0, ?_, by linarith [h.units.1, h'.units.1], hn⟩
  have e : x * y - X * Y = (x - X) * Y + x * (y - Y) := by ring
  rw [e]
  refine (abs_add_le _ _).trans ?_
  rw [abs_mul, abs_mul]
  have h1 := mul_le_mul h.near h'.size (abs_nonneg _) (mul_nonneg h.units.1 (by positivity))
  have h2 := mul_le_mul h.abs_le h'.near (abs_nonneg _) (by positivity)
  have e1 : (n + 2 * m) * (B * C / 2 ^ 53) = n * (B / 2 ^ 53) * C + 2 * B * (m * (C / 2 ^ 53)) := by ring
  rw [e1]
  linarith

theorem add (h : Approx x X B n) (h' : Approx y Y C m) (hn : n + m ≤ 2 ^ 26) : Approx (x + y) (X + Y) (B + C) (n + m) := by
  have b0 := h.nonneg
  have c0 := h'.nonneg
  refine ⟨(abs_add_le _ _).trans (add_le_add h.size h'.size), ?_, by linarith [h.units.1, h'.units.1], hn⟩
  rw [add_sub_add_comm]
  refine (abs_add_le _ _).trans ?_
  have e1 : (n + m) * ((B + C) / 2 ^ 53) = n * (B / 2 ^ 53) + m * (C / 2 ^ 53) + (n * (C / 2 ^ 53) + m * (B / 2 ^ 53)) := by ring
  have h1 : 0 ≤ n * (C / 2 ^ 53) := mul_nonneg h.units.1 (by positivity)
  have h2 : 0 ≤ m * (B / 2 ^ 53) := mul_nonneg h'.units.1 (by positivity)
  rw [e1]
  linarith [h.near, h'.near]

theorem neg (h : Approx x X B n) : Approx (-x) (-X) B n :=
  ⟨by rw [abs_neg]; exact h.size, by rw [neg_sub_neg, abs_sub_comm]; exact h.near, h.units⟩

theorem sub (h : Approx x X B n) (h' : Approx y Y C m) (hn : n + m ≤ 2 ^ 26) : Approx (x - y) (X - Y) (B + C) (n + m) := by
  rw [sub_eq_add_neg, sub_eq_add_neg]
  exact h.add h'.neg hn

/-- Another bound. -/
theorem bound (h : Approx x X B n) (hC : B ≤ C) : Approx x X C n :=
  ⟨h.size.trans hC, h.near.trans (mul_le_mul_of_nonneg_left (by gcongr) h.units.1), h.units⟩

/-- A positive divisor and how close it is. -/
theorem pos (h : Approx y Y Y m) (hY : 0 < Y) : Y / 2 ≤ y := by
  have := (_root_.abs_le.mp h.off).1
  norm_num at this
  linarith

theorem div (h : Approx x X B n) (h' : Approx y Y Y m) (hY : 0 < Y) (hn : 2 * (n + m) ≤ 2 ^ 26) : Approx (x / y) (X / Y) (B / Y) (2 * (n + m)) := by
  have b0 := h.nonneg
  have y2 := h'.pos hY
  have y0 : 0 < y := by linarith
  refine ⟨by rw [abs_div, abs_of_pos hY]; exact div_le_div_of_nonneg_right h.size hY.le, ?_, by linarith [h.units.1, h'.units.1], hn⟩
  have e : x / y - X / Y = ((x - X) - X / Y * (y - Y)) / y := by field_simp; ring
  have h3 : |X / Y| ≤ B / Y := by rw [abs_div, abs_of_pos hY]; exact div_le_div_of_nonneg_right h.size hY.le
  have h2 := mul_le_mul h3 h'.near (abs_nonneg _) (by positivity)
  have e2 : B / Y * (m * (Y / 2 ^ 53)) = m * (B / 2 ^ 53) := by field_simp
  rw [e2, ← abs_mul] at h2
  have h4 : |(x - X) - X / Y * (y - Y)| ≤ (n + m) * (B / 2 ^ 53) := by
    refine (abs_sub _ _).trans ?_
    linarith [h.near, add_mul n m (B / 2 ^ 53)]
  rw [e, abs_div, abs_of_pos y0, div_le_iff₀ y0]
  have e3 : (n + m) * (B / 2 ^ 53) = 2 * (n + m) * (B / Y / 2 ^ 53) * (Y / 2) := by field_simp
  have h5 : 0 ≤ 2 * (n + m) * (B / Y / 2 ^ 53) := mul_nonneg (by linarith [h.units.1, h'.units.1]) (by positivity)
  exact h4.trans (e3.le.trans (mul_le_mul_of_nonneg_left y2 h5))

theorem div_exact (h : Approx x X B n) {c : ℝ} (hc : 0 < c) : Approx (x / c) (X / c) (B / c) n := by
  refine ⟨by rw [abs_div, abs_of_pos hc]; exact div_le_div_of_nonneg_right h.size hc.le, ?_, h.units⟩
  rw [← sub_div, abs_div, abs_of_pos hc, div_le_iff₀ hc]
  refine h.near.trans (le_of_eq ?_)
  field_simp

/-- Relative to the number itself. -/
theorem self (h : Approx x X B n) {c : ℝ} (hc : B ≤ c * X) (hX : 0 ≤ X) (hn : n * c ≤ 2 ^ 26) (hc0 : 0 ≤ c) : Approx x X X (n * c) := by
  refine ⟨by rw [abs_of_nonneg hX], h.near.trans ?_, mul_nonneg h.units.1 hc0, hn⟩
  rw [mul_assoc]
  refine mul_le_mul_of_nonneg_left ?_ h.units.1
  rw [mul_div_assoc']
  exact div_le_div_of_nonneg_right hc (by positivity)

end Approx

end CLF
