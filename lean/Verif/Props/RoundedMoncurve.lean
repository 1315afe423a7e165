import Verif.Props.RoundedCineon
import Verif.Lemmas.Gamma

/-! # Property C146: monitor curves (Gamma nodes of styles moncurveFwd and moncurveRev) in IEEE arithmetic -/

set_option linter.unusedSectionVars false

namespace CLF

open Spec (RelClose)

/-- Powers between powers of two. -/
theorem rpow_between {b r : ℝ} {m R : ℕ} (h1 : 1 / 2 ^ m ≤ b) (h2 : b ≤ 2 ^ m) (r0 : 0 ≤ r) (hr : r ≤ R) : 1 / 2 ^ (m * R) ≤ b ^ r ∧ b ^ r ≤ 2 ^ (m * R) := by
  have b0 : 0 < b := lt_of_lt_of_le (by positivity) h1
  have key : ∀ c : ℝ, 1 ≤ c → c ^ r ≤ c ^ R := fun c hc => by
    rw [← Real.rpow_natCast]
    exact Real.rpow_le_rpow_of_exponent_le hc hr
  have k2 := key (2 ^ m) (one_le_pow₀ one_le_two)
  rw [← pow_mul] at k2
  constructor
  · have h3 : (1 / 2 ^ m : ℝ) ^ r ≤ b ^ r := Real.rpow_le_rpow (by positivity) h1 r0
    refine le_trans ?_ h3
    rw [one_div, one_div, Real.inv_rpow (by positivity)]
    exact inv_anti₀ (Real.rpow_pos_of_pos (by positivity) _) k2
  · exact (Real.rpow_le_rpow b0.le h2 r0).trans k2

/-- Powers of a computed number. -/
theorem Approx.pow {L : Arith ℝ} (hL : Spec.GoodLibrary L) {x X n r : ℝ} (h : Approx x X X n) (dx : double.near x = x) (dr : double.near r = r) (r0 : 0 < r)
    (hr : r ≤ 10) (hX : 0 < X) (hn : n ≤ 100) (h1 : 1 / 2 ^ 500 ≤ X ^ r) (h2 : X ^ r ≤ 2 ^ 299) :
    ∃ w, pyPow L (.fin x) (.fin r) = .ok (.fin w) ∧ Approx w (X ^ r) (X ^ r) (4 * n * r + 10) := by
  have n0 := h.units.1
  have nr : 0 ≤ n * r := mul_nonneg n0 r0.le
  have nr' : n * r ≤ 1000 := by
    have := mul_le_mul hn hr r0.le (by norm_num)
    linarith
  have hrel : RelClose x X (n / 2 ^ 53) := by
    have := h.near
    unfold RelClose
    rwa [div_mul_eq_mul_div, ← mul_div_assoc']
  have x0 := h.pos hX
  have hp := hrel.pow hX (by norm_num; linarith) r (by rw [abs_of_pos r0]; norm_num; linarith)
  rw [abs_of_pos r0] at hp
  have hp' : RelClose (x ^ r) (X ^ r) (4 * (n * r) / 2 ^ 53) := by
    refine hp.mono (Real.rpow_nonneg hX.le _) (le_of_eq ?_)
    ring
  have P0 : 0 < X ^ r := Real.rpow_pos_of_pos hX _
  have up := hp'.upper
  have κ : 4 * (n * r) / 2 ^ 53 * X ^ r ≤ X ^ r / 2 ^ 40 := by
    rw [div_eq_mul_one_div (X ^ r), mul_comm (X ^ r)]
    refine mul_le_mul_of_nonneg_right ?_ P0.le
    norm_num
    linarith
  have up' : x ^ r ≤ X ^ r + X ^ r / 2 ^ 40 := by
    linarith
  obtain ⟨w, w1, w2⟩ := hL.pow x r dx dr (by linarith) (by
    refine up'.trans (le_trans (b := 2 * 2 ^ 299) ?_ ?_)
    · generalize (2 : ℝ) ^ 299 = M at *
      norm_num
      linarith
    · rw [← pow_succ']
      exact pow_le_pow_right₀ one_le_two (by norm_num))
  refine ⟨w, by rw [pyPow_ok (by linarith) (.inl r0), w1], (abs_of_pos P0).le, ?_, by linarith, by norm_num; linarith⟩
  have t : (2 : ℝ) ^ (-1000 : ℤ) ≤ X ^ r / 2 ^ 60 := by
    have h3 : (2 : ℝ) ^ (-1000 : ℤ) ≤ 2 ^ (-560 : ℤ) := zpow_le_zpow_right₀ one_le_two (by norm_num)
    have h4 : (2 : ℝ) ^ (-560 : ℤ) = 1 / 2 ^ 500 / 2 ^ 60 := by
      rw [show (-560 : ℤ) = -(500 : ℕ) + -(60 : ℕ) by norm_num, zpow_add₀ (by norm_num), zpow_neg, zpow_neg, zpow_natCast, zpow_natCast]
      field_simp
    exact (h3.trans h4.le).trans (div_le_div_of_nonneg_right h1 (by positivity))
  have s := abs_sub_le w (x ^ r) (X ^ r)
  unfold RelClose at hp'
  have e : (4 * n * r + 10) * (X ^ r / 2 ^ 53) = 4 * (n * r) / 2 ^ 53 * X ^ r + 10 * (X ^ r / 2 ^ 53) := by ring
  rw [e]
  generalize 4 * (n * r) / 2 ^ 53 * X ^ r = q at *
  generalize (2 : ℝ) ^ (-1000 : ℤ) = η at *
  norm_num at w2 t κ ⊢
  linarith

/-- Exponents and offsets that are dealt with. -/
structure Spec.MonValues (g o : ℝ) : Prop where
  isDouble : double.near g = g ∧ double.near o = o
  exponent : 1 + 1 / 2 ^ 10 ≤ g ∧ g ≤ 10
  offset : 1 / 2 ^ 10 ≤ o ∧ o ≤ 2 ^ 10

namespace Spec

/-- The base of the power at the break point. -/
noncomputable def monBase (g o : ℝ) : ℝ := (monBreak g o + o) / (1 + o)

/-- The slope of the line. -/
noncomputable def monSlope (g o : ℝ) : ℝ := monBase g o ^ g / monBreak g o

end Spec

theorem monBase_eq {g o : ℝ} (hg : 1 < g) (ho : 0 < o) : g * o / ((g - 1) * (o + 1)) = Spec.monBase g o := by
  have h1 : g - 1 ≠ 0 := by linarith
  have h2 : 1 + o ≠ 0 := by linarith
  have h3 : o + 1 ≠ 0 := by linarith
  unfold Spec.monBase
  rw [monBreak_add hg ho]
  unfold Spec.monBreak
  field_simp
  ring

namespace Spec.MonValues

variable {g o : ℝ}

theorem pos (h : Spec.MonValues g o) : 1 < g ∧ 0 < o ∧ 1 / 2 ^ 10 ≤ g - 1 := by
  obtain ⟨-, ⟨h1, -⟩, h2, -⟩ := h
  norm_num at h1 h2 ⊢
  refine ⟨by linarith, by linarith, by linarith⟩

/-- How large the numbers of the curve are. -/
theorem sizes (h : Spec.MonValues g o) : 1 / 2 ^ 14 ≤ Spec.monBreak g o ∧ Spec.monBreak g o ≤ 2 ^ 20 ∧ 1 / 2 ^ 11 ≤ Spec.monBase g o ∧
    Spec.monBase g o ≤ 2 ^ 11 := by
  obtain ⟨g1, o0, g1'⟩ := h.pos
  obtain ⟨-, ⟨-, g2⟩, o1, o2⟩ := h
  have h0 : 0 < g - 1 := by linarith
  have hq : Spec.monBase g o = g / (g - 1) * (o / (o + 1)) := by
    rw [← monBase_eq g1 o0]
    field_simp
  have a1 : 1 ≤ g / (g - 1) := by rw [le_div_iff₀ h0]; linarith
  have a2 : g / (g - 1) ≤ 2 ^ 11 := by
    rw [div_le_iff₀ h0]
    norm_num at g1' ⊢
    linarith
  have b1 : 1 / 2 ^ 11 ≤ o / (o + 1) := by
    rw [le_div_iff₀ (by linarith)]
    norm_num at o1 o2 ⊢
    linarith
  have b2 : o / (o + 1) ≤ 1 := by
    rw [div_le_one (by linarith)]
    linarith
  refine ⟨?_, ?_, ?_, ?_⟩
  · unfold Spec.monBreak
    rw [le_div_iff₀ h0]
    norm_num at o1 ⊢
    linarith
  · unfold Spec.monBreak
    rw [div_le_iff₀ h0]
    norm_num at g1' o2 ⊢
    linarith
  · rw [hq]
    exact b1.trans (le_mul_of_one_le_left (by linarith [(by positivity : (0 : ℝ) < 1 / 2 ^ 11)]) a1)
  · rw [hq]
    exact (mul_le_of_le_one_right (by linarith) b2).trans a2

end Spec.MonValues

/-- The constants of the curve as the program computes them. -/
theorem mon_consts {L : Arith ℝ} (hL : Spec.GoodLibrary L) {g o : ℝ} (h : Spec.MonValues g o) :
    ∃ g1 o1 p a q w, ieee double (.fin g - .fin 1) = .fin g1 ∧ ieee double (.fin o + .fin 1) = .fin o1 ∧
      divR ieee (.fin o) (.fin g1) = .ok (.fin p) ∧ divR ieee (.fin g1) (.fin o) = .ok (.fin a) ∧
      divR ieee (ieee double (.fin g * .fin o)) (ieee double (.fin g1 * .fin o1)) = .ok (.fin q) ∧ pyPow L (.fin q) (.fin g) = .ok (.fin w) ∧
      (Approx g1 (g - 1) (g - 1) 2 ∧ double.near g1 = g1) ∧ (Approx o1 (1 + o) (1 + o) 2 ∧ double.near o1 = o1) ∧
      (Approx p (Spec.monBreak g o) (Spec.monBreak g o) 6 ∧ double.near p = p) ∧
      (Approx a ((g - 1) / o) ((g - 1) / o) 6 ∧ double.near a = a) ∧
      Approx w (Spec.monBase g o ^ g) (Spec.monBase g o ^ g) 890 := by
  obtain ⟨p1, p2, q1, q2⟩ := h.sizes
  obtain ⟨hg, ho, hg'⟩ := h.pos
  obtain ⟨⟨dg, do'⟩, ⟨-, g10⟩, o1, o2⟩ := h
  have g10' : 0 < g - 1 := by linarith
  obtain ⟨r1, r2, r3⟩ := (Approx.exact (abs_of_pos g10').le).round (small_500 10 (by norm_num) hg') (large_299 4 (by norm_num) (by norm_num; linarith)) (by norm_num)
  obtain ⟨s1, s2, s3⟩ := (Approx.exact (abs_of_pos (by linarith : 0 < 1 + o)).le).round (small_500 0 (by norm_num) (by norm_num; linarith))
    (large_299 11 (by norm_num) (by norm_num at o2 ⊢; linarith)) (by norm_num)
  rw [zero_add] at r2 s2
  have r0 := r2.pos g10'
  have s0 := s2.pos (by linarith)
  have oa : Approx o o o 0 := .exact (abs_of_pos ho).le
  have ga : Approx g g g 0 := .exact (abs_of_pos (by linarith)).le
  -- break point
  have t1 := oa.div r2 g10' (by norm_num)
  obtain ⟨t2, t3, t4⟩ := t1.round (small_500 14 (by norm_num) p1) (large_299 20 (by norm_num) p2) (by norm_num)
  -- its reciprocal
  have a0 : 1 / 2 ^ 20 ≤ (g - 1) / o := by
    rw [le_div_iff₀ ho]
    norm_num at o2 hg' ⊢
    linarith
  have a1 : (g - 1) / o ≤ 2 ^ 14 := by
    rw [div_le_iff₀ ho]
    norm_num at o1 ⊢
    linarith
  have u1 := r2.div oa ho (by norm_num)
  obtain ⟨u2, u3, u4⟩ := u1.round (small_500 20 (by norm_num) a0) (large_299 14 (by norm_num) a1) (by norm_num)
  -- the base
  have go1 : 1 / 2 ^ 10 ≤ g * o := o1.trans (le_mul_of_one_le_left ho.le hg.le)
  have go2 : g * o ≤ 2 ^ 14 := by
    have := mul_le_mul g10 o2 ho.le (by norm_num)
    norm_num at this ⊢
    linarith
  obtain ⟨v1, v2, v3⟩ := (ga.mul oa (by norm_num)).round (small_500 10 (by norm_num) go1) (large_299 14 (by norm_num) go2) (by norm_num)
  have gp1 : 1 / 2 ^ 10 ≤ (g - 1) * (1 + o) := hg'.trans (le_mul_of_one_le_right g10'.le (by linarith))
  have gp2 : (g - 1) * (1 + o) ≤ 2 ^ 14 := by
    have := mul_le_mul (by linarith : g - 1 ≤ 9) (by norm_num at o2 ⊢; linarith : 1 + o ≤ 2 ^ 10 + 1) (by linarith) (by norm_num)
    norm_num at this ⊢
    linarith
  obtain ⟨y1, y2, y3⟩ := (r2.mul s2 (by norm_num)).round (small_500 10 (by norm_num) gp1) (large_299 14 (by norm_num) gp2) (by norm_num)
  have y0 := y2.pos (by positivity)
  have z1 := v2.div y2 (by positivity) (by norm_num)
  have eq : g * o / ((g - 1) * (1 + o)) = Spec.monBase g o := by rw [← monBase_eq hg ho, add_comm o 1]
  rw [eq] at z1
  obtain ⟨z2, z3, z4⟩ := z1.round (small_500 11 (by norm_num) q1) (large_299 11 (by norm_num) q2) (by norm_num)
  have q0 : 0 < Spec.monBase g o := lt_of_lt_of_le (by positivity) q1
  obtain ⟨w1, w2⟩ := rpow_between (r := g) (R := 10) q1 q2 (by linarith) (by exact_mod_cast g10)
  obtain ⟨w, w3, w4⟩ := z3.pow hL z4 dg (by linarith) g10 q0 (by norm_num) (small_500 110 (by norm_num) w1) (large_299 110 (by norm_num) w2)
  refine ⟨_, _, _, _, _, w, r1, by rw [Flt.fin_add, add_comm o 1]; exact s1, ?_, ?_, ?_, w3, ⟨r2, r3⟩, ⟨s2, s3⟩,
    ⟨t3.mono (by norm_num) (by norm_num), t4⟩, ⟨u3.mono (by norm_num) (by norm_num), u4⟩, w4.mono ?_ (by norm_num)⟩
  · rw [divR, pyDivF_fin (by linarith), py_ok_bind, t2]; rfl
  · rw [divR, pyDivF_fin ho.ne', py_ok_bind, u2]; rfl
  · rw [divR, Flt.fin_mul, Flt.fin_mul, v1, y1, pyDivF_fin (by linarith [mul_pos g10' (by linarith : 0 < 1 + o)]), py_ok_bind, z2]; rfl
  · norm_num
    linarith

/-- How large colours may be: at most `D`, and then the base of the power is at most `A`. -/
structure Spec.MonReach (g o D A : ℝ) : Prop where
  least : 1 ≤ D ∧ 1 ≤ A
  base : Spec.monBase g o ≤ A
  top : (D + o) / (1 + o) * (1 + 1 / 2 ^ 20) ≤ A
  fits : g * A ^ g ≤ 2 ^ 88

section curve

variable {g o : ℝ}

theorem moncurve_line {x : ℝ} (h : x ≤ Spec.monBreak g o) : Spec.moncurve g o x = Spec.monSlope g o * x := if_pos h

theorem moncurve_power (hg : 1 < g) (ho : 0 < o) {x : ℝ} (h : Spec.monBreak g o ≤ x) : Spec.moncurve g o x = max 0 ((x + o) / (1 + o)) ^ g := by
  have hP := monBreak_pos hg ho
  rw [max_eq_right (div_nonneg (by linarith) (by linarith))]
  rcases h.eq_or_lt with h | h
  · rw [moncurve_line h.ge, ← h, Spec.monSlope, div_mul_cancel₀ _ hP.ne']
    rfl
  · exact if_neg (not_le.mpr h)

theorem monSlope_eq (hg : 1 < g) (ho : 0 < o) : Spec.monSlope g o = g * Spec.monBase g o ^ (g - 1) / (1 + o) := by
  have hP := monBreak_pos hg ho
  have hq : Spec.monBase g o = g * Spec.monBreak g o / (1 + o) := by rw [Spec.monBase, monBreak_add hg ho]
  have q0 : 0 < Spec.monBase g o := by rw [hq]; exact div_pos (by positivity) (by linarith)
  have o1 : 1 + o ≠ 0 := by linarith
  rw [Spec.monSlope, Real.rpow_sub_one q0.ne']
  generalize Spec.monBase g o ^ g = w
  rw [hq]
  field_simp

variable {D A : ℝ}

/-- The steepest slope of the curve. -/
theorem mon_steep (hv : Spec.MonValues g o) (h : Spec.MonReach g o D A) :
    0 ≤ g * A ^ (g - 1) / (1 + o) ∧ Spec.monSlope g o ≤ g * A ^ (g - 1) / (1 + o) ∧ 0 < Spec.monSlope g o ∧
    g * A ^ (g - 1) / (1 + o) * Spec.monBreak g o ≤ g * A ^ g ∧ g * A ^ (g - 1) / (1 + o) * D ≤ g * A ^ g ∧ g * A ^ (g - 1) / (1 + o) ≤ g * A ^ g := by
  obtain ⟨hg, ho, -⟩ := hv.pos
  obtain ⟨⟨D1, A1⟩, hq, ht, -⟩ := h
  have A0 : 0 < A := by linarith
  have P0 := monBreak_pos hg ho
  have q0 : 0 < Spec.monBase g o := div_pos (by linarith) (by linarith)
  have w0 := Real.rpow_pos_of_pos A0 (g - 1)
  have e : A ^ g = A ^ (g - 1) * A := by rw [Real.rpow_sub_one A0.ne', div_mul_cancel₀ _ A0.ne']
  have k0 : 0 ≤ g * A ^ (g - 1) / (1 + o) := div_nonneg (mul_nonneg (by linarith) w0.le) (by linarith)
  have key : ∀ z, z ≤ A * (1 + o) → g * A ^ (g - 1) / (1 + o) * z ≤ g * A ^ g := fun z hz => by
    refine (mul_le_mul_of_nonneg_left hz k0).trans (le_of_eq ?_)
    rw [e]
    field_simp
  refine ⟨k0, ?_, ?_, key _ ?_, key _ ?_, ?_⟩
  · rw [monSlope_eq hg ho]
    refine div_le_div_of_nonneg_right (mul_le_mul_of_nonneg_left ?_ (by linarith)) (by linarith)
    exact Real.rpow_le_rpow q0.le hq (by linarith)
  · exact div_pos (Real.rpow_pos_of_pos q0 _) P0
  · have : (Spec.monBreak g o + o) / (1 + o) ≤ A := hq
    rw [div_le_iff₀ (by linarith)] at this
    linarith
  · have h1 : 0 ≤ (D + o) / (1 + o) := div_nonneg (by linarith) (by linarith)
    have h2 : (D + o) / (1 + o) ≤ A := by
      norm_num at ht
      linarith
    rw [div_le_iff₀ (by linarith)] at h2
    linarith
  · have := key 1 (by nlinarith)
    linarith

/-- The power part is as steep as that at most. -/
theorem mon_power_close (hv : Spec.MonValues g o) (h : Spec.MonReach g o D A) {x y : ℝ} (hx : (|x| + o) / (1 + o) ≤ A) (hy : (|y| + o) / (1 + o) ≤ A) :
    |max 0 ((x + o) / (1 + o)) ^ g - max 0 ((y + o) / (1 + o)) ^ g| ≤ g * A ^ (g - 1) / (1 + o) * |x - y| := by
  obtain ⟨hg, ho, -⟩ := hv.pos
  have o1 : 0 < 1 + o := by linarith
  have b : ∀ z, (|z| + o) / (1 + o) ≤ A → |(z + o) / (1 + o)| ≤ A := fun z hz => by
    rw [abs_div, abs_of_pos o1]
    refine le_trans (div_le_div_of_nonneg_right ?_ o1.le) hz
    have := abs_add_le z o
    rwa [abs_of_pos ho] at this
  refine ((toneBounds_power (D := A) hg.le (by linarith [h.least.2])).close _ _ (b x hx) (b y hy)).trans (le_of_eq ?_)
  rw [← sub_div, abs_div, abs_of_pos o1, add_sub_add_right_eq_sub]
  ring

theorem Spec.MonReach.near (hv : Spec.MonValues g o) (h : Spec.MonReach g o D A) {x : ℝ} (hx : |x| ≤ D) : (|x| + o) / (1 + o) ≤ A := by
  obtain ⟨hg, ho, -⟩ := hv.pos
  have h1 : 0 ≤ (D + o) / (1 + o) := div_nonneg (by linarith [h.least.1]) (by linarith)
  have ht := h.top
  have h2 : (|x| + o) / (1 + o) ≤ (D + o) / (1 + o) := div_le_div_of_nonneg_right (by linarith) (by linarith)
  norm_num at ht
  linarith

theorem Spec.MonReach.break (hv : Spec.MonValues g o) (h : Spec.MonReach g o D A) : (|Spec.monBreak g o| + o) / (1 + o) ≤ A := by
  obtain ⟨hg, ho, -⟩ := hv.pos
  rw [abs_of_pos (monBreak_pos hg ho)]
  exact h.base

/-- Either part near the break point. -/
theorem mon_parts (hv : Spec.MonValues g o) (h : Spec.MonReach g o D A) {x : ℝ} (hx : |x| ≤ D) :
    |Spec.monSlope g o * x - max 0 ((x + o) / (1 + o)) ^ g| ≤ 2 * (g * A ^ (g - 1) / (1 + o) * |x - Spec.monBreak g o|) := by
  obtain ⟨hg, ho, -⟩ := hv.pos
  obtain ⟨k0, s1, s0, -, -⟩ := mon_steep hv h
  have h1 := mon_power_close hv h (h.break hv) (h.near hv hx)
  rw [← moncurve_power hg ho le_rfl, moncurve_line le_rfl, abs_sub_comm (Spec.monBreak g o)] at h1
  have h2 : |Spec.monSlope g o * x - Spec.monSlope g o * Spec.monBreak g o| ≤ g * A ^ (g - 1) / (1 + o) * |x - Spec.monBreak g o| := by
    rw [← mul_sub, abs_mul, abs_of_pos s0]
    exact mul_le_mul_of_nonneg_right s1 (abs_nonneg _)
  have := abs_sub_le (Spec.monSlope g o * x) (Spec.monSlope g o * Spec.monBreak g o) (max 0 ((x + o) / (1 + o)) ^ g)
  linarith

/-- Monitor curves are gentle. -/
theorem toneBounds_moncurve (hv : Spec.MonValues g o) (h : Spec.MonReach g o D A) : Spec.ToneBounds (Spec.moncurve g o) D (g * A ^ g) (g * A ^ g) := by
  obtain ⟨hg, ho, -⟩ := hv.pos
  obtain ⟨k0, s1, s0, kP, kD, k1⟩ := mon_steep hv h
  have A0 : 0 < A := by linarith [h.least.2]
  have N0 : 0 < A ^ g := Real.rpow_pos_of_pos A0 _
  have hle : ∀ x y, |x| ≤ D → |y| ≤ D → x ≤ y → |Spec.moncurve g o x - Spec.moncurve g o y| ≤ g * A ^ (g - 1) / (1 + o) * |x - y| := by
    intro x y hx hy hxy
    have line : ∀ z, z ≤ Spec.monBreak g o → ∀ v, z ≤ v → v ≤ Spec.monBreak g o →
        |Spec.moncurve g o z - Spec.moncurve g o v| ≤ g * A ^ (g - 1) / (1 + o) * |z - v| := fun z hz v _ hv' => by
      rw [moncurve_line hz, moncurve_line hv', ← mul_sub, abs_mul, abs_of_pos s0]
      exact mul_le_mul_of_nonneg_right s1 (abs_nonneg _)
    rcases le_total y (Spec.monBreak g o) with h1 | h1
    · exact line x (hxy.trans h1) y hxy h1
    · have pw : ∀ z, Spec.monBreak g o ≤ z → (|z| + o) / (1 + o) ≤ A →
          |Spec.moncurve g o z - Spec.moncurve g o y| ≤ g * A ^ (g - 1) / (1 + o) * |z - y| := fun z hz hz' => by
        rw [moncurve_power hg ho hz, moncurve_power hg ho h1]
        exact mon_power_close hv h hz' (h.near hv hy)
      rcases le_total x (Spec.monBreak g o) with h2 | h2
      · have a1 := line x h2 _ h2 le_rfl
        have a2 := pw _ le_rfl (h.break hv)
        have a3 := abs_sub_le (Spec.moncurve g o x) (Spec.moncurve g o (Spec.monBreak g o)) (Spec.moncurve g o y)
        have a4 : |x - y| = |x - Spec.monBreak g o| + |Spec.monBreak g o - y| := by
          rw [abs_of_nonpos (by linarith), abs_of_nonpos (by linarith), abs_of_nonpos (by linarith)]
          ring
        rw [a4, mul_add]
        linarith
      · exact pw x h2 (h.near hv hx)
  refine ⟨by positivity, fun x hx => ?_, fun x y hx hy => ?_⟩
  · rcases le_total x (Spec.monBreak g o) with h1 | h1
    · rw [moncurve_line h1, abs_mul, abs_of_pos s0]
      exact (mul_le_mul s1 hx (abs_nonneg _) k0).trans kD
    · rw [moncurve_power hg ho h1]
      have h2 : |(x + o) / (1 + o)| ≤ A := by
        rw [abs_div, abs_of_pos (by linarith : 0 < 1 + o)]
        refine le_trans (div_le_div_of_nonneg_right ?_ (by linarith)) (h.near hv hx)
        have := abs_add_le x o
        rwa [abs_of_pos ho] at this
      exact ((toneBounds_power (D := A) hg.le A0.le).size _ h2).trans (le_mul_of_one_le_left N0.le hg.le)
  · refine le_trans ?_ (mul_le_mul_of_nonneg_right k1 (abs_nonneg (x - y)))
    rcases le_total x y with h1 | h1
    · exact hle x y hx hy h1
    · rw [abs_sub_comm (Spec.moncurve g o x), abs_sub_comm x]
      exact hle y x hy hx h1

end curve

/-- Monitor curves as the program computes them. -/
theorem toneNear_moncurve {L : Arith ℝ} (hL : Spec.GoodLibrary L) {g o D A : ℝ} (hv : Spec.MonValues g o) (h : Spec.MonReach g o D A) :
    Spec.ToneNear (moncurveFwdR ieee L (.fin g) (.fin o)) (Spec.moncurve g o) D (g * A ^ g / 2 ^ 41) := by
  intro u su hu
  obtain ⟨g1, o1, p, a, q, w, e1, e2, e3, e4, e5, e6, -, ⟨ao, -⟩, ⟨ap, -⟩, ⟨aa, -⟩, aw⟩ := mon_consts hL hv
  obtain ⟨k0, s1, s0, kP, kD, k1⟩ := mon_steep hv h
  obtain ⟨p1, p2, q1, q2⟩ := hv.sizes
  obtain ⟨hg, ho, -⟩ := hv.pos
  have near := h.near hv hu
  have parts := mon_parts hv h hu
  have A1 := h.least.2
  have D1 := h.least.1
  have A0 : 0 < A := by linarith
  have N1 : 1 ≤ A ^ g := Real.one_le_rpow A1 (by linarith)
  have N2 : A ^ g ≤ g * A ^ g := le_mul_of_one_le_left (by linarith) hg.le
  have P0 := monBreak_pos hg ho
  have oo : 0 < 1 + o := by linarith
  have slope : (g - 1) / o * Spec.monBase g o ^ g = Spec.monSlope g o := by
    rw [Spec.monSlope, Spec.monBreak, div_div_eq_mul_div, div_mul_eq_mul_div, mul_comm]
  have mism : |u - Spec.monBreak g o| ≤ 6 * (Spec.monBreak g o / 2 ^ 53) →
      |Spec.monSlope g o * u - max 0 ((u + o) / (1 + o)) ^ g| ≤ 12 * (g * A ^ g / 2 ^ 53) := fun hd => by
    have h1 := mul_le_mul_of_nonneg_left hd k0
    have h2 : g * A ^ (g - 1) / (1 + o) * (6 * (Spec.monBreak g o / 2 ^ 53)) = 6 * (g * A ^ (g - 1) / (1 + o) * Spec.monBreak g o / 2 ^ 53) := by ring
    have h3 : g * A ^ (g - 1) / (1 + o) * Spec.monBreak g o / 2 ^ 53 ≤ g * A ^ g / 2 ^ 53 := div_le_div_of_nonneg_right kP (by positivity)
    rw [h2] at h1
    linarith
  have fin : (2000 : ℝ) * (g * A ^ g / 2 ^ 53) ≤ g * A ^ g / 2 ^ 41 := by
    generalize g * A ^ g = N at *
    norm_num
    linarith
  unfold moncurveFwdR
  rw [e1, e2]
  simp only [e3, py_ok_bind, Flt.le_fin, decide_eq_true_eq]
  by_cases hup : u ≤ p
  · rw [if_pos hup, e4, py_ok_bind, e5, py_ok_bind, e6, py_ok_bind]
    have m1 := aa.mul aw (by norm_num)
    rw [slope] at m1
    obtain ⟨w1, w2⟩ := rpow_between (r := g) (R := 10) q1 q2 (by linarith) (by exact_mod_cast hv.exponent.2)
    have sl1 : 1 / 2 ^ 130 ≤ Spec.monSlope g o := by
      rw [Spec.monSlope, le_div_iff₀ P0]
      have := mul_le_mul_of_nonneg_left p2 (by positivity : (0 : ℝ) ≤ 1 / 2 ^ 130)
      norm_num at this w1 ⊢
      linarith
    have sl2 : Spec.monSlope g o ≤ 2 ^ 124 := by
      rw [Spec.monSlope, div_le_iff₀ P0]
      have := mul_le_mul_of_nonneg_left p1 (by positivity : (0 : ℝ) ≤ 2 ^ 124)
      norm_num at this w2 ⊢
      linarith
    obtain ⟨m2, m3, -⟩ := m1.round (small_500 130 (by norm_num) sl1) (large_299 124 (by norm_num) sl2) (by norm_num)
    have m4 := m3.mul (.exact hu : Approx u u D 0) (by norm_num)
    have sD1 : 1 / 2 ^ 130 ≤ Spec.monSlope g o * D := sl1.trans (le_mul_of_one_le_right s0.le D1)
    have sD2 : Spec.monSlope g o * D ≤ g * A ^ g := (mul_le_mul_of_nonneg_right s1 (by linarith)).trans kD
    obtain ⟨m5, m6, -⟩ := m4.round (small_500 130 (by norm_num) sD1) (large_299 88 (by norm_num) (sD2.trans h.fits)) (by norm_num)
    refine ⟨_, by rw [Flt.fin_mul, m2, Flt.fin_mul, m5]; rfl, ?_⟩
    have m7 := (m6.bound sD2).near
    refine le_trans ?_ fin
    generalize double.near (double.near (a * w) * u) = z at *
    have mm : |Spec.monSlope g o * u - Spec.moncurve g o u| ≤ 12 * (g * A ^ g / 2 ^ 53) := by
      rcases le_or_gt u (Spec.monBreak g o) with h1 | h1
      · rw [moncurve_line h1, sub_self, abs_zero]
        positivity
      · rw [moncurve_power hg ho h1.le]
        refine mism ?_
        have := (abs_le.mp ap.near).2
        rw [abs_of_pos (by linarith)]
        linarith
    have := abs_sub_le z (Spec.monSlope g o * u) (Spec.moncurve g o u)
    generalize g * A ^ g / 2 ^ 53 = ν at *
    norm_num at m7
    linarith [(abs_nonneg _).trans mm]
  · rw [if_neg hup]
    have hD1 : 1 / 2 ^ 0 ≤ D + o := by norm_num; linarith
    have hA' : (D + o) / (1 + o) ≤ A := by
      have := h.near hv (x := D) (by rw [abs_of_pos (by linarith)])
      rwa [abs_of_pos (by linarith : 0 < D)] at this
    have hA8 : A ≤ 2 ^ 88 := by
      have : A ≤ A ^ g := by
        have := Real.rpow_le_rpow_of_exponent_le A1 hg.le
        rwa [Real.rpow_one] at this
      exact this.trans (N2.trans h.fits)
    have hD2 : D + o ≤ 2 ^ 99 := by
      rw [div_le_iff₀ oo] at hA'
      refine hA'.trans ((mul_le_mul hA8 (by have := hv.offset.2; norm_num at this ⊢; linarith : 1 + o ≤ 2 ^ 11) oo.le (by positivity)).trans (le_of_eq ?_))
      norm_num
    have n1 : Approx (u + o) (u + o) (D + o) 0 := .exact (by
      have := abs_add_le u o
      rw [abs_of_pos ho] at this
      linarith)
    obtain ⟨n2, n3, -⟩ := n1.round (small_500 0 (by norm_num) hD1) (large_299 99 (by norm_num) hD2) (by norm_num)
    have n4 := n3.div ao oo (by norm_num)
    have hB1 : 1 / 2 ^ 20 ≤ (D + o) / (1 + o) := by
      rw [le_div_iff₀ oo]
      have := hv.offset.2
      norm_num at this ⊢
      linarith
    obtain ⟨n5, n6, n7⟩ := n4.round (small_500 20 (by norm_num) hB1) (large_299 88 (by norm_num) (hA'.trans hA8)) (by norm_num)
    have o1p := ao.pos oo
    rw [Flt.fin_add, n2, Flt.fin_div (by linarith : o1 ≠ 0), n5]
    generalize double.near (double.near (u + o) / o1) = z at *
    have hz : |z| ≤ A := by
      have h1 := n6.off
      have h2 := n6.size
      have h3 := abs_add_le (z - (u + o) / (1 + o)) ((u + o) / (1 + o))
      rw [sub_add_cancel] at h3
      have ht := h.top
      norm_num at h1 ht
      linarith
    have hU : |(u + o) / (1 + o)| ≤ A := n6.size.trans hA'
    obtain ⟨v, v1, v2⟩ := power_near hL hv.isDouble.1 (by linarith) A1 (N2.trans (h.fits.trans (pow_le_pow_right₀ one_le_two (by norm_num)))) n7 hz
    refine ⟨v, v1, le_trans ?_ fin⟩
    have c1 := (toneBounds_power (D := A) hg.le A0.le).close _ _ hz hU
    have c2 := (n6.bound hA').near
    have c3 : g * A ^ (g - 1) * (10 * (A / 2 ^ 53)) = 10 * (g * A ^ g / 2 ^ 53) := by
      have e : A ^ g = A ^ (g - 1) * A := by rw [Real.rpow_sub_one A0.ne', div_mul_cancel₀ _ A0.ne']
      rw [e]
      ring
    have c4 : g * A ^ (g - 1) * |z - (u + o) / (1 + o)| ≤ 10 * (g * A ^ g / 2 ^ 53) := by
      rw [← c3]
      refine mul_le_mul_of_nonneg_left (c2.trans ?_) (mul_nonneg (by linarith) (Real.rpow_nonneg A0.le _))
      refine mul_le_mul_of_nonneg_right (by norm_num) (by positivity)
    have mm : |max 0 ((u + o) / (1 + o)) ^ g - Spec.moncurve g o u| ≤ 12 * (g * A ^ g / 2 ^ 53) := by
      rcases le_or_gt u (Spec.monBreak g o) with h1 | h1
      · rw [moncurve_line h1, abs_sub_comm]
        refine mism ?_
        have := (abs_le.mp ap.near).1
        rw [abs_of_nonpos (by linarith)]
        linarith
      · rw [moncurve_power hg ho h1.le, sub_self, abs_zero]
        positivity
    have v3 : A ^ g / 2 ^ 49 ≤ 16 * (g * A ^ g / 2 ^ 53) := by
      generalize g * A ^ g = N at *
      norm_num
      linarith
    have t1 := abs_sub_le v (max 0 z ^ g) (max 0 ((u + o) / (1 + o)) ^ g)
    have t2 := abs_sub_le v (max 0 ((u + o) / (1 + o)) ^ g) (Spec.moncurve g o u)
    generalize g * A ^ g / 2 ^ 53 = ν at *
    linarith [(abs_nonneg _).trans mm]

/-- C146: a Gamma node of style `moncurveFwd` is a stage of a list. -/
theorem C146_stage (E : Evaluator ℝ) (hE : E.rounding = ieee) (hL : Spec.GoodLibrary E.library) (rows : List (GammaParam ℝ))
    (hr : Spec.GoodLetters GammaParam.channel rows) (g o : Fin 3 → ℝ) (hv : ∀ i, Spec.gammaFor rows i = (.fin (g i), .fin (o i)) ∧ Spec.MonValues (g i) (o i))
    (b : Base ℝ) (d1 d2 : AVal) (h : StyledNode b d1 d2 (.str "moncurveFwd")) (D A N : ℝ) (hD : ∀ i, Spec.MonReach (g i) (o i) D A)
    (hN : ∀ i, g i * A ^ g i ≤ N) (hN' : N ≤ 2 ^ 89) :
    Implements E (.leaf (.gamma rows) b) (.tone (Spec.fullScale (some d1)) (Spec.fullScale (some d2)) D (N / 2 ^ 41) fun i => Spec.moncurve (g i) (o i)) ∧
    ∀ B, B / Spec.fullScale (some d1) * (1 + 1 / 2 ^ 23) + 1 / 2 ^ 100 ≤ D →
      ∃ e B', Spec.Gauge (.tone (Spec.fullScale (some d1)) (Spec.fullScale (some d2)) D (N / 2 ^ 41) fun i => Spec.moncurve (g i) (o i)) B
          (Spec.fullScale (some d2) * (N / Spec.fullScale (some d1))) e B' ∧
        e ≤ Spec.fullScale (some d2) * (N * D / 2 ^ 22 + N / 2 ^ 21) ∧ B' ≤ Spec.fullScale (some d2) * (4 * N + 1) := by
  have hT := fullScale_pos (K := ℝ) (some d2)
  have N0 : 1 ≤ N := by
    refine le_trans ?_ (hN 0)
    have h1 : 1 ≤ A ^ g 0 := Real.one_le_rpow (hD 0).least.2 (by linarith [(hv 0).2.pos.1])
    exact h1.trans (le_mul_of_one_le_left (by linarith) (hv 0).2.pos.1.le)
  have D1 := (hD 0).least.1
  refine ⟨.gamma h hr rfl (by linarith) (by positivity) fun i => ?_, fun B hBD => ⟨_, _, .tone (k := N) (C := N) (fun i => ?_) hBD ?_, ?_, ?_⟩⟩
  · rw [hE, (hv i).1]
    intro u su hu
    obtain ⟨w, h1, h2⟩ := toneNear_moncurve hL (hv i).2 (hD i) u su hu
    exact ⟨w, h1, h2.trans (div_le_div_of_nonneg_right (hN i) (by positivity))⟩
  · have tb := toneBounds_moncurve (hv i).2 (hD i)
    exact ⟨by linarith, fun x hx => (tb.size x hx).trans (hN i), fun x y hx hy => (tb.close x y hx hy).trans (mul_le_mul_of_nonneg_right (hN i) (abs_nonneg _))⟩
  · have : (2 : ℝ) ^ 90 = 2 * 2 ^ 89 := by norm_num
    rw [this]
    generalize (2 : ℝ) ^ 89 = M at *
    norm_num
    linarith
  · refine mul_le_mul_of_nonneg_left (le_trans ?_ (film_sum (k := N) (by linarith) (by norm_num; linarith) D1 hBD)) hT.le
    norm_num
    linarith
  · refine mul_le_mul_of_nonneg_left ?_ hT.le
    norm_num
    linarith

theorem abs_log_hundred {x : ℝ} (h1 : 1 / 2 ^ 101 ≤ x) (h2 : x ≤ 2 ^ 101) : |Real.log x| ≤ 100 := by
  have x0 : 0 < x := lt_of_lt_of_le (by positivity) h1
  have l2 := Real.log_two_lt_d9
  have a1 := Real.log_le_log x0 h2
  have a2 := Real.log_le_log (by positivity) h1
  rw [Real.log_pow] at a1
  rw [one_div, Real.log_inv, Real.log_pow] at a2
  push_cast at a1 a2
  rw [abs_le]
  constructor <;> linarith

/-- Powers of a computed number with a computed exponent. -/
theorem Approx.power {L : Arith ℝ} (hL : Spec.GoodLibrary L) {x X n r e m : ℝ} (h : Approx x X X n) (dx : double.near x = x) (he : Approx e r r m)
    (de : double.near e = e) (r0 : 0 < r) (hr : r ≤ 10) (h1 : 1 / 2 ^ 100 ≤ X) (h2 : X ≤ 2 ^ 100) (hn : n ≤ 100) (hm : m ≤ 8) (h3 : 1 / 2 ^ 500 ≤ X ^ r)
    (h4 : X ^ r ≤ 2 ^ 299) : ∃ w, pyPow L (.fin x) (.fin e) = .ok (.fin w) ∧ Approx w (X ^ r) (X ^ r) (4 * (n * r) + 201 * (m * r) + 10) := by
  have hX : 0 < X := lt_of_lt_of_le (by positivity) h1
  have n0 := h.units.1
  have m0 := he.units.1
  have nr : 0 ≤ n * r := mul_nonneg n0 r0.le
  have mr : 0 ≤ m * r := mul_nonneg m0 r0.le
  have nr' : n * r ≤ 1000 := by
    have := mul_le_mul hn hr r0.le (by norm_num)
    linarith
  have mr' : m * r ≤ 80 := by
    have := mul_le_mul hm hr r0.le (by norm_num)
    linarith
  have hrel : RelClose x X (n / 2 ^ 53) := by
    have := h.near
    unfold RelClose
    rwa [div_mul_eq_mul_div, ← mul_div_assoc']
  have xl := h.pos hX
  have x0 : 0 < x := by linarith
  have xu : x ≤ 2 ^ 101 := by
    have := (_root_.abs_le.mp h.off).2
    have e : (2 : ℝ) ^ 101 = 2 * 2 ^ 100 := pow_succ' 2 100
    rw [e]
    generalize (2 : ℝ) ^ 100 = M at *
    norm_num at this
    linarith
  have xl' : 1 / 2 ^ 101 ≤ x := by
    have e : (1 : ℝ) / 2 ^ 101 = 1 / 2 ^ 100 / 2 := by norm_num
    rw [e]
    linarith
  have e0 := he.pos r0
  have hp := hrel.pow hX (by norm_num; linarith) r (by rw [abs_of_pos r0]; norm_num; linarith)
  rw [abs_of_pos r0] at hp
  have hp' : RelClose (x ^ r) (X ^ r) (4 * (n * r) / 2 ^ 53) := by
    refine hp.mono (Real.rpow_nonneg hX.le _) (le_of_eq ?_)
    ring
  have hq : RelClose (x ^ e) (x ^ r) (2 * (100 * (m * r) / 2 ^ 53)) := by
    refine within_exponent x0 ?_ (by norm_num; linarith)
    rw [abs_mul]
    refine (mul_le_mul he.near (abs_log_hundred xl' xu) (abs_nonneg _) (mul_nonneg m0 (by positivity))).trans (le_of_eq ?_)
    ring
  have P0 : 0 < X ^ r := Real.rpow_pos_of_pos hX _
  have hpq := hq.trans hp' (by positivity)
  have hpq' : RelClose (x ^ e) (X ^ r) ((4 * (n * r) + 201 * (m * r)) / 2 ^ 53) := by
    refine hpq.mono P0.le ?_
    have : 2 * (100 * (m * r) / 2 ^ 53) * (4 * (n * r) / 2 ^ 53) ≤ 2 * (100 * (m * r) / 2 ^ 53) * (1 / 2 ^ 40) := by
      refine mul_le_mul_of_nonneg_left ?_ (by positivity)
      norm_num
      linarith
    rw [mul_add, mul_one]
    generalize 2 * (100 * (m * r) / 2 ^ 53) * (4 * (n * r) / 2 ^ 53) = z at *
    norm_num at this ⊢
    linarith
  have up := hpq'.upper
  have κ : (4 * (n * r) + 201 * (m * r)) / 2 ^ 53 * X ^ r ≤ X ^ r / 2 ^ 30 := by
    rw [div_eq_mul_one_div (X ^ r), mul_comm (X ^ r)]
    refine mul_le_mul_of_nonneg_right ?_ P0.le
    norm_num
    linarith
  have up' : x ^ e ≤ X ^ r + X ^ r / 2 ^ 30 := by
    linarith
  obtain ⟨w, w1, w2⟩ := hL.pow x e dx de x0 (by
    refine up'.trans (le_trans (b := 2 * 2 ^ 299) ?_ ?_)
    · generalize (2 : ℝ) ^ 299 = M at *
      norm_num
      linarith
    · rw [← pow_succ']
      exact pow_le_pow_right₀ one_le_two (by norm_num))
  refine ⟨w, by rw [pyPow_ok x0.le (.inr x0), w1], (abs_of_pos P0).le, ?_, by linarith, by norm_num; linarith⟩
  have t : (2 : ℝ) ^ (-1000 : ℤ) ≤ X ^ r / 2 ^ 60 := by
    have h3' : (2 : ℝ) ^ (-1000 : ℤ) ≤ 2 ^ (-560 : ℤ) := zpow_le_zpow_right₀ one_le_two (by norm_num)
    have h4' : (2 : ℝ) ^ (-560 : ℤ) = 1 / 2 ^ 500 / 2 ^ 60 := by
      rw [show (-560 : ℤ) = -(500 : ℕ) + -(60 : ℕ) by norm_num, zpow_add₀ (by norm_num), zpow_neg, zpow_neg, zpow_natCast, zpow_natCast]
      field_simp
    exact (h3'.trans h4'.le).trans (div_le_div_of_nonneg_right h3 (by positivity))
  have s := abs_sub_le w (x ^ e) (X ^ r)
  unfold RelClose at hpq'
  have e' : (4 * (n * r) + 201 * (m * r) + 10) * (X ^ r / 2 ^ 53) = (4 * (n * r) + 201 * (m * r)) / 2 ^ 53 * X ^ r + 10 * (X ^ r / 2 ^ 53) := by ring
  rw [e']
  generalize (4 * (n * r) + 201 * (m * r)) / 2 ^ 53 * X ^ r = q at *
  generalize (2 : ℝ) ^ (-1000 : ℤ) = η at *
  norm_num at w2 t κ ⊢
  linarith

/-- The factor of the line of `moncurveRev`. -/
theorem unmon_factor {L : Arith ℝ} (hL : Spec.GoodLibrary L) {g o : ℝ} (h : Spec.MonValues g o) :
    ∃ g1 a o1 c wa wc f, ieee double (.fin g - .fin 1) = .fin g1 ∧ divR ieee (.fin g1) (.fin o) = .ok (.fin a) ∧ pyPow L (.fin a) (.fin g1) = .ok (.fin wa) ∧
      ieee double (.fin 1 + .fin o) = .fin o1 ∧ divR ieee (.fin o1) (.fin g) = .ok (.fin c) ∧ pyPow L (.fin c) (.fin g) = .ok (.fin wc) ∧
      ieee double (.fin wa * .fin wc) = .fin f ∧ Approx f (1 / Spec.monSlope g o) (1 / Spec.monSlope g o) 10000 ∧
      1 / 2 ^ 240 ≤ 1 / Spec.monSlope g o ∧ 1 / Spec.monSlope g o ≤ 2 ^ 110 := by
  obtain ⟨g1, o1, p, a, q, w, e1, e2, e3, e4, -, -, ⟨ag, dg1⟩, ⟨ao, do1⟩, -, ⟨aa, da⟩, -⟩ := mon_consts hL h
  obtain ⟨p1, p2, q1, q2⟩ := h.sizes
  obtain ⟨hg, ho, hg'⟩ := h.pos
  obtain ⟨⟨dg, do'⟩, ⟨-, g10⟩, o1', o2⟩ := h
  have g10' : 0 < g - 1 := by linarith
  have oo : 0 < 1 + o := by linarith
  have P0 := monBreak_pos hg ho
  have ga : Approx g g g 0 := .exact (abs_of_pos (by linarith)).le
  -- the powers
  have a0 : 1 / 2 ^ 20 ≤ (g - 1) / o := by
    rw [le_div_iff₀ ho]
    norm_num at o2 hg' ⊢
    linarith
  have a1 : (g - 1) / o ≤ 2 ^ 14 := by
    rw [div_le_iff₀ ho]
    norm_num at o1' ⊢
    linarith
  have a20 : (g - 1) / o ≤ 2 ^ 20 := a1.trans (by norm_num)
  obtain ⟨w1, w2⟩ := rpow_between (r := g - 1) (R := 9) a0 a20 g10'.le (by push_cast; linarith)
  obtain ⟨wa, wa1, wa2⟩ := aa.power hL da ag dg1 g10' (by linarith) (a0.trans' (by norm_num)) (a20.trans (by norm_num)) (by norm_num) (by norm_num)
    (small_500 180 (by norm_num) w1) (large_299 180 (by norm_num) w2)
  have wa3 := wa2.mono (m := 4080) (by linarith) (by norm_num)
  have c0 : 1 / 2 ^ 4 ≤ (1 + o) / g := by
    rw [le_div_iff₀ (by linarith)]
    norm_num at o1' ⊢
    linarith
  have c1 : (1 + o) / g ≤ 2 ^ 11 := by
    rw [div_le_iff₀ (by linarith)]
    norm_num at o2 ⊢
    linarith
  have c2 := ao.div ga (by linarith) (by norm_num)
  obtain ⟨c3, c4, c5⟩ := c2.round (small_500 4 (by norm_num) c0) (large_299 11 (by norm_num) c1) (by norm_num)
  obtain ⟨v1, v2⟩ := rpow_between (r := g) (R := 10) (m := 11) (c0.trans' (by norm_num)) c1 (by linarith) (by exact_mod_cast g10)
  obtain ⟨wc, wc1, wc2⟩ := c4.pow hL c5 dg (by linarith) g10 (by positivity) (by norm_num) (small_500 110 (by norm_num) v1) (large_299 110 (by norm_num) v2)
  have wc3 := wc2.mono (m := 400) (by norm_num; linarith) (by norm_num)
  have prod := wa3.mul wc3 (by norm_num)
  have eqv : ((g - 1) / o) ^ (g - 1) * ((1 + o) / g) ^ g = 1 / Spec.monSlope g o := by
    have ea : (g - 1) / o = (Spec.monBreak g o)⁻¹ := by rw [Spec.monBreak, inv_div]
    rw [ea, Spec.monSlope, Spec.monBase, monBreak_add hg ho]
    have hg0 : 0 < g := by linarith
    generalize Spec.monBreak g o = P at *
    rw [Real.inv_rpow P0.le, Real.rpow_sub P0, Real.rpow_one, Real.div_rpow oo.le hg0.le,
      Real.div_rpow (mul_pos hg0 P0).le oo.le, Real.mul_rpow hg0.le P0.le]
    have := (Real.rpow_pos_of_pos P0 g).ne'
    have := (Real.rpow_pos_of_pos hg0 g).ne'
    have := (Real.rpow_pos_of_pos oo g).ne'
    field_simp
  rw [eqv] at prod
  have q0 : 0 < Spec.monBase g o := lt_of_lt_of_le (by positivity) q1
  have s0 : 0 < Spec.monSlope g o := div_pos (Real.rpow_pos_of_pos q0 _) P0
  have lower : 1 / 2 ^ 240 ≤ 1 / Spec.monSlope g o := by
    refine one_div_le_one_div_of_le s0 ?_
    rw [Spec.monSlope, div_le_iff₀ P0]
    have h1 := (rpow_between (r := g) (R := 10) q1 q2 (by linarith) (by exact_mod_cast g10)).2
    have := mul_le_mul_of_nonneg_left p1 (by positivity : (0 : ℝ) ≤ 2 ^ 240)
    norm_num at this h1 ⊢
    linarith
  have upper : 1 / Spec.monSlope g o ≤ 2 ^ 110 := by
    rw [div_le_iff₀ s0, monSlope_eq hg ho, mul_div_assoc']
    rw [le_div_iff₀ oo]
    have h1 := (rpow_between (r := g - 1) (R := 9) q1 q2 g10'.le (by push_cast; linarith)).1
    have h2 : 1 / 2 ^ 99 ≤ g * Spec.monBase g o ^ (g - 1) := h1.trans (le_mul_of_one_le_left (by positivity) hg.le)
    norm_num at h2 o2 ⊢
    linarith
  obtain ⟨f1, f2, -⟩ := prod.round (small_500 240 (by norm_num) lower) (large_299 110 (by norm_num) upper) (by norm_num)
  refine ⟨g1, a, o1, _, wa, wc, _, e1, e4, wa1, by rw [← e2, Flt.fin_add, Flt.fin_add, add_comm], ?_, wc1, by rw [Flt.fin_mul]; exact f1, f2.mono (by norm_num) (by norm_num),
    lower, upper⟩
  rw [divR, pyDivF_fin (by linarith), py_ok_bind, c3]
  rfl

/-- Colours `X` whose image `moncurve X` the code of `moncurveRev` takes to the right part: it compares with the break point, which is where `X` should be
compared. -/
def Spec.SameSide (g o X : ℝ) : Prop :=
  (X ≤ Spec.monBreak g o ∧ Spec.moncurve g o X ≤ Spec.monBreak g o * (1 - 1 / 2 ^ 20)) ∨
  (Spec.monBreak g o < X ∧ Spec.monBreak g o * (1 + 1 / 2 ^ 20) ≤ Spec.moncurve g o X)

/-- Unit scale, inverse of a curve, store. -/
theorem unmon_channel {L : Arith ℝ} (hL : Spec.GoodLibrary L) {g o X : ℝ} (hv : Spec.MonValues g o) (d1 d2 : Depth) {x : ℝ} (hx : Spec.IsSingle x)
    (hX : Spec.moncurve g o X = x / Spec.fullScale d1) (hs : Spec.SameSide g o X) (hb : |X| ≤ 2 ^ 70) (hb' : |x / Spec.fullScale d1| ≤ 2 ^ 90) :
    ∃ y out, moncurveRevR ieee L (.fin g) (.fin o) (ieee single (toUnitR ieee (.fin x) d1)) = .ok y ∧
      ieee single (fromUnitR ieee (ieee single y) d2) = .fin out ∧ Spec.IsSingle out ∧
      |out - X * Spec.fullScale d2| ≤ Spec.fullScale d2 * ((|X| + o) / 2 ^ 19) := by
  obtain ⟨u, h1, su, -, -, -, -, eu⟩ := unit_pos d1 hx
  rw [h1]
  rw [← hX] at eu hb'
  generalize x / Spec.fullScale d1 = x' at *
  obtain ⟨g1, a, o1, c, wa, wc, f, k1, k2, k3, k4, k5, k6, k7, k8, k9, k10⟩ := unmon_factor hL hv
  obtain ⟨g1', o1', p, a', q, w, e1, e2, e3, e4, e5, e6, -, ⟨ao, do1⟩, ⟨ap, -⟩, -, -⟩ := mon_consts hL hv
  obtain rfl : g1 = g1' := Flt.fin.inj (k1.symm.trans e1)
  obtain rfl : o1 = o1' := by
    rw [Flt.fin_add, add_comm, ← Flt.fin_add, e2] at k4
    exact (Flt.fin.inj k4).symm
  obtain ⟨p1, p2, q1, q2⟩ := hv.sizes
  obtain ⟨hg, ho, hg'⟩ := hv.pos
  have P0 := monBreak_pos hg ho
  have X0 := abs_nonneg X
  have oo : 0 < 1 + o := by linarith
  have o10 := hv.offset.1
  have o11 := hv.offset.2
  have tiny : (2 : ℝ) ^ (-148 : ℤ) = 1 / 2 ^ 148 := by norm_num
  rw [tiny] at eu
  have ps := abs_le.mp ap.off
  -- what remains after the curve
  suffices key : ∃ y, moncurveRevR ieee L (.fin g) (.fin o) (.fin u) = .ok (.fin y) ∧ |y - X| ≤ (|X| + o) / 2 ^ 20 - (|X| + o) / 2 ^ 22 by
    obtain ⟨y, y1, y2⟩ := key
    obtain ⟨out, z1, z2, z3⟩ := store_rel d2 y2 (by norm_num at hb o11 ⊢; linarith)
    refine ⟨_, out, y1, z1, z2, z3.trans (mul_le_mul_of_nonneg_left ?_ (fullScale_pos (K := ℝ) d2).le)⟩
    norm_num at o10 ⊢
    linarith
  unfold moncurveRevR
  rw [e1, e2]
  simp only [e5, py_ok_bind, e6, e3, Flt.le_fin, decide_eq_true_eq]
  rcases hs with ⟨s1, s2⟩ | ⟨s1, s2⟩
  · have hup : u ≤ p := by
      have := (abs_le.mp eu).2
      have h2 : |Spec.moncurve g o X| ≤ Spec.moncurve g o X ∨ Spec.moncurve g o X ≤ 0 := by
        rcases le_total 0 (Spec.moncurve g o X) with h | h
        · exact .inl (abs_of_nonneg h).le
        · exact .inr h
      rcases h2 with h2 | h2
      · norm_num at this s2 ps p1
        linarith
      · have h3 : |Spec.moncurve g o X| = -Spec.moncurve g o X := abs_of_nonpos h2
        rw [h3] at this
        norm_num at this s2 ps p1
        linarith
    rw [if_pos hup, k2, py_ok_bind, k3, py_ok_bind, k4, k5, py_ok_bind, k6, py_ok_bind, k7]
    have s0 : 0 < Spec.monSlope g o := div_pos (Real.rpow_pos_of_pos (lt_of_lt_of_le (by positivity) q1) _) P0
    rw [moncurve_line s1] at eu hb'
    obtain ⟨i, hi⟩ : ∃ i, i = 1 / Spec.monSlope g o := ⟨_, rfl⟩
    rw [← hi] at k8 k9 k10
    have i0 : 0 < i := by rw [hi]; positivity
    have is : i * Spec.monSlope g o = 1 := by rw [hi]; field_simp
    -- the colour that was rounded
    have c1 : |i * u - X| ≤ |X| * (9 / 8 * (1 / 2 ^ 24)) + o / 2 ^ 28 := by
      have h1 : i * u - X = i * (u - Spec.monSlope g o * X) := by rw [mul_sub, ← mul_assoc, is, one_mul]
      rw [h1, abs_mul, abs_of_pos i0]
      refine (mul_le_mul_of_nonneg_left eu i0.le).trans ?_
      rw [abs_mul, abs_of_pos s0]
      have h2 : i * (Spec.monSlope g o * |X| * (9 / 8 * (1 / 2 ^ 24)) + 1 / 2 ^ 148) = (i * Spec.monSlope g o) * (|X| * (9 / 8 * (1 / 2 ^ 24))) + i / 2 ^ 148 := by ring
      rw [h2, is, one_mul]
      have h3 : i / 2 ^ 148 ≤ o / 2 ^ 28 := by
        norm_num at k10 o10 ⊢
        linarith
      linarith
    have c2 : |i * u| ≤ |X| + |X| / 2 ^ 20 + o / 2 ^ 20 := by
      have := abs_add_le (i * u - X) X
      rw [sub_add_cancel] at this
      generalize i * u = v at *
      norm_num at c1 ⊢
      linarith
    have bnd : |u| ≤ (|X| + |X| / 2 ^ 20 + o / 2 ^ 20) / i := by
      rw [le_div_iff₀ i0, mul_comm]
      rwa [abs_mul, abs_of_pos i0] at c2
    have m1 := k8.mul (.exact bnd : Approx u u _ 0) (by norm_num)
    rw [mul_div_cancel₀ _ i0.ne'] at m1
    obtain ⟨m2, m3, -⟩ := m1.round (small_500 40 (by norm_num) (by norm_num at o10 ⊢; linarith)) (large_299 72 (by norm_num) (by norm_num at hb o11 ⊢; linarith)) (by norm_num)
    refine ⟨_, by rw [Flt.fin_mul, m2]; rfl, ?_⟩
    have m4 := m3.off
    have m5 := abs_sub_le (double.near (f * u)) (i * u) X
    generalize double.near (f * u) = z at *
    norm_num at c1 m4 ⊢
    linarith
  · have c0 : 0 < Spec.moncurve g o X := lt_of_lt_of_le (mul_pos P0 (by norm_num)) s2
    have hup : ¬ u ≤ p := by
      rw [not_le]
      have := (abs_le.mp eu).1
      rw [abs_of_pos c0] at this
      norm_num at this s2 ps p1
      linarith
    have u0 : Spec.monBreak g o / 2 ≤ u := by
      rw [not_le] at hup
      norm_num at ps
      linarith
    rw [if_neg hup]
    have gi : Approx (1 / g) (1 / g) (1 / g) 0 := .exact (abs_of_pos (by positivity)).le
    have gi1 : 1 / 2 ^ 4 ≤ 1 / g := one_div_le_one_div_of_le (by linarith) (by have := hv.exponent.2; norm_num; linarith)
    have gi2 : 1 / g ≤ 2 ^ 0 := by rw [div_le_iff₀ (by linarith)]; norm_num; linarith
    obtain ⟨r1, r2, r3⟩ := gi.round (small_500 4 (by norm_num) gi1) (large_299 0 (by norm_num) gi2) (by norm_num)
    rw [zero_add] at r2
    have r4 : divR ieee (.fin 1) (.fin g) = .ok (.fin (double.near (1 / g))) := by
      rw [divR, pyDivF_fin (by linarith), py_ok_bind, r1]
      rfl
    have ub : 1 / 2 ^ 100 ≤ u ∧ u ≤ 2 ^ 100 := by
      have h2 := abs_add_le (u - Spec.moncurve g o X) (Spec.moncurve g o X)
      rw [sub_add_cancel] at h2
      have h3 := le_abs_self u
      constructor
      · norm_num at p1 ⊢
        linarith
      · norm_num at hb' eu ⊢
        linarith
    have uu : 0 < u := lt_of_lt_of_le (by positivity) ub.1
    obtain ⟨b1, b2⟩ := rpow_between (r := 1 / g) (R := 1) ub.1 ub.2 (by positivity) (by push_cast; norm_num at gi2 ⊢; linarith)
    obtain ⟨W, hW⟩ : ∃ W, W = u ^ (1 / g) := ⟨_, rfl⟩
    rw [← hW] at b1 b2
    obtain ⟨w', w1, w2⟩ := (Approx.exact (abs_of_pos uu).le).power hL su.double r2 r3 (by positivity) (by norm_num at gi2 ⊢; linarith) ub.1 ub.2 (by norm_num) (by norm_num)
      (hW ▸ small_500 100 (by norm_num) b1) (hW ▸ large_299 100 (by norm_num) b2)
    rw [← hW] at w2
    have w3 := w2.mono (m := 420) (by norm_num at gi2 ⊢; linarith) (by norm_num)
    have W0 : 0 < W := lt_of_lt_of_le (by positivity) b1
    -- the root
    have cX : Spec.moncurve g o X = ((X + o) / (1 + o)) ^ g := by
      rw [moncurve_power hg ho s1.le, max_eq_right (div_nonneg (by linarith) oo.le)]
    have root : (Spec.moncurve g o X) ^ (1 / g) * (1 + o) = X + o := by
      rw [cX, one_div, Real.rpow_rpow_inv (div_nonneg (by linarith) oo.le) (by linarith), div_mul_cancel₀ _ oo.ne']
    have rel : RelClose u (Spec.moncurve g o X) (10 / 8 * (1 / 2 ^ 24)) := by
      unfold RelClose
      refine eu.trans ?_
      rw [abs_of_pos c0]
      norm_num at s2 p1 ⊢
      linarith
    have rel2 := rel.pow c0 (by norm_num) (1 / g) (by rw [abs_of_pos (by positivity)]; norm_num at gi2 ⊢; linarith)
    have rel3 : RelClose W ((Spec.moncurve g o X) ^ (1 / g)) (5 * (1 / 2 ^ 24)) := by
      rw [hW]
      refine rel2.mono (Real.rpow_nonneg c0.le _) ?_
      rw [abs_of_pos (by positivity)]
      norm_num at gi2 ⊢
      linarith
    have rel4 := rel3.scale oo.le
    rw [root] at rel4
    unfold RelClose at rel4
    -- the rest
    have n1 := w3.mul ao (by norm_num)
    have Wo1 : 1 / 2 ^ 100 ≤ W * (1 + o) := b1.trans (le_mul_of_one_le_right W0.le (by linarith))
    have Wo3 : W * (1 + o) ≤ 2 * (X + o) := by
      have := (abs_le.mp rel4).2
      norm_num at this
      linarith
    have Xabs : |X| = X := abs_of_pos (by linarith)
    rw [Xabs] at hb ⊢
    have Wo2 : W * (1 + o) ≤ 2 ^ 72 := by
      norm_num at hb o11 ⊢
      linarith
    obtain ⟨n2, n3, -⟩ := n1.round (small_500 100 (by norm_num) Wo1) (large_299 72 (by norm_num) Wo2) (by norm_num)
    have n4 := n3.sub (.exact (abs_of_pos ho).le : Approx o o o 0) (by norm_num)
    obtain ⟨n5, n6, -⟩ := n4.round (small_500 100 (by norm_num) (by linarith)) (large_299 73 (by norm_num) (by norm_num at Wo2 o11 ⊢; linarith)) (by norm_num)
    refine ⟨double.near (double.near (w' * o1) - o), ?_, ?_⟩
    · rw [r4, py_ok_bind, Flt.pmax_fin, max_eq_right uu.le, w1, py_ok_bind, k4, Flt.fin_mul, n2, Flt.fin_sub, n5]
      rfl
    · have n7 := n6.off
      have n8 := abs_sub_le (double.near (double.near (w' * o1) - o)) (W * (1 + o) - o) X
      have n9 : W * (1 + o) - o - X = W * (1 + o) - (X + o) := by ring
      rw [n9] at n8
      generalize double.near (double.near (w' * o1) - o) = z at *
      generalize W * (1 + o) = V at *
      norm_num at n7 rel4 ⊢
      linarith

/-! ## The shape of the curve -/

/-- The curve is nowhere flatter than its line. -/
theorem moncurve_expands {g o : ℝ} (hg : 1 < g) (ho : 0 < o) {x y : ℝ} (hxy : x ≤ y) :
    Spec.monSlope g o * (y - x) ≤ Spec.moncurve g o y - Spec.moncurve g o x := by
  have P0 := monBreak_pos hg ho
  have oo : 0 < 1 + o := by linarith
  have q0 : 0 < Spec.monBase g o := div_pos (by linarith) oo
  have line : ∀ {x y}, x ≤ y → y ≤ Spec.monBreak g o → Spec.monSlope g o * (y - x) ≤ Spec.moncurve g o y - Spec.moncurve g o x := fun h1 h2 => by
    rw [moncurve_line h2, moncurve_line (h1.trans h2), mul_sub]
  have pw : ∀ {x y}, x ≤ y → Spec.monBreak g o ≤ x → Spec.monSlope g o * (y - x) ≤ Spec.moncurve g o y - Spec.moncurve g o x := fun {x y} h1 h2 => by
    have b : ∀ {z}, Spec.monBreak g o ≤ z → Spec.monBase g o ≤ (z + o) / (1 + o) := fun hz => div_le_div_of_nonneg_right (by linarith) oo.le
    have := Convex.mul_sub_le_image_sub_of_le_deriv (convex_Ici (Spec.monBase g o)) (f := fun z : ℝ => z ^ g) (C := g * Spec.monBase g o ^ (g - 1))
      (fun z _ => (Real.hasDerivAt_rpow_const (.inr hg.le)).continuousAt.continuousWithinAt)
      (fun z _ => (Real.hasDerivAt_rpow_const (.inr hg.le)).differentiableAt.differentiableWithinAt)
      (fun z hz => by
        rw [interior_Ici] at hz
        rw [(Real.hasDerivAt_rpow_const (.inr hg.le)).deriv]
        exact mul_le_mul_of_nonneg_left (Real.rpow_le_rpow q0.le (le_of_lt hz) (by linarith)) (by linarith))
      _ (b h2) _ (b (h2.trans h1)) (div_le_div_of_nonneg_right (by linarith) oo.le)
    rw [moncurve_power hg ho h2, moncurve_power hg ho (h2.trans h1), max_eq_right (q0.le.trans (b h2)), max_eq_right (q0.le.trans (b (h2.trans h1)))]
    refine le_trans (le_of_eq ?_) this
    rw [monSlope_eq hg ho]
    field_simp
    ring
  rcases le_total y (Spec.monBreak g o) with h | h
  · exact line hxy h
  · rcases le_total x (Spec.monBreak g o) with h' | h'
    · have := line h' le_rfl
      have := pw h le_rfl
      linarith
    · exact pw hxy h'

theorem monSlope_pos {g o : ℝ} (hg : 1 < g) (ho : 0 < o) : 0 < Spec.monSlope g o := by
  have P0 := monBreak_pos hg ho
  exact div_pos (Real.rpow_pos_of_pos (div_pos (by linarith) (by linarith)) _) P0

/-- Every number is on the curve. -/
theorem moncurve_onto {g o : ℝ} (hg : 1 < g) (ho : 0 < o) (y : ℝ) : ∃ x, Spec.moncurve g o x = y := by
  have P0 := monBreak_pos hg ho
  have s0 := monSlope_pos hg ho
  have oo : 0 < 1 + o := by linarith
  have q0 : 0 < Spec.monBase g o := div_pos (by linarith) oo
  rcases le_total y (Spec.monBase g o ^ g) with h | h
  · refine ⟨y / Spec.monSlope g o, ?_⟩
    rw [moncurve_line, mul_div_cancel₀ _ s0.ne']
    rw [div_le_iff₀ s0, mul_comm, Spec.monSlope, div_mul_cancel₀ _ P0.ne']
    exact h
  · have w0 := Real.rpow_pos_of_pos q0 g
    have hr : Spec.monBase g o ≤ y ^ g⁻¹ := by
      have := Real.rpow_le_rpow w0.le h (inv_nonneg.mpr (by linarith : (0 : ℝ) ≤ g))
      rwa [Real.rpow_rpow_inv q0.le (by linarith)] at this
    refine ⟨y ^ g⁻¹ * (1 + o) - o, ?_⟩
    rw [moncurve_power hg ho, sub_add_cancel, mul_div_cancel_right₀ _ oo.ne', max_eq_right (q0.le.trans hr), Real.rpow_inv_rpow (w0.le.trans h) (by linarith)]
    have : Spec.monBase g o * (1 + o) = Spec.monBreak g o + o := div_mul_cancel₀ _ oo.ne'
    have := mul_le_mul_of_nonneg_right hr oo.le
    linarith

/-- C146: black stays, white stays if it is past the break point, more is more, without jumps, and every number is reached. -/
theorem C146_shape (g o : ℝ) (hg : 1 < g) (ho : 0 < o) :
    Spec.moncurve g o 0 = 0 ∧ (Spec.monBreak g o ≤ 1 → Spec.moncurve g o 1 = 1) ∧ StrictMono (Spec.moncurve g o) ∧ Continuous (Spec.moncurve g o) ∧
    Function.Bijective (Spec.moncurve g o) := by
  have s0 := monSlope_pos hg ho
  have mono : StrictMono (Spec.moncurve g o) := fun x y h => by
    have := moncurve_expands hg ho h.le
    have := mul_pos s0 (sub_pos.mpr h)
    linarith
  refine ⟨?_, fun h => ?_, mono, ?_, mono.injective, moncurve_onto hg ho⟩
  · rw [moncurve_line (monBreak_pos hg ho).le, mul_zero]
  · rw [moncurve_power hg ho h, div_self (by linarith), max_eq_right zero_le_one, Real.one_rpow]
  · exact mono.monotone.continuous_of_surjective (moncurve_onto hg ho)

/-! ## Nodes -/

/-- What a node of style `moncurveFwd` may be off. -/
noncomputable def Spec.monError (g D A : ℝ) : ℝ := g * A ^ g * D / 2 ^ 22 + g * A ^ g / 2 ^ 21

/-- C146: monitor curves in IEEE arithmetic, other channels stay. -/
theorem C146_fwd (L : Arith ℝ) (hL : Spec.GoodLibrary L) (rows : List (GammaParam ℝ)) (hr : Spec.GoodLetters GammaParam.channel rows) (g o : Fin 3 → ℝ)
    (hv : ∀ i, Spec.gammaFor rows i = (.fin (g i), .fin (o i)) ∧ Spec.MonValues (g i) (o i)) (b : Base ℝ) (d1 d2 : AVal)
    (h : StyledNode b d1 d2 (.str "moncurveFwd")) (D : ℝ) (A : Fin 3 → ℝ) (hD : ∀ i, Spec.MonReach (g i) (o i) D (A i)) (stride : ℕ) (hs : 3 ≤ stride)
    (pixels : List ((Fin 3 → ℝ) × List (Flt ℝ))) (hp : ∀ p ∈ pixels, p.2.length + 3 = stride)
    (hx : ∀ p ∈ pixels, ∀ i, Spec.IsSingle (p.1 i) ∧ |p.1 i / Spec.fullScale (some d1)| * (1 + 1 / 2 ^ 23) + 1 / 2 ^ 100 ≤ D) :
    ∃ (r : Res ℝ) (F : Fin 3 → ℝ → ℝ), gammaProcessR ieee L rows b (Spec.image pixels) stride = .ok r ∧
      r.out = Spec.image (pixels.map fun p => (fun i => F i (p.1 i), p.2)) ∧
      ∀ p ∈ pixels, ∀ i, Spec.IsSingle (F i (p.1 i)) ∧
        |F i (p.1 i) - Spec.moncurve (g i) (o i) (p.1 i / Spec.fullScale (some d1)) * Spec.fullScale (some d2)|
          ≤ Spec.fullScale (some d2) * Spec.monError (g i) D (A i) := by
  have hS := fullScale_pos (K := ℝ) (some d1)
  have hT := fullScale_pos (K := ℝ) (some d2)
  have key : ∀ (i : Fin 3) (x : ℝ), ∃ out, (Spec.IsSingle x ∧ |x / Spec.fullScale (some d1)| * (1 + 1 / 2 ^ 23) + 1 / 2 ^ 100 ≤ D) →
      (∃ y, moncurveFwdR ieee L (Spec.gammaFor rows i).1 (Spec.gammaFor rows i).2 (ieee single (toUnitR ieee (.fin x) (some d1))) = .ok y ∧
        ieee single (fromUnitR ieee (ieee single y) (some d2)) = .fin out) ∧ Spec.IsSingle out ∧
      |out - Spec.moncurve (g i) (o i) (x / Spec.fullScale (some d1)) * Spec.fullScale (some d2)|
          ≤ Spec.fullScale (some d2) * Spec.monError (g i) D (A i) := by
    intro i x
    by_cases hh : Spec.IsSingle x ∧ |x / Spec.fullScale (some d1)| * (1 + 1 / 2 ^ 23) + 1 / 2 ^ 100 ≤ D
    · obtain ⟨hx, hB⟩ := hh
      have N1 : 1 ≤ g i * A i ^ g i := by
        have h1 : 1 ≤ A i ^ g i := Real.one_le_rpow (hD i).least.2 (by linarith [(hv i).2.pos.1])
        exact h1.trans (le_mul_of_one_le_left (by linarith) (hv i).2.pos.1.le)
      have fits := (hD i).fits
      have eB : |x / Spec.fullScale (some d1)| = |x| / Spec.fullScale (some d1) := by rw [abs_div, abs_of_pos hS]
      rw [eB] at hB
      obtain ⟨y, out, h1, h2, h3, -, h5⟩ := tone_channel (some d1) (some d2) (toneNear_moncurve hL (hv i).2 (hD i)) (by positivity)
        (toneBounds_moncurve (hv i).2 (hD i)) hB (by
          have e : (2 : ℝ) ^ 90 = 4 * 2 ^ 88 := by norm_num
          rw [e]
          generalize (2 : ℝ) ^ 88 = M at *
          norm_num
          linarith) hx le_rfl
      rw [clampD_id (by
        rw [eB]
        have : 0 ≤ |x| / Spec.fullScale (some d1) := by positivity
        norm_num at hB
        linarith)] at h5
      refine ⟨out, fun _ => ⟨⟨y, by rw [(hv i).1]; exact h1, h2⟩, h3, h5.trans (mul_le_mul_of_nonneg_left ?_ hT.le)⟩⟩
      refine le_trans ?_ (film_sum (k := g i * A i ^ g i) (by linarith) (by norm_num; linarith) (hD i).least.1 hB)
      norm_num
      linarith
    · exact ⟨0, fun h => absurd h hh⟩
  choose F hF using key
  obtain ⟨r, h1, h2⟩ := gammaProcessR_image ieee L rows hr b d1 d2 _ h _ rfl stride hs pixels hp F fun p hp' i => (hF i (p.1 i) (hx p hp' i)).1
  exact ⟨r, F, h1, h2, fun p hp' i => (hF i (p.1 i) (hx p hp' i)).2⟩

/-- C146: a node of style `moncurveRev` undoes the curve where it takes the right part; other channels stay. -/
theorem C146_rev (L : Arith ℝ) (hL : Spec.GoodLibrary L) (rows : List (GammaParam ℝ)) (hr : Spec.GoodLetters GammaParam.channel rows) (g o : Fin 3 → ℝ)
    (hv : ∀ i, Spec.gammaFor rows i = (.fin (g i), .fin (o i)) ∧ Spec.MonValues (g i) (o i)) (b : Base ℝ) (d1 d2 : AVal)
    (h : StyledNode b d1 d2 (.str "moncurveRev")) (X : Fin 3 → ℝ → ℝ) (stride : ℕ) (hs : 3 ≤ stride)
    (pixels : List ((Fin 3 → ℝ) × List (Flt ℝ))) (hp : ∀ p ∈ pixels, p.2.length + 3 = stride)
    (hx : ∀ p ∈ pixels, ∀ i, Spec.IsSingle (p.1 i) ∧ Spec.moncurve (g i) (o i) (X i (p.1 i)) = p.1 i / Spec.fullScale (some d1) ∧
      Spec.SameSide (g i) (o i) (X i (p.1 i)) ∧ |X i (p.1 i)| ≤ 2 ^ 70 ∧ |p.1 i / Spec.fullScale (some d1)| ≤ 2 ^ 90) :
    ∃ (r : Res ℝ) (F : Fin 3 → ℝ → ℝ), gammaProcessR ieee L rows b (Spec.image pixels) stride = .ok r ∧
      r.out = Spec.image (pixels.map fun p => (fun i => F i (p.1 i), p.2)) ∧
      ∀ p ∈ pixels, ∀ i, Spec.IsSingle (F i (p.1 i)) ∧
        |F i (p.1 i) - X i (p.1 i) * Spec.fullScale (some d2)| ≤ Spec.fullScale (some d2) * ((|X i (p.1 i)| + o i) / 2 ^ 19) := by
  have key : ∀ (i : Fin 3) (x : ℝ), ∃ out, (Spec.IsSingle x ∧ Spec.moncurve (g i) (o i) (X i x) = x / Spec.fullScale (some d1) ∧
      Spec.SameSide (g i) (o i) (X i x) ∧ |X i x| ≤ 2 ^ 70 ∧ |x / Spec.fullScale (some d1)| ≤ 2 ^ 90) →
      (∃ y, moncurveRevR ieee L (Spec.gammaFor rows i).1 (Spec.gammaFor rows i).2 (ieee single (toUnitR ieee (.fin x) (some d1))) = .ok y ∧
        ieee single (fromUnitR ieee (ieee single y) (some d2)) = .fin out) ∧ Spec.IsSingle out ∧
      |out - X i x * Spec.fullScale (some d2)| ≤ Spec.fullScale (some d2) * ((|X i x| + o i) / 2 ^ 19) := by
    intro i x
    by_cases hh : Spec.IsSingle x ∧ Spec.moncurve (g i) (o i) (X i x) = x / Spec.fullScale (some d1) ∧
      Spec.SameSide (g i) (o i) (X i x) ∧ |X i x| ≤ 2 ^ 70 ∧ |x / Spec.fullScale (some d1)| ≤ 2 ^ 90
    · obtain ⟨y, out, h1, h2, h3, h4⟩ := unmon_channel hL (hv i).2 (some d1) (some d2) hh.1 hh.2.1 hh.2.2.1 hh.2.2.2.1 hh.2.2.2.2
      exact ⟨out, fun _ => ⟨⟨y, by rw [(hv i).1]; exact h1, h2⟩, h3, h4⟩⟩
    · exact ⟨0, fun h => absurd h hh⟩
  choose F hF using key
  obtain ⟨r, h1, h2⟩ := gammaProcessR_image ieee L rows hr b d1 d2 _ h _ rfl stride hs pixels hp F fun p hp' i => (hF i (p.1 i) (hx p hp' i)).1
  exact ⟨r, F, h1, h2, fun p hp' i => (hF i (p.1 i) (hx p hp' i)).2⟩

/-- Colours that come back, where the first node may be off by `δ`. -/
def Spec.MonTrip (g o δ X : ℝ) : Prop :=
  (X + δ / Spec.monSlope g o ≤ Spec.monBreak g o ∧ Spec.moncurve g o X + δ ≤ Spec.monBreak g o * (1 - 1 / 2 ^ 20)) ∨
  (Spec.monBreak g o + δ / Spec.monSlope g o < X ∧ Spec.monBreak g o * (1 + 1 / 2 ^ 20) + δ ≤ Spec.moncurve g o X)

/-- C146: colours come back from a monitor curve, unless the curve takes them past the break point. -/
theorem C146_roundtrip (L : Arith ℝ) (hL : Spec.GoodLibrary L) (rows rows' : List (GammaParam ℝ)) (hr : Spec.GoodLetters GammaParam.channel rows)
    (hr' : Spec.GoodLetters GammaParam.channel rows') (g o : Fin 3 → ℝ)
    (hv : ∀ i, Spec.gammaFor rows i = (.fin (g i), .fin (o i)) ∧ Spec.gammaFor rows' i = (.fin (g i), .fin (o i)) ∧ Spec.MonValues (g i) (o i))
    (b b' : Base ℝ) (d1 d2 d3 : AVal) (h : StyledNode b d1 d2 (.str "moncurveFwd")) (h' : StyledNode b' d2 d3 (.str "moncurveRev")) (D : ℝ) (A : Fin 3 → ℝ)
    (hD : ∀ i, Spec.MonReach (g i) (o i) D (A i)) (hlarge : D ≤ 2 ^ 20 ∧ ∀ i, Spec.monError (g i) D (A i) / Spec.monSlope (g i) (o i) ≤ 2 ^ 60) (stride : ℕ) (hs : 3 ≤ stride)
    (pixels : List ((Fin 3 → ℝ) × List (Flt ℝ))) (hp : ∀ p ∈ pixels, p.2.length + 3 = stride)
    (hx : ∀ p ∈ pixels, ∀ i, Spec.IsSingle (p.1 i) ∧ |p.1 i / Spec.fullScale (some d1)| * (1 + 1 / 2 ^ 23) + 1 / 2 ^ 100 ≤ D ∧
      Spec.MonTrip (g i) (o i) (Spec.monError (g i) D (A i)) (p.1 i / Spec.fullScale (some d1))) :
    ∃ (r r' : Res ℝ) (G : Fin 3 → ℝ → ℝ), gammaProcessR ieee L rows b (Spec.image pixels) stride = .ok r ∧
      gammaProcessR ieee L rows' b' r.out stride = .ok r' ∧
      r'.out = Spec.image (pixels.map fun p => (fun i => G i (p.1 i), p.2)) ∧
      ∀ p ∈ pixels, ∀ i, Spec.IsSingle (G i (p.1 i)) ∧
        |G i (p.1 i) - p.1 i / Spec.fullScale (some d1) * Spec.fullScale (some d3)| ≤ Spec.fullScale (some d3) *
          (2 * (Spec.monError (g i) D (A i) / Spec.monSlope (g i) (o i)) + (|p.1 i / Spec.fullScale (some d1)| + o i) / 2 ^ 19) := by
  have hT := fullScale_pos (K := ℝ) (some d2)
  have hU := fullScale_pos (K := ℝ) (some d3)
  obtain ⟨r, F, k1, k2, k3⟩ := C146_fwd L hL rows hr g o (fun i => ⟨(hv i).1, (hv i).2.2⟩) b d1 d2 h D A hD stride hs pixels hp
    fun p hp' i => ⟨(hx p hp' i).1, (hx p hp' i).2.1⟩
  choose X hX using fun (i : Fin 3) (y : ℝ) => moncurve_onto (hv i).2.2.pos.1 (hv i).2.2.pos.2.1 (y / Spec.fullScale (some d2))
  -- the colour that gives exactly what the first node gives
  have mid : ∀ p ∈ pixels, ∀ i, |X i (F i (p.1 i)) - p.1 i / Spec.fullScale (some d1)| ≤ Spec.monError (g i) D (A i) / Spec.monSlope (g i) (o i) ∧
      |F i (p.1 i) / Spec.fullScale (some d2) - Spec.moncurve (g i) (o i) (p.1 i / Spec.fullScale (some d1))| ≤ Spec.monError (g i) D (A i) := by
    intro p hp' i
    have e := (k3 p hp' i).2
    have s0 := monSlope_pos (hv i).2.2.pos.1 (hv i).2.2.pos.2.1
    have e1 : |F i (p.1 i) / Spec.fullScale (some d2) - Spec.moncurve (g i) (o i) (p.1 i / Spec.fullScale (some d1))| ≤ Spec.monError (g i) D (A i) := by
      rw [← mul_le_mul_iff_right₀ hT]
      refine le_trans (le_of_eq ?_) e
      nth_rw 1 [← abs_of_pos hT]
      rw [← abs_mul, mul_sub, mul_div_cancel₀ _ hT.ne', mul_comm (Spec.fullScale (some d2)) (Spec.moncurve _ _ _)]
    refine ⟨?_, e1⟩
    rw [← hX i] at e1
    generalize p.1 i / Spec.fullScale (some d1) = x at *
    generalize X i (F i (p.1 i)) = z at *
    rw [le_div_iff₀ s0, mul_comm]
    refine le_trans ?_ e1
    rcases le_total x z with hle | hle
    · have := moncurve_expands (hv i).2.2.pos.1 (hv i).2.2.pos.2.1 hle
      rw [abs_of_nonneg (sub_nonneg.mpr hle)]
      exact this.trans (le_abs_self _)
    · have := moncurve_expands (hv i).2.2.pos.1 (hv i).2.2.pos.2.1 hle
      rw [abs_sub_comm, abs_of_nonneg (sub_nonneg.mpr hle), abs_sub_comm]
      exact this.trans (le_abs_self _)
  obtain ⟨r', F', l1, l2, l3⟩ := C146_rev L hL rows' hr' g o (fun i => (hv i).2) b' d2 d3 h' X stride hs
    (pixels.map fun p => (fun i => F i (p.1 i), p.2)) (by
      intro p hp'
      obtain ⟨q, hq, rfl⟩ := List.mem_map.mp hp'
      exact hp q hq) (by
      intro p hp' i
      obtain ⟨q, hq, rfl⟩ := List.mem_map.mp hp'
      simp only
      obtain ⟨m1, m2⟩ := mid q hq i
      obtain ⟨-, hB, ht⟩ := hx q hq i
      have s0 := monSlope_pos (hv i).2.2.pos.1 (hv i).2.2.pos.2.1
      have a1 := abs_le.mp m1
      have a2 := abs_le.mp m2
      have X0 := abs_nonneg (q.1 i / Spec.fullScale (some d1))
      refine ⟨(k3 q hq i).1, hX i _, ?_, ?_, ?_⟩
      · rcases ht with ⟨t1, t2⟩ | ⟨t1, t2⟩
        · refine .inl ⟨by linarith, ?_⟩
          rw [hX]
          linarith
        · refine .inr ⟨by linarith, ?_⟩
          rw [hX]
          linarith
      · have := abs_add_le (X i (F i (q.1 i)) - q.1 i / Spec.fullScale (some d1)) (q.1 i / Spec.fullScale (some d1))
        rw [sub_add_cancel] at this
        have l1 := hlarge.1
        have l2 := hlarge.2 i
        norm_num at hB l1 l2 ⊢
        linarith
      · have := abs_add_le (F i (q.1 i) / Spec.fullScale (some d2) - Spec.moncurve (g i) (o i) (q.1 i / Spec.fullScale (some d1)))
          (Spec.moncurve (g i) (o i) (q.1 i / Spec.fullScale (some d1)))
        rw [sub_add_cancel] at this
        have sz := (toneBounds_moncurve (hv i).2.2 (hD i)).size (q.1 i / Spec.fullScale (some d1)) (by norm_num at hB; linarith)
        have fits := (hD i).fits
        have N0 : 0 ≤ g i * A i ^ g i := mul_nonneg (by linarith [(hv i).2.2.pos.1]) (Real.rpow_nonneg (by linarith [(hD i).least.2]) _)
        have me : Spec.monError (g i) D (A i) ≤ g i * A i ^ g i := by
          unfold Spec.monError
          have h1 := mul_le_mul_of_nonneg_left hlarge.1 N0
          norm_num at h1 ⊢
          linarith
        have e : (2 : ℝ) ^ 90 = 4 * 2 ^ 88 := by norm_num
        rw [e]
        generalize (2 : ℝ) ^ 88 = M at *
        linarith)
  refine ⟨r, r', fun i x => F' i (F i x), k1, by rw [k2]; exact l1, ?_, fun p hp' i => ?_⟩
  · rw [l2, List.map_map]
    rfl
  · obtain ⟨m1, m2⟩ := l3 _ (List.mem_map.mpr ⟨p, hp', rfl⟩) i
    refine ⟨m1, ?_⟩
    obtain ⟨m3, -⟩ := mid p hp' i
    simp only at m2
    have t := abs_sub_le (F' i (F i (p.1 i))) (X i (F i (p.1 i)) * Spec.fullScale (some d3)) (p.1 i / Spec.fullScale (some d1) * Spec.fullScale (some d3))
    rw [← sub_mul, abs_mul, abs_of_pos hU] at t
    have m4 := mul_le_mul_of_nonneg_right m3 hU.le
    have m5 := abs_add_le (X i (F i (p.1 i)) - p.1 i / Spec.fullScale (some d1)) (p.1 i / Spec.fullScale (some d1))
    rw [sub_add_cancel] at m5
    generalize Spec.monError (g i) D (A i) / Spec.monSlope (g i) (o i) = η at *
    have η0 := (abs_nonneg _).trans m3
    have m6 : Spec.fullScale (some d3) * ((|X i (F i (p.1 i))| + o i) / 2 ^ 19) ≤ Spec.fullScale (some d3) * (η + (|p.1 i / Spec.fullScale (some d1)| + o i) / 2 ^ 19) := by
      refine mul_le_mul_of_nonneg_left ?_ hU.le
      norm_num
      linarith
    have e : Spec.fullScale (some d3) * (2 * η + (|p.1 i / Spec.fullScale (some d1)| + o i) / 2 ^ 19) =
        Spec.fullScale (some d3) * (η + (|p.1 i / Spec.fullScale (some d1)| + o i) / 2 ^ 19) + η * Spec.fullScale (some d3) := by ring
    rw [e]
    linarith

/-! ## The curve of sRGB -/

/-- The parameters of sRGB as Python has them. -/
theorem srgb_params : |double.near (24 / 10 : ℝ) - 24 / 10| ≤ 1 / 10 ^ 7 ∧ |double.near (55 / 1000 : ℝ) - 55 / 1000| ≤ 1 / 10 ^ 7 ∧
    Spec.MonValues (double.near (24 / 10)) (double.near (55 / 1000)) := by
  have h1 := (literal_approx (x := 24 / 10) 1 (by norm_num) (by norm_num) (by norm_num)).2.off
  have h2 := (literal_approx (x := 55 / 1000) 6 (by norm_num) (by norm_num) (by norm_num)).2.off
  have h1' : |double.near (24 / 10 : ℝ) - 24 / 10| ≤ 1 / 10 ^ 7 := h1.trans (by rw [abs_of_pos (by norm_num)]; norm_num)
  have h2' : |double.near (55 / 1000 : ℝ) - 55 / 1000| ≤ 1 / 10 ^ 7 := h2.trans (by rw [abs_of_pos (by norm_num)]; norm_num)
  refine ⟨h1', h2', ⟨Fmt.near_near _ _, Fmt.near_near _ _⟩, ?_, ?_⟩
  · have := abs_le.mp h1'
    constructor <;> norm_num at this ⊢ <;> linarith
  · have := abs_le.mp h2'
    constructor <;> norm_num at this ⊢ <;> linarith

/-- How far the curve of sRGB goes, its break point and its slope. -/
theorem srgb_reach {g o : ℝ} (hg : |g - 24 / 10| ≤ 1 / 10 ^ 7) (ho : |o - 55 / 1000| ≤ 1 / 10 ^ 7) :
    Spec.MonReach g o (1 + 1 / 2 ^ 20) (1 + 1 / 2 ^ 18) ∧ 39 / 1000 ≤ Spec.monBreak g o ∧ Spec.monBreak g o ≤ 394 / 10000 ∧ 1 / 60 ≤ Spec.monSlope g o ∧
    Spec.monError g (1 + 1 / 2 ^ 20) (1 + 1 / 2 ^ 18) ≤ 2 / 10 ^ 6 := by
  obtain ⟨g1, g2⟩ := abs_le.mp hg
  obtain ⟨o1, o2⟩ := abs_le.mp ho
  have g1' : 23 / 10 ≤ g := by norm_num at g1; linarith
  have g2' : g ≤ 241 / 100 := by norm_num at g2; linarith
  have o1' : 549 / 10000 ≤ o := by norm_num at o1; linarith
  have o2' : o ≤ 551 / 10000 := by norm_num at o2; linarith
  have P1 : 39 / 1000 ≤ Spec.monBreak g o := by
    unfold Spec.monBreak
    rw [le_div_iff₀ (by linarith)]
    norm_num at g2 o1
    linarith
  have P2 : Spec.monBreak g o ≤ 394 / 10000 := by
    unfold Spec.monBreak
    rw [div_le_iff₀ (by linarith)]
    norm_num at g1 o2
    linarith
  have q1 : 889 / 10000 ≤ Spec.monBase g o := by
    unfold Spec.monBase
    rw [le_div_iff₀ (by linarith)]
    linarith
  have q2 : Spec.monBase g o ≤ 1 := by
    unfold Spec.monBase
    rw [div_le_iff₀ (by linarith)]
    linarith
  have A1 : (1 + 1 / 2 ^ 18 : ℝ) ^ g ≤ 1001 / 1000 := by
    have : (1 + 1 / 2 ^ 18 : ℝ) ^ g ≤ (1 + 1 / 2 ^ 18 : ℝ) ^ (3 : ℝ) := Real.rpow_le_rpow_of_exponent_le (by norm_num) (by linarith)
    rw [show (3 : ℝ) = (3 : ℕ) by norm_num, Real.rpow_natCast] at this
    exact this.trans (by norm_num)
  have A0 : 0 ≤ (1 + 1 / 2 ^ 18 : ℝ) ^ g := Real.rpow_nonneg (by norm_num) _
  have N1 : g * (1 + 1 / 2 ^ 18 : ℝ) ^ g ≤ 242 / 100 := (mul_le_mul g2' A1 A0 (by norm_num)).trans (by norm_num)
  have s1 : (7 / 10000 : ℝ) ≤ Spec.monBase g o ^ g := by
    have h1 : Spec.monBase g o ^ (3 : ℝ) ≤ Spec.monBase g o ^ g := Real.rpow_le_rpow_of_exponent_ge (by linarith) q2 (by linarith)
    rw [show (3 : ℝ) = (3 : ℕ) by norm_num, Real.rpow_natCast] at h1
    have h2 := pow_le_pow_left₀ (by norm_num) q1 3
    norm_num at h2
    linarith
  refine ⟨⟨by norm_num, by linarith [show (0 : ℝ) ≤ 1 / 2 ^ 18 by positivity], ?_, N1.trans (by norm_num)⟩, P1, P2, ?_, ?_⟩
  · have : (1 + 1 / 2 ^ 20 + o) / (1 + o) ≤ 1 + 1 / 2 ^ 20 := by
      rw [div_le_iff₀ (by linarith)]
      norm_num
      linarith
    calc _ ≤ (1 + 1 / 2 ^ 20 : ℝ) * (1 + 1 / 2 ^ 20) := mul_le_mul_of_nonneg_right this (by norm_num)
      _ ≤ _ := by norm_num
  · unfold Spec.monSlope
    rw [le_div_iff₀ (by linarith)]
    linarith
  · unfold Spec.monError
    norm_num at N1 ⊢
    linarith

/-- Eight bit codes that come back: up to 9 and from 80 on. -/
theorem srgb_trip {g o : ℝ} (hg : |g - 24 / 10| ≤ 1 / 10 ^ 7) (ho : |o - 55 / 1000| ≤ 1 / 10 ^ 7) {n : ℕ} (h : n ≤ 9 ∨ 80 ≤ n) :
    Spec.MonTrip g o (Spec.monError g (1 + 1 / 2 ^ 20) (1 + 1 / 2 ^ 18)) (n / 255) := by
  obtain ⟨R, P1, P2, s1, e1⟩ := srgb_reach hg ho
  obtain ⟨g1, g2⟩ := abs_le.mp hg
  obtain ⟨o1, o2⟩ := abs_le.mp ho
  have g1' : 23 / 10 ≤ g := by norm_num at g1; linarith
  have o1' : 549 / 10000 ≤ o := by norm_num at o1; linarith
  have o2' : o ≤ 551 / 10000 := by norm_num at o2; linarith
  have g2' : g ≤ 241 / 100 := by norm_num at g2; linarith
  have hη : Spec.monError g (1 + 1 / 2 ^ 20) (1 + 1 / 2 ^ 18) / Spec.monSlope g o ≤ 12 / 10 ^ 5 := by
    rw [div_le_iff₀ (by linarith)]
    norm_num at e1 ⊢
    linarith
  rcases h with h | h
  · have h' : (n : ℝ) ≤ 9 := by exact_mod_cast h
    refine .inl ⟨?_, ?_⟩
    · norm_num at hη ⊢
      linarith
    · have hle : (n : ℝ) / 255 ≤ Spec.monBreak g o := by linarith
      -- the curve is below the diagonal
      have s2 : Spec.monSlope g o ≤ 1 / 2 := by
        rw [monSlope_eq (by linarith) (by linarith)]
        have q2 : Spec.monBase g o ≤ 9 / 100 := by
          unfold Spec.monBase
          rw [div_le_iff₀ (by linarith)]
          linarith
        have q0 : 0 < Spec.monBase g o := div_pos (by linarith) (by linarith)
        have : Spec.monBase g o ^ (g - 1) ≤ Spec.monBase g o := by
          have := Real.rpow_le_rpow_of_exponent_ge q0 (by linarith) (show (1 : ℝ) ≤ g - 1 by linarith)
          rwa [Real.rpow_one] at this
        have : g * Spec.monBase g o ^ (g - 1) ≤ 241 / 100 * (9 / 100) := mul_le_mul g2' (this.trans q2) (Real.rpow_nonneg q0.le _) (by norm_num)
        rw [div_le_iff₀ (by linarith)]
        linarith
      rw [moncurve_line hle]
      have := mul_le_mul_of_nonneg_right s2 (show (0 : ℝ) ≤ n / 255 by positivity)
      norm_num at e1 ⊢
      linarith
  · have h' : (80 : ℝ) ≤ n := by exact_mod_cast h
    refine .inr ⟨?_, ?_⟩
    · norm_num at hη ⊢
      linarith
    · have b1 : 348 / 1000 ≤ (80 / 255 + o) / (1 + o) := by
        rw [le_div_iff₀ (by linarith)]
        linarith
      have b2 : (80 / 255 + o) / (1 + o) ≤ 1 := by
        rw [div_le_iff₀ (by linarith)]
        linarith
      have k1 : Spec.moncurve g o (80 / 255) ≤ Spec.moncurve g o (n / 255) :=
        (C146_shape g o (by linarith) (by linarith)).2.2.1.monotone (by linarith)
      rw [moncurve_power (by linarith) (by linarith) (x := 80 / 255) (by linarith), max_eq_right (by linarith)] at k1
      have k2 : ((80 / 255 + o) / (1 + o)) ^ (3 : ℝ) ≤ ((80 / 255 + o) / (1 + o)) ^ g := Real.rpow_le_rpow_of_exponent_ge (by linarith) b2 (by linarith)
      rw [show (3 : ℝ) = (3 : ℕ) by norm_num, Real.rpow_natCast] at k2
      have k3 := pow_le_pow_left₀ (by norm_num) b1 3
      norm_num at k3 e1 ⊢ k2
      linarith

/-- All images of eight bit codes of sRGB up to 9 and from 80 on, to light and back: each code is right up to a tenth. -/
example (L : Arith ℝ) (hL : Spec.GoodLibrary L) (pixels : List ((Fin 3 → ℝ) × List (Flt ℝ))) (hp : ∀ p ∈ pixels, p.2.length + 3 = 4)
    (hx : ∀ p ∈ pixels, ∀ i, ∃ n : ℕ, p.1 i = n ∧ (n ≤ 9 ∨ 80 ≤ n) ∧ n ≤ 255) :
    ∃ (r r' : Res ℝ) (G : Fin 3 → ℝ → ℝ),
      gammaProcessR ieee L [⟨.fin (double.near (24 / 10)), .fin (double.near (55 / 1000)), none⟩]
        { attrs := [("inBitDepth", .str "8i"), ("outBitDepth", .str "32f"), ("style", .str "moncurveFwd")] } (Spec.image pixels) 4 = .ok r ∧
      gammaProcessR ieee L [⟨.fin (double.near (24 / 10)), .fin (double.near (55 / 1000)), none⟩]
        { attrs := [("inBitDepth", .str "32f"), ("outBitDepth", .str "8i"), ("style", .str "moncurveRev")] } r.out 4 = .ok r' ∧
      r'.out = Spec.image (pixels.map fun p => (fun i => G i (p.1 i), p.2)) ∧ ∀ p ∈ pixels, ∀ i, |G i (p.1 i) - p.1 i| ≤ 1 / 10 := by
  have hS : Spec.fullScale (K := ℝ) (some (.str "8i")) = 255 := by
    have := (fullScale_bits (K := ℝ) (n := 8) (d := .str "8i") (by decide)).1
    rw [this]
    norm_num
  obtain ⟨hg, ho, hv⟩ := srgb_params
  obtain ⟨R, -, -, s1, e1⟩ := srgb_reach hg ho
  have hη : Spec.monError (double.near (24 / 10)) (1 + 1 / 2 ^ 20) (1 + 1 / 2 ^ 18) / Spec.monSlope (double.near (24 / 10)) (double.near (55 / 1000)) ≤ 12 / 10 ^ 5 := by
    rw [div_le_iff₀ (by linarith)]
    norm_num at e1 ⊢
    linarith
  obtain ⟨r, r', G, h1, h2, h3, h4⟩ := C146_roundtrip L hL [⟨.fin (double.near (24 / 10)), .fin (double.near (55 / 1000)), none⟩]
    [⟨.fin (double.near (24 / 10)), .fin (double.near (55 / 1000)), none⟩] (by intro p hp; simp at hp; subst hp; simp) (by intro p hp; simp at hp; subst hp; simp)
    (fun _ => double.near (24 / 10)) (fun _ => double.near (55 / 1000)) (fun i => ⟨by fin_cases i <;> rfl, by fin_cases i <;> rfl, hv⟩)
    { attrs := [("inBitDepth", .str "8i"), ("outBitDepth", .str "32f"), ("style", .str "moncurveFwd")] }
    { attrs := [("inBitDepth", .str "32f"), ("outBitDepth", .str "8i"), ("style", .str "moncurveRev")] } (.str "8i") (.str "32f") (.str "8i")
    ⟨rfl, rfl, rfl⟩ ⟨rfl, rfl, rfl⟩ (1 + 1 / 2 ^ 20) (fun _ => 1 + 1 / 2 ^ 18) (fun _ => R) ⟨by norm_num, fun _ => hη.trans (by norm_num)⟩ 4 (by norm_num) pixels hp (by
      intro p hp' i
      obtain ⟨n, e, n1, n2⟩ := hx p hp' i
      have n2' : (n : ℝ) ≤ 255 := by exact_mod_cast n2
      have n0 : (0 : ℝ) ≤ n := n.cast_nonneg
      rw [e, hS]
      refine ⟨isSingle_nat (by omega), ?_, srgb_trip hg ho n1⟩
      rw [abs_of_nonneg (by positivity)]
      norm_num
      linarith)
  refine ⟨r, r', G, h1, h2, h3, fun p hp' i => ?_⟩
  obtain ⟨n, e, n1, n2⟩ := hx p hp' i
  have n2' : (n : ℝ) ≤ 255 := by exact_mod_cast n2
  have := (h4 p hp' i).2
  rw [hS, e, div_mul_cancel₀ _ (by norm_num), abs_of_nonneg (by positivity : (0 : ℝ) ≤ n / 255)] at this
  rw [e]
  refine this.trans ?_
  have := (abs_le.mp ho).2
  norm_num at this hη ⊢
  linarith

/-- Code to light as a stage of a list, and the shape of the curve. -/
example (E : Evaluator ℝ) (hE : E.rounding = ieee) (hL : Spec.GoodLibrary E.library) :
    (∃ e B', Spec.Gauge (.tone (Spec.fullScale (some (.str "8i"))) (Spec.fullScale (some (.str "32f"))) (1 + 1 / 2 ^ 20) (3 / 2 ^ 41)
      fun _ => Spec.moncurve (double.near (24 / 10)) (double.near (55 / 1000))) 255
      (Spec.fullScale (some (.str "32f")) * (3 / Spec.fullScale (some (.str "8i")))) e B' ∧ e ≤ 3 / 10 ^ 6) ∧
    Spec.moncurve (double.near (24 / 10)) (double.near (55 / 1000)) 1 = 1 := by
  have hS : Spec.fullScale (K := ℝ) (some (.str "8i")) = 255 := by
    have := (fullScale_bits (K := ℝ) (n := 8) (d := .str "8i") (by decide)).1
    rw [this]
    norm_num
  obtain ⟨hg, ho, hv⟩ := srgb_params
  obtain ⟨R, -, P2, -, e1⟩ := srgb_reach hg ho
  have N1 : double.near (24 / 10 : ℝ) * (1 + 1 / 2 ^ 18) ^ double.near (24 / 10 : ℝ) ≤ 3 := by
    unfold Spec.monError at e1
    norm_num at e1 ⊢
    linarith
  refine ⟨?_, (C146_shape _ _ hv.pos.1 hv.pos.2.1).2.1 (by linarith)⟩
  obtain ⟨-, h2⟩ := C146_stage E hE hL [⟨.fin (double.near (24 / 10)), .fin (double.near (55 / 1000)), none⟩] (by intro p hp; simp at hp; subst hp; simp)
    (fun _ => double.near (24 / 10)) (fun _ => double.near (55 / 1000)) (fun i => ⟨by fin_cases i <;> rfl, hv⟩)
    { attrs := [("inBitDepth", .str "8i"), ("outBitDepth", .str "32f"), ("style", .str "moncurveFwd")] } (.str "8i") (.str "32f") ⟨rfl, rfl, rfl⟩
    (1 + 1 / 2 ^ 20) (1 + 1 / 2 ^ 18) 3 (fun _ => R) (fun _ => N1) (by norm_num)
  obtain ⟨e, B', h3, h4, -⟩ := h2 255 (by rw [hS]; norm_num)
  refine ⟨e, B', h3, h4.trans ?_⟩
  have : Spec.fullScale (K := ℝ) (some (.str "32f")) = 1 := rfl
  rw [this]
  norm_num

end CLF
