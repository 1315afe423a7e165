import Verif.Lemmas.Nearest
import Verif.Model.Rounded

set_option linter.unusedSectionVars false

/-!
# Weighted sums with rounded operations
-/

namespace CLF

variable {K : Type} [Field K] [LinearOrder K] [IsStrictOrderedRing K] [FloorRing K]

/-- A rounding function with relative error `u` and absolute error `η`. -/
structure Rounder (fl : K → K) (u η : K) : Prop where
  mono : ∀ {x y}, x ≤ y → fl x ≤ fl y
  odd : ∀ x, fl (-x) = -fl x
  err : ∀ x, |fl x - x| ≤ |x| * u + η
  u0 : 0 ≤ u
  u1 : u ≤ 1 / 1024
  η0 : 0 ≤ η

namespace Rounder

variable {fl : K → K} {u η : K}

theorem zero (h : Rounder fl u η) : fl 0 = 0 := by
  have := h.odd 0
  rw [neg_zero] at this
  linarith

theorem nonneg (h : Rounder fl u η) {x : K} (hx : 0 ≤ x) : 0 ≤ fl x := by
  have := h.mono hx
  rwa [h.zero] at this

theorem nonpos (h : Rounder fl u η) {x : K} (hx : x ≤ 0) : fl x ≤ 0 := by
  have := h.mono hx
  rwa [h.zero] at this

/-- A product with a weight. -/
theorem mul_le (h : Rounder fl u η) {w a M : K} (hw : 0 ≤ w) (hw2 : w ≤ 2) (ha : a ≤ M) (hη : η ≤ u * |M|) :
    fl (w * a) ≤ w * M + 3 * (u * |M|) := by
  have h1 := h.mono (mul_le_mul_of_nonneg_left ha hw)
  have h2 := (abs_le.mp (h.err (w * M))).2
  have h3 : |w * M| * u ≤ 2 * (u * |M|) := by
    rw [abs_mul, abs_of_nonneg hw]
    have := mul_le_mul_of_nonneg_right hw2 (mul_nonneg (abs_nonneg M) h.u0)
    linarith
  linarith

/-- One more term of a sum. -/
theorem add_le (h : Rounder fl u η) {X W E w a M : K} (hX : X ≤ W * M + E * (u * |M|)) (hE0 : 0 ≤ E) (hE : E ≤ 100)
    (hW0 : 0 ≤ W) (hW : W ≤ 2) (hw : 0 ≤ w) (hw2 : w ≤ 2) (ha : a ≤ M) (hη : η ≤ u * |M|) :
    fl (X + fl (w * a)) ≤ (W + w) * M + (E + 10) * (u * |M|) := by
  have h1 := h.mul_le hw hw2 ha hη
  have hS : X + fl (w * a) ≤ (W + w) * M + (E + 3) * (u * |M|) := by linarith
  have h2 := h.mono hS
  have h3 := (abs_le.mp (h.err ((W + w) * M + (E + 3) * (u * |M|)))).2
  have hM := abs_nonneg M
  have hum : 0 ≤ u * |M| := mul_nonneg h.u0 hM
  have h4 : |(W + w) * M + (E + 3) * (u * |M|)| ≤ 4 * |M| + (E + 3) * (u * |M|) := by
    refine (abs_add_le _ _).trans ?_
    rw [abs_mul, abs_of_nonneg (add_nonneg hW0 hw), abs_of_nonneg (mul_nonneg (by linarith) hum)]
    have := mul_le_mul_of_nonneg_right (show W + w ≤ 4 by linarith) hM
    linarith
  have h5 : (E + 3) * (u * |M|) ≤ 2 * |M| := by
    have a1 : u * |M| ≤ 1 / 1024 * |M| := mul_le_mul_of_nonneg_right h.u1 hM
    have a2 : (E + 3) * (u * |M|) ≤ 103 * (u * |M|) := mul_le_mul_of_nonneg_right (by linarith) hum
    linarith
  have h6 : |(W + w) * M + (E + 3) * (u * |M|)| * u ≤ 6 * (u * |M|) := by
    have := mul_le_mul_of_nonneg_right (h4.trans (show _ ≤ 6 * |M| by linarith)) h.u0
    linarith
  linarith

/-- A sum of two terms with weights of sum about 1. -/
theorem sum2_le (h : Rounder fl u η) {s t a b M : K} (hs : 0 ≤ s) (ht : 0 ≤ t) (hst : |s + t - 1| ≤ 2 * u)
    (ha : a ≤ M) (hb : b ≤ M) (hη : M = 0 ∨ η ≤ u * |M|) :
    fl (fl (s * a) + fl (t * b)) ≤ M + 16 * (u * |M|) := by
  have hu := h.u0
  have hu1 := h.u1
  have hst' := abs_le.mp hst
  rcases hη with rfl | hη
  · have h1 := h.nonpos (mul_nonpos_of_nonneg_of_nonpos hs ha)
    have h2 := h.nonpos (mul_nonpos_of_nonneg_of_nonpos ht hb)
    have := h.nonpos (show fl (s * a) + fl (t * b) ≤ 0 by linarith)
    simpa using this
  · have h1 := h.mul_le hs (by linarith) ha hη
    have h2 := h.add_le h1 (by norm_num) (by norm_num) hs (by linarith) ht (by linarith) hb hη
    have h3 : (s + t) * M ≤ M + 2 * (u * |M|) := by
      have : (s + t - 1) * M ≤ 2 * (u * |M|) := by
        refine (le_abs_self _).trans ?_
        rw [abs_mul]
        have := mul_le_mul_of_nonneg_right hst (abs_nonneg M)
        linarith
      linarith
    have : 0 ≤ u * |M| := mul_nonneg hu (abs_nonneg M)
    linarith

theorem le_sum2 (h : Rounder fl u η) {s t a b M : K} (hs : 0 ≤ s) (ht : 0 ≤ t) (hst : |s + t - 1| ≤ 2 * u)
    (ha : M ≤ a) (hb : M ≤ b) (hη : M = 0 ∨ η ≤ u * |M|) :
    M - 16 * (u * |M|) ≤ fl (fl (s * a) + fl (t * b)) := by
  have := h.sum2_le (a := -a) (b := -b) (M := -M) hs ht hst (by linarith) (by linarith) (by simpa using hη)
  rw [mul_neg, mul_neg, h.odd, h.odd, ← neg_add, h.odd, abs_neg] at this
  linarith

/-- A sum of four terms. -/
theorem sum4_le (h : Rounder fl u η) {w0 w1 w2 w3 a b c d M : K} (h0 : 0 ≤ w0) (h1 : 0 ≤ w1) (h2 : 0 ≤ w2) (h3 : 0 ≤ w3)
    (hw : |w0 + w1 + w2 + w3 - 1| ≤ 8 * u) (ha : a ≤ M) (hb : b ≤ M) (hc : c ≤ M) (hd : d ≤ M)
    (hη : M = 0 ∨ η ≤ u * |M|) :
    fl (fl (fl (fl (w0 * a) + fl (w1 * b)) + fl (w2 * c)) + fl (w3 * d)) ≤ M + 64 * (u * |M|) := by
  have hu := h.u0
  have hu1 := h.u1
  have hw' := abs_le.mp hw
  rcases hη with rfl | hη
  · have e0 := h.nonpos (mul_nonpos_of_nonneg_of_nonpos h0 ha)
    have e1 := h.nonpos (mul_nonpos_of_nonneg_of_nonpos h1 hb)
    have e2 := h.nonpos (mul_nonpos_of_nonneg_of_nonpos h2 hc)
    have e3 := h.nonpos (mul_nonpos_of_nonneg_of_nonpos h3 hd)
    have f1 := h.nonpos (show fl (w0 * a) + fl (w1 * b) ≤ 0 by linarith)
    have f2 := h.nonpos (show fl (fl (w0 * a) + fl (w1 * b)) + fl (w2 * c) ≤ 0 by linarith)
    have f3 := h.nonpos (show fl (fl (fl (w0 * a) + fl (w1 * b)) + fl (w2 * c)) + fl (w3 * d) ≤ 0 by linarith)
    simpa using f3
  · have e0 := h.mul_le h0 (by linarith) ha hη
    have e1 := h.add_le e0 (by norm_num) (by norm_num) h0 (by linarith) h1 (by linarith) hb hη
    have e2 := h.add_le e1 (by norm_num) (by norm_num) (by linarith) (by linarith) h2 (by linarith) hc hη
    have e3 := h.add_le e2 (by norm_num) (by norm_num) (by linarith) (by linarith) h3 (by linarith) hd hη
    have h3 : (w0 + w1 + w2 + w3) * M ≤ M + 8 * (u * |M|) := by
      have : (w0 + w1 + w2 + w3 - 1) * M ≤ 8 * (u * |M|) := by
        refine (le_abs_self _).trans ?_
        rw [abs_mul]
        have := mul_le_mul_of_nonneg_right hw (abs_nonneg M)
        linarith
      linarith
    have : 0 ≤ u * |M| := mul_nonneg hu (abs_nonneg M)
    linarith

theorem le_sum4 (h : Rounder fl u η) {w0 w1 w2 w3 a b c d M : K} (h0 : 0 ≤ w0) (h1 : 0 ≤ w1) (h2 : 0 ≤ w2) (h3 : 0 ≤ w3)
    (hw : |w0 + w1 + w2 + w3 - 1| ≤ 8 * u) (ha : M ≤ a) (hb : M ≤ b) (hc : M ≤ c) (hd : M ≤ d)
    (hη : M = 0 ∨ η ≤ u * |M|) :
    M - 64 * (u * |M|) ≤ fl (fl (fl (fl (w0 * a) + fl (w1 * b)) + fl (w2 * c)) + fl (w3 * d)) := by
  have := h.sum4_le (a := -a) (b := -b) (c := -c) (d := -d) (M := -M) h0 h1 h2 h3 hw (by linarith) (by linarith)
    (by linarith) (by linarith) (by simpa using hη)
  simp only [mul_neg, h.odd, ← neg_add, abs_neg] at this
  linarith

/-- The weight of the other side. -/
theorem weight (h : Rounder fl u η) (hη : η ≤ u) {t : K} (h0 : 0 ≤ t) (h1 : t ≤ 1) :
    0 ≤ fl (1 - t) ∧ |fl (1 - t) + t - 1| ≤ 2 * u := by
  refine ⟨h.nonneg (by linarith), ?_⟩
  have h2 := h.err (1 - t)
  rw [abs_of_nonneg (show 0 ≤ 1 - t by linarith)] at h2
  have h3 : (1 - t) * u ≤ 1 * u := mul_le_mul_of_nonneg_right (by linarith) h.u0
  rw [show fl (1 - t) + t - 1 = fl (1 - t) - (1 - t) by ring]
  linarith

end Rounder

/-! ## `float64` -/

theorem double_rounder : Rounder (double.near : K → K) (1 / 2 ^ 53) (2 ^ (-1075 : ℤ)) where
  mono h := Fmt.near_mono _ h
  odd := Fmt.near_neg _
  err x := by
    have := Fmt.near_error (K := K) double x
    rw [double_bias, double_mant] at this
    simpa [div_eq_mul_inv] using this
  u0 := by positivity
  u1 := by norm_num
  η0 := (two_zpow_pos _).le

theorem single_rounder : Rounder (single.near : K → K) (1 / 2 ^ 24) (2 ^ (-150 : ℤ)) where
  mono h := Fmt.near_mono _ h
  odd := Fmt.near_neg _
  err x := by
    have := Fmt.near_error (K := K) single x
    rw [single_bias, single_mant] at this
    simpa [div_eq_mul_inv] using this
  u0 := by positivity
  u1 := by norm_num
  η0 := (two_zpow_pos _).le

theorem eta_le : (2 : K) ^ (-1075 : ℤ) ≤ 1 / 2 ^ 53 := by
  rw [one_div, ← zpow_natCast, ← zpow_neg]
  exact zpow_le_zpow_right₀ one_le_two (by norm_num)

/-- Numbers of moderate size do not overflow. -/
theorem double_fin {x : K} (h : |x| ≤ 2 ^ 300) : ieee double (.fin x) = .fin (double.near x) := by
  refine Fmt.round_eq double x ?_
  rw [Fmt.magVal_infCode double (by decide), double_bias]
  have h1 := (abs_le.mp (double_rounder.err |x|)).2
  rw [abs_abs] at h1
  have h2 : |x| * (1 / 2 ^ 53) ≤ |x| := mul_le_of_le_one_right (abs_nonneg x) (by norm_num)
  have h3 : (2 : K) ^ (-1075 : ℤ) ≤ 1 := zpow_le_one_of_nonpos₀ one_le_two (by norm_num)
  have h4 : (2 : K) ^ 300 * 4 ≤ 2 ^ (1023 + 1 : ℤ) := by
    rw [show (2 : K) ^ 300 * 4 = 2 ^ (302 : ℤ) by norm_cast]
    exact zpow_le_zpow_right₀ one_le_two (by norm_num)
  have h5 : (1 : K) ≤ 2 ^ 300 := one_le_pow₀ one_le_two
  generalize (2 : K) ^ (-1075 : ℤ) = e at h1 h3
  generalize (2 : K) ^ 300 = b at h h4 h5
  generalize (2 : K) ^ (1023 + 1 : ℤ) = c at h4 ⊢
  linarith

/-- A rounded number is at most twice as large, apart from tiny ones. -/
theorem double_abs (x : K) : |double.near x| ≤ 2 * |x| + 1 := by
  have h1 := (abs_le.mp (double_rounder.err |x|)).2
  rw [abs_abs, ← Fmt.abs_near] at h1
  have h2 : |x| * (1 / 2 ^ 53) ≤ |x| := mul_le_of_le_one_right (abs_nonneg x) (by norm_num)
  have h3 : (2 : K) ^ (-1075 : ℤ) ≤ 1 := zpow_le_one_of_nonpos₀ one_le_two (by norm_num)
  generalize (2 : K) ^ (-1075 : ℤ) = e at h1 h3
  linarith

theorem double_one : double.near (1 : K) = 1 := by
  have h := Fmt.round_short (K := K) double (by decide) 1 (by decide) 0 (by decide) (by decide)
  simp only [Nat.cast_one, zpow_zero, mul_one] at h
  exact (Fmt.round_finite double h).1

/-- Numbers of `float32`. -/
def Spec.IsSingle (x : K) : Prop := single.round (.fin x) = .fin x

theorem Spec.IsSingle.near {x : K} (h : Spec.IsSingle x) : single.near x = x := (Fmt.round_finite single h).1

theorem Spec.IsSingle.lt {x : K} (h : Spec.IsSingle x) : |x| < 2 ^ 128 := by
  have := (Fmt.round_finite single h).2
  rw [Fmt.magVal_infCode single (by decide), single_bias] at this
  norm_num at this ⊢
  exact_mod_cast this

theorem Spec.IsSingle.big {x : K} (h : Spec.IsSingle x) : x = 0 ∨ (2 : K) ^ (-149 : ℤ) ≤ |x| := by
  have h1 := h.near
  by_cases hx : x = 0
  · exact .inl hx
  right
  have hn : single.near |x| = |x| := by rw [← Fmt.abs_near, h1]
  rw [Fmt.near_of_nonneg _ (abs_nonneg x)] at hn
  have hc : single.preCode |x| ≠ 0 := by
    intro h0
    rw [h0, Fmt.magVal_zero] at hn
    exact hx (abs_eq_zero.mp hn.symm)
  have hm := (Fmt.magVal_strictMono (K := K) single).monotone (show 1 ≤ single.preCode |x| by omega)
  rw [hn] at hm
  have h2 := Fmt.magVal_split (K := K) single 0 1 (by decide) (.inl rfl)
  rw [Nat.zero_mul, Nat.zero_add, single_bias, single_mant] at h2
  rw [h2] at hm
  simpa using hm

theorem single_round {r lo hi : K} (hlo : Spec.IsSingle lo) (hhi : Spec.IsSingle hi) (h1 : lo - |lo| / 2 ^ 26 ≤ r)
    (h2 : r ≤ hi + |hi| / 2 ^ 26) :
    single.round (.fin r) = .fin (single.near r) ∧ lo ≤ single.near r ∧ single.near r ≤ hi := by
  have e1 := Fmt.le_near_of single hlo.near (show lo - |lo| / 2 ^ (single.mant + 3) ≤ r from h1)
  have e2 := Fmt.near_le_of single hhi.near (show r ≤ hi + |hi| / 2 ^ (single.mant + 3) from h2)
  refine ⟨Fmt.round_eq single r ?_, e1, e2⟩
  rw [← Fmt.abs_near]
  have b1 := (Fmt.round_finite single hlo).2
  have b2 := (Fmt.round_finite single hhi).2
  rw [abs_lt] at b1 b2 ⊢
  exact ⟨by linarith, by linarith⟩

theorem Spec.IsSingle.eta {x : K} (h : Spec.IsSingle x) : x = 0 ∨ (2 : K) ^ (-1075 : ℤ) ≤ 1 / 2 ^ 53 * (|x| / 2) := by
  refine h.big.imp id fun hb => ?_
  have h1 : (1 : K) / 2 ^ 53 * (2 ^ (-149 : ℤ) / 2) = 2 ^ (-203 : ℤ) := by
    rw [one_div, ← zpow_natCast, ← zpow_neg, div_eq_mul_inv, ← zpow_neg_one, ← zpow_add₀ two_ne_zero, ← zpow_add₀ two_ne_zero]
    congr 1
  have h2 : (2 : K) ^ (-1075 : ℤ) ≤ 2 ^ (-203 : ℤ) := zpow_le_zpow_right₀ one_le_two (by norm_num)
  have h3 : (1 : K) / 2 ^ 53 * (2 ^ (-149 : ℤ) / 2) ≤ 1 / 2 ^ 53 * (|x| / 2) :=
    mul_le_mul_of_nonneg_left (div_le_div_of_nonneg_right hb zero_le_two) (by positivity)
  exact h2.trans (h1.symm.le.trans h3)

/-- A sum of two products of moderate size. -/
theorem sum2_fin {s a t b : K} (hs : |s| ≤ 2) (ht : |t| ≤ 2) (ha : |a| ≤ 2 ^ 200) (hb : |b| ≤ 2 ^ 200) :
    sum2R ieee (.fin s) (.fin a) (.fin t) (.fin b)
      = .fin (double.near (double.near (s * a) + double.near (t * b))) := by
  have h1 : ∀ x y : K, |x| ≤ 2 → |y| ≤ 2 ^ 200 → |x * y| ≤ 2 ^ 201 := by
    intro x y hx hy
    rw [abs_mul, show (2 : K) ^ 201 = 2 * 2 ^ 200 by ring]
    exact mul_le_mul hx hy (abs_nonneg y) (by norm_num)
  have b1 := h1 s a hs ha
  have b2 := h1 t b ht hb
  have c : (2 : K) ^ 201 * 8 ≤ 2 ^ 300 := by
    rw [show (8 : K) = 2 ^ 3 by norm_num, ← pow_add]
    exact pow_le_pow_right₀ one_le_two (by norm_num)
  have c0 : (1 : K) ≤ 2 ^ 201 := one_le_pow₀ one_le_two
  have d1 := double_abs (s * a)
  have d2 := double_abs (t * b)
  unfold sum2R
  have e : ∀ x y : K, (Flt.fin x : Flt K) * .fin y = .fin (x * y) := fun _ _ => rfl
  have e' : ∀ x y : K, (Flt.fin x : Flt K) + .fin y = .fin (x + y) := fun _ _ => rfl
  have f : |s * a| ≤ 2 ^ 300 ∧ |t * b| ≤ 2 ^ 300 ∧ |double.near (s * a) + double.near (t * b)| ≤ 2 ^ 300 := by
    have g := abs_add_le (double.near (s * a)) (double.near (t * b))
    generalize (2 : K) ^ 300 = q at c ⊢
    generalize (2 : K) ^ 201 = p at c c0 b1 b2
    exact ⟨by linarith, by linarith, by linarith⟩
  rw [e, e, double_fin f.1, double_fin f.2.1, e', double_fin f.2.2]

end CLF
