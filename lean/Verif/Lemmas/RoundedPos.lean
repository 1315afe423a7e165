import Verif.Lemmas.RoundedLut

set_option linter.unusedSectionVars false

/-!
# Positions of pixel values in tables, in IEEE arithmetic
-/

namespace CLF

variable {K : Type} [Field K] [LinearOrder K] [IsStrictOrderedRing K] [FloorRing K]

theorem single_abs (x : K) : |single.near x| ≤ 2 * |x| + 1 := by
  have h1 := (abs_le.mp (single_rounder.err |x|)).2
  rw [abs_abs, ← Fmt.abs_near] at h1
  have h2 : |x| * (1 / 2 ^ 24) ≤ |x| := mul_le_of_le_one_right (abs_nonneg x) (by norm_num)
  have h3 : (2 : K) ^ (-150 : ℤ) ≤ 1 := zpow_le_one_of_nonpos₀ one_le_two (by norm_num)
  generalize (2 : K) ^ (-150 : ℤ) = e at h1 h3
  linarith

/-- Numbers of moderate size do not overflow. -/
theorem single_fin {x : K} (h : |x| ≤ 2 ^ 125) : ieee single (.fin x) = .fin (single.near x) := by
  refine Fmt.round_eq single x ?_
  rw [Fmt.magVal_infCode single (by decide), single_bias, ← Fmt.abs_near]
  have h1 := single_abs x
  have h2 : (2 : K) ^ 125 * 8 = 2 ^ (127 + 1 : ℤ) := by
    rw [show (8 : K) = 2 ^ 3 by norm_num, ← pow_add, ← zpow_natCast]
    rfl
  have h3 : (1 : K) ≤ 2 ^ 125 := one_le_pow₀ one_le_two
  generalize (2 : K) ^ (127 + 1 : ℤ) = c at h2 ⊢
  generalize (2 : K) ^ 125 = b at h h2 h3
  linarith

/-- Numbers with a short significand are numbers of the format. -/
theorem Fmt.near_short (f : Fmt) (n : ℕ) (j : ℤ) (h : n < 2 ^ (f.mant + 1)) (hj : 1 - f.bias - f.mant ≤ j) :
    f.near ((n : K) * 2 ^ j) = n * 2 ^ j := by
  rcases Nat.eq_zero_or_pos n with rfl | hn
  · rw [Nat.cast_zero, zero_mul, near_zero]
  have hp : (0 : K) < n * 2 ^ j := mul_pos (Nat.cast_pos.mpr hn) (two_zpow_pos j)
  have hlog : Int.log 2 ((n : K) * 2 ^ j) < f.mant + 1 + j := by
    have h1 : (n : K) * 2 ^ j < ((2 : ℕ) : K) ^ ((f.mant : ℤ) + 1 + j) := by
      rw [zpow_add₀ (by norm_num), Nat.cast_ofNat]
      refine mul_lt_mul_of_pos_right ?_ (two_zpow_pos j)
      have : ((n : ℕ) : K) < ((2 ^ (f.mant + 1) : ℕ) : K) := Nat.cast_lt.mpr h
      rw [Nat.cast_pow, Nat.cast_ofNat, ← zpow_natCast] at this
      exact_mod_cast this
    exact (Int.lt_zpow_iff_log_lt (by norm_num) hp).mp h1
  obtain ⟨d, hd⟩ : ∃ d : ℕ, j - (f.binExp ((n : K) * 2 ^ j) - f.mant) = d := by
    refine ⟨(j - (f.binExp ((n : K) * 2 ^ j) - f.mant)).toNat, (Int.toNat_of_nonneg ?_).symm⟩
    unfold binExp
    rw [if_neg (not_le.mpr hp)]
    omega
  rw [near_value f hp.le]
  have e : (n : K) * 2 ^ j / 2 ^ (f.binExp ((n : K) * 2 ^ j) - f.mant) = ((n * 2 ^ d : ℕ) : K) := by
    rw [mul_div_assoc, ← zpow_sub₀ two_ne_zero, hd]
    push_cast
    rw [zpow_natCast]
  have e2 : rne (((n * 2 ^ d : ℕ) : K)) = ((n * 2 ^ d : ℕ) : ℤ) := by
    have := rne_intCast (K := K) ((n * 2 ^ d : ℕ) : ℤ)
    rwa [Int.cast_natCast] at this
  rw [e, e2, Int.cast_natCast, ← e, div_mul_cancel₀ _ (two_zpow_pos _).ne']

theorem nat_near (f : Fmt) (n : ℕ) (h : n < 2 ^ (f.mant + 1)) (h1 : 1 - f.bias - f.mant ≤ 0) : f.near (n : K) = n := by
  have := Fmt.near_short (K := K) f n 0 h h1
  rwa [zpow_zero, mul_one] at this

theorem double_nat (n : ℕ) (h : n < 2 ^ 53) : double.near (n : K) = n :=
  nat_near double n h (by decide)

theorem single_one : single.near (1 : K) = 1 := by
  have := nat_near (K := K) single 1 (by decide) (by decide)
  simpa using this

theorem toUnitR_cases (R : Rounding K) (v : Flt K) (d : Depth) :
    (toUnitR R v d = R double (v / .fin (Spec.fullScale d)) ∧ 255 ≤ (Spec.fullScale d : K)) ∨
      (toUnitR R v d = v ∧ (Spec.fullScale d : K) = 1) := by
  rw [← bitDepthSize_eq_fullScale]
  unfold toUnitR bitDepthSize
  split_ifs <;> first
    | exact .inr ⟨rfl, rfl⟩
    | exact .inl ⟨rfl, by norm_num⟩

/-- The error of rounding to `float64` and then to `float32`. -/
theorem near_twice {q z : K} (hz : |z - q| ≤ |q| * (1 / 2 ^ 53) + 2 ^ (-1075 : ℤ)) :
    |single.near z - q| ≤ |q| * (9 / 8 * (1 / 2 ^ 24)) + 2 ^ (-148 : ℤ) := by
  have h1 := single_rounder.err z
  have hq := abs_nonneg q
  have e1 : (2 : K) ^ (-150 : ℤ) * 4 = 2 ^ (-148 : ℤ) := by
    rw [show (4 : K) = 2 ^ (2 : ℤ) by norm_num, ← zpow_add₀ two_ne_zero]
    norm_num
  have e2 : (2 : K) ^ (-1075 : ℤ) ≤ 2 ^ (-150 : ℤ) := zpow_le_zpow_right₀ one_le_two (by norm_num)
  have e3 : (0 : K) ≤ 2 ^ (-1075 : ℤ) := (two_zpow_pos _).le
  have e4 : (2 : K) ^ (-1075 : ℤ) ≤ 1 := zpow_le_one_of_nonpos₀ one_le_two (by norm_num)
  rw [← e1]
  generalize (2 : K) ^ (-1075 : ℤ) = η at *
  generalize (2 : K) ^ (-150 : ℤ) = μ at *
  have hzq : |z| ≤ |q| + (|q| * (1 / 2 ^ 53) + η) := by
    have := abs_add_le q (z - q)
    rw [add_sub_cancel] at this
    linarith
  have h2 : |z| * (1 / 2 ^ 24) ≤ (|q| + (|q| * (1 / 2 ^ 53) + η)) * (1 / 2 ^ 24) :=
    mul_le_mul_of_nonneg_right hzq (by positivity)
  have h3 : |single.near z - q| ≤ |single.near z - z| + |z - q| := abs_sub_le _ _ _
  refine h3.trans ((add_le_add (h1.trans (add_le_add_left h2 _)) hz).trans ?_)
  norm_num
  linarith

/-- The normalised value of a pixel. -/
theorem unit_pos (d : Depth) {x : K} (hx : Spec.IsSingle x) :
    ∃ p, ieee single (toUnitR ieee (.fin x) d) = .fin p ∧ Spec.IsSingle p ∧ (x ≤ 0 → p ≤ 0) ∧ (0 ≤ x → 0 ≤ p) ∧
      (Spec.fullScale d ≤ x → 1 ≤ p) ∧ (x ≤ Spec.fullScale d → p ≤ 1) ∧
      |p - x / Spec.fullScale d| ≤ |x / Spec.fullScale d| * (9 / 8 * (1 / 2 ^ 24)) + 2 ^ (-148 : ℤ) := by
  rcases toUnitR_cases ieee (.fin x) d with ⟨e, h255⟩ | ⟨e, h1⟩
  · have hpos : (0 : K) < Spec.fullScale d := by linarith
    have ed : (Flt.fin x : Flt K) / .fin (Spec.fullScale d) = .fin (x / Spec.fullScale d) := Flt.fin_div hpos.ne'
    have hq : |x / Spec.fullScale d| ≤ 2 ^ 121 := by
      rw [abs_div, abs_of_pos hpos, div_le_iff₀ hpos]
      have h2 := hx.lt
      have h3 : (2 : K) ^ 128 ≤ 2 ^ 121 * 255 := by norm_num
      have h4 : (2 : K) ^ 121 * 255 ≤ 2 ^ 121 * Spec.fullScale d := mul_le_mul_of_nonneg_left h255 (by positivity)
      exact h2.le.trans (h3.trans h4)
    have e1 : ieee double (.fin (x / Spec.fullScale d)) = .fin (double.near (x / Spec.fullScale d)) :=
      double_fin (hq.trans (pow_le_pow_right₀ one_le_two (by norm_num)))
    have hz : |double.near (x / Spec.fullScale d)| ≤ 2 ^ 125 := by
      have h2 := double_abs (x / Spec.fullScale d)
      have h3 : (2 : K) ^ 125 = 2 ^ 121 * 16 := by rw [show (16 : K) = 2 ^ 4 by norm_num, ← pow_add]
      have h4 : (1 : K) ≤ 2 ^ 121 := one_le_pow₀ one_le_two
      rw [h3]
      generalize (2 : K) ^ 121 = c at *
      linarith
    have e2 := single_fin hz
    rw [e, ed, e1, e2]
    refine ⟨_, rfl, isSingle_near e2, fun h => ?_, fun h => ?_, fun h => ?_, fun h => ?_, ?_⟩
    · exact single_rounder.nonpos (double_rounder.nonpos (div_nonpos_of_nonpos_of_nonneg h hpos.le))
    · exact single_rounder.nonneg (double_rounder.nonneg (div_nonneg h hpos.le))
    · have := Fmt.near_mono single (Fmt.near_mono double ((one_le_div hpos).mpr h))
      rwa [double_one, single_one] at this
    · have := Fmt.near_mono single (Fmt.near_mono double ((div_le_one hpos).mpr h))
      rwa [double_one, single_one] at this
    · exact near_twice (double_rounder.err _)
  · have hx' : ieee single (.fin x) = .fin x := hx
    rw [e, hx', h1, div_one]
    refine ⟨x, rfl, hx, id, id, id, id, ?_⟩
    rw [sub_self, abs_zero]
    have := (two_zpow_pos (K := K) (-148)).le
    positivity

/-- The scaled position of a pixel value between 0 and full scale. -/
theorem posF_near {m : ℕ} (hm0 : 0 < m) (hm : m < 2 ^ 53) {p q : K} (hp0 : 0 ≤ p) (hp1 : p ≤ 1) (hq0 : 0 ≤ q) (hq1 : q ≤ 1)
    (h : |p - q| ≤ |q| * (9 / 8 * (1 / 2 ^ 24)) + 2 ^ (-148 : ℤ)) :
    0 ≤ posF m p ∧ posF m p ≤ m ∧ |posF m p - q * m| ≤ m * (5 / 4 * (1 / 2 ^ 24)) := by
  have hmK : (1 : K) ≤ m := by exact_mod_cast hm0
  have hm0K : (0 : K) ≤ m := by linarith
  refine ⟨Fmt.near_nonneg _ (mul_nonneg hp0 hm0K), ?_, ?_⟩
  · have := Fmt.near_mono double (mul_le_of_le_one_left hm0K hp1)
    rwa [double_nat m hm] at this
  · have e := double_rounder.err (p * m)
    have e2 : |p * m - q * m| = |p - q| * m := by rw [← sub_mul, abs_mul, abs_of_nonneg hm0K]
    have e3 : |p * m| ≤ m := by
      rw [abs_of_nonneg (mul_nonneg hp0 hm0K)]
      exact mul_le_of_le_one_left hm0K hp1
    have e4 : |p - q| ≤ 9 / 8 * (1 / 2 ^ 24) + 2 ^ (-148 : ℤ) := by
      refine h.trans (add_le_add_left ?_ _)
      rw [abs_of_nonneg hq0]
      exact mul_le_of_le_one_left (by positivity) hq1
    have e5 : (2 : K) ^ (-148 : ℤ) ≤ 1 / 2 ^ 30 := by
      rw [one_div, ← zpow_natCast, ← zpow_neg]
      exact zpow_le_zpow_right₀ one_le_two (by norm_num)
    have e6 := eta_le (K := K)
    unfold posF
    generalize (2 : K) ^ (-148 : ℤ) = μ at *
    generalize (2 : K) ^ (-1075 : ℤ) = η at *
    have h1 : |p - q| * m ≤ (9 / 8 * (1 / 2 ^ 24) + 1 / 2 ^ 30) * m :=
      mul_le_mul_of_nonneg_right (by linarith) hm0K
    have h2 : |p * m| * (1 / 2 ^ 53) ≤ m * (1 / 2 ^ 53) := mul_le_mul_of_nonneg_right e3 (by positivity)
    have h3 : (1 : K) / 2 ^ 53 ≤ m * (1 / 2 ^ 53) := le_mul_of_one_le_left (by positivity) hmK
    have h4 : |double.near (p * m) - q * m| ≤ |double.near (p * m) - p * m| + |p * m - q * m| := abs_sub_le _ _ _
    rw [e2] at h4
    refine h4.trans ((add_le_add e h1).trans ?_)
    have h5 : |p * m| * (1 / 2 ^ 53) + η ≤ m * (1 / 2 ^ 52) := by
      have : (m : K) * (1 / 2 ^ 52) = m * (1 / 2 ^ 53) + m * (1 / 2 ^ 53) := by ring
      rw [this]
      exact add_le_add h2 (e6.trans h3)
    refine (add_le_add_left h5 _).trans ?_
    norm_num
    linarith

/-- The error of a stored lookup. -/
theorem rowF_near {m : ℕ} (f : Fin (m + 1) → K) (hf : ∀ k, Spec.IsSingle (f k)) (J B : K)
    (hJ : ∀ (k : ℕ) (hk : k + 1 ≤ m), |f ⟨k + 1, by omega⟩ - f ⟨k, by omega⟩| ≤ J) (hB : ∀ k, |f k| ≤ B) (hJ0 : 0 ≤ J) {T t : K}
    (hT0 : 0 ≤ T) (hTm : T ≤ m) (ht0 : 0 ≤ t) (htm : t ≤ m) (h : |T - t| ≤ m * (5 / 4 * (1 / 2 ^ 24))) :
    |single.near (rowF f T) - lerpRow f t| ≤ (J * m + B) / 2 ^ 23 + 2 ^ (-150 : ℤ) := by
  have hB0 : 0 ≤ B := (abs_nonneg _).trans (hB 0)
  have hm0 : (0 : K) ≤ m := Nat.cast_nonneg m
  have hμ := (two_zpow_pos (K := K) (-150)).le
  by_cases hz : ∀ k, f k = 0
  · have e1 : lerpRow f t = 0 := by
      unfold lerpRow
      rw [hz, hz]
      ring
    have e2 : rowF f T = 0 := by
      unfold rowF lerpF
      rw [hz, hz, mul_zero, mul_zero, Fmt.near_zero, add_zero, Fmt.near_zero]
    rw [e1, e2, Fmt.near_zero, sub_self, abs_zero]
    have : 0 ≤ J * m + B := by positivity
    positivity
  push Not at hz
  obtain ⟨k, hk⟩ := hz
  have hη : (2 : K) ^ (-1075 : ℤ) ≤ 1 / 2 ^ 53 * B := by
    refine ((hf k).eta.resolve_left hk).trans ?_
    refine mul_le_mul_of_nonneg_left ?_ (by positivity)
    have := hB k
    have := abs_nonneg (f k)
    linarith
  have hl := lerpRow_lipschitz f J hJ hT0 hTm ht0 htm
  have hl2 : J * |T - t| ≤ J * (m * (5 / 4 * (1 / 2 ^ 24))) := mul_le_mul_of_nonneg_left h hJ0
  obtain ⟨_, f2, f3⟩ := fract_fin (T := T)
  have h1 := lerpF_near f2 f3 hη (hB (clampRow m ⌊T⌋)) (hB (clampRow m ⌈T⌉))
  have hfr : |double.near (T - ⌊T⌋) - (T - ⌊T⌋)| ≤ 2 * (1 / 2 ^ 53) := by
    have e := double_rounder.err (T - ⌊T⌋)
    have g0 : 0 ≤ T - ⌊T⌋ := Int.fract_nonneg T
    have g1 : T - ⌊T⌋ ≤ 1 := (Int.fract_lt_one T).le
    rw [abs_of_nonneg g0] at e
    have := mul_le_of_le_one_left (show (0 : K) ≤ 1 / 2 ^ 53 by positivity) g1
    have := eta_le (K := K)
    generalize (2 : K) ^ (-1075 : ℤ) = η at *
    linarith
  have h2 : |(1 - double.near (T - ⌊T⌋)) * f (clampRow m ⌊T⌋) + double.near (T - ⌊T⌋) * f (clampRow m ⌈T⌉) - lerpRow f T|
      ≤ 4 * (1 / 2 ^ 53 * B) := by
    unfold lerpRow
    have e : (1 - double.near (T - ⌊T⌋)) * f (clampRow m ⌊T⌋) + double.near (T - ⌊T⌋) * f (clampRow m ⌈T⌉) -
        ((1 - (T - ⌊T⌋)) * f (clampRow m ⌊T⌋) + (T - ⌊T⌋) * f (clampRow m ⌈T⌉))
        = (double.near (T - ⌊T⌋) - (T - ⌊T⌋)) * (f (clampRow m ⌈T⌉) - f (clampRow m ⌊T⌋)) := by ring
    rw [e, abs_mul]
    have g : |f (clampRow m ⌈T⌉) - f (clampRow m ⌊T⌋)| ≤ 2 * B := by
      have := abs_sub (f (clampRow m ⌈T⌉)) (f (clampRow m ⌊T⌋))
      have := hB (clampRow m ⌈T⌉)
      have := hB (clampRow m ⌊T⌋)
      linarith
    have := mul_le_mul hfr g (abs_nonneg _) (by positivity)
    linarith
  have h3 : |rowF f T - lerpRow f T| ≤ 28 * (1 / 2 ^ 53 * B) := by
    have := abs_sub_le (rowF f T) ((1 - double.near (T - ⌊T⌋)) * f (clampRow m ⌊T⌋) + double.near (T - ⌊T⌋) * f (clampRow m ⌈T⌉)) (lerpRow f T)
    have h1' : |rowF f T - _| ≤ _ := h1
    linarith
  have h4 : |lerpRow f T| ≤ B := by
    obtain ⟨⟨i, hi⟩, j, hj⟩ := lerpRow_mem f T
    rw [abs_le]
    exact ⟨(abs_le.mp (hB i)).1.trans hi, hj.trans (abs_le.mp (hB j)).2⟩
  have h5 := single_rounder.err (rowF f T)
  have h6 : |rowF f T| ≤ B + 28 * (1 / 2 ^ 53 * B) := by
    have := abs_add_le (lerpRow f T) (rowF f T - lerpRow f T)
    rw [add_sub_cancel] at this
    linarith
  have h7 := mul_le_mul_of_nonneg_right h6 (show (0 : K) ≤ 1 / 2 ^ 24 by positivity)
  have h8 := abs_sub_le (single.near (rowF f T)) (rowF f T) (lerpRow f t)
  have h9 := abs_sub_le (rowF f T) (lerpRow f T) (lerpRow f t)
  generalize (2 : K) ^ (-150 : ℤ) = μ at *
  have hJm : 0 ≤ J * m := mul_nonneg hJ0 hm0
  have h10 : |single.near (rowF f T) - lerpRow f t| ≤ (B + 28 * (1 / 2 ^ 53 * B)) * (1 / 2 ^ 24) + μ + (28 * (1 / 2 ^ 53 * B) + J * (m * (5 / 4 * (1 / 2 ^ 24)))) := by
    linarith
  refine h10.trans ?_
  norm_num
  linarith

end CLF
