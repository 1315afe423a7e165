import Verif.Model.RoundedSampling
import Verif.Lemmas.RoundedCube

set_option linter.unusedSectionVars false

/-! # Property C131: sample positions in IEEE arithmetic -/

namespace CLF

variable {K : Type} [Field K] [LinearOrder K] [IsStrictOrderedRing K] [FloorRing K]

namespace Spec

/-- Numbers of `float64` of a size that does not overflow. -/
def Moderate (x : K) : Prop := double.near x = x ∧ |x| ≤ 2 ^ 200

end Spec

theorem samplePointR_exact (n : ℕ) (lo hi : Flt K) (i : ℕ) :
    samplePointR unrounded n lo hi i = samplePoint n lo hi i := by
  unfold samplePointR unitPointR samplePoint
  simp only [unrounded, bind_assoc, pure_bind]

/-- Positions in the unit interval. -/
theorem unitPointR_fin {n : ℕ} (hn : 2 ≤ n) (i : ℕ) (hi : i < n) :
    unitPointR ieee n i = .ok (.fin (double.near ((i : K) / (n - 1)))) ∧ 0 ≤ double.near ((i : K) / (n - 1)) ∧
      double.near ((i : K) / (n - 1)) ≤ 1 := by
  have hpos : (0 : K) < n - 1 := by
    have : (2 : K) ≤ n := by exact_mod_cast hn
    linarith
  have h0 : 0 ≤ (i : K) / (n - 1) := by positivity
  have h1 : (i : K) / (n - 1) ≤ 1 := by
    rw [div_le_one hpos]
    have : (i : K) + 1 ≤ n := by exact_mod_cast hi
    linarith
  refine ⟨?_, near_unit h0 h1⟩
  have e : pyDivF (.fin (i : K)) (.fin ((n : K) - 1)) = .ok (.fin ((i : K) / (n - 1))) := by
    unfold pyDivF
    rw [if_neg (by simpa using hpos.ne'), Flt.fin_div hpos.ne']
  unfold unitPointR
  rw [e]
  show Except.ok (ieee double (.fin ((i : K) / (n - 1)))) = _
  rw [double_fin]
  rw [abs_of_nonneg h0]
  exact h1.trans (one_le_pow₀ one_le_two)

/-- What a position is. -/
def pointF (n : ℕ) (lo hi : K) (i : ℕ) : K :=
  double.near (double.near (double.near ((i : K) / (n - 1)) * double.near (hi - lo)) + lo)

theorem samplePointR_fin {n : ℕ} (hn : 2 ≤ n) {lo hi : K} (hlo : |lo| ≤ 2 ^ 200) (hhi : |hi| ≤ 2 ^ 200) (i : ℕ) (hin : i < n) :
    samplePointR ieee n (.fin lo) (.fin hi) i = .ok (.fin (pointF n lo hi i)) := by
  obtain ⟨e, t0, t1⟩ := unitPointR_fin (K := K) hn i hin
  have hd : |hi - lo| ≤ 2 ^ 201 := by
    have := abs_sub hi lo
    have h2 : (2 : K) ^ 201 = 2 ^ 200 * 2 := pow_succ _ _
    linarith
  have hD : |double.near (hi - lo)| ≤ 2 ^ 203 := by
    have h1 := double_abs (hi - lo)
    have h2 : (2 : K) ^ 203 = 2 ^ 201 * 2 * 2 := by rw [← pow_succ, ← pow_succ]
    have h3 : (1 : K) ≤ 2 ^ 201 := one_le_pow₀ one_le_two
    linarith
  generalize hg : double.near ((i : K) / (n - 1)) = g at *
  have hm : |g * double.near (hi - lo)| ≤ 2 ^ 203 := by
    rw [abs_mul, abs_of_nonneg t0]
    exact (mul_le_of_le_one_left (abs_nonneg _) t1).trans hD
  have hs : |double.near (g * double.near (hi - lo)) + lo| ≤ 2 ^ 300 := by
    have h1 := double_abs (g * double.near (hi - lo))
    have h2 := abs_add_le (double.near (g * double.near (hi - lo))) lo
    have h3 : (2 : K) ^ 200 ≤ 2 ^ 203 := pow_le_pow_right₀ one_le_two (by norm_num)
    have h4 : (1 : K) ≤ 2 ^ 203 := one_le_pow₀ one_le_two
    have h5 : (2 : K) ^ 203 * 4 ≤ 2 ^ 300 := by
      rw [show (4 : K) = 2 ^ 2 by norm_num, ← pow_add]
      exact pow_le_pow_right₀ one_le_two (by norm_num)
    have h6 := hlo
    have h7 := hm
    clear hd hD hlo hhi
    generalize (2 : K) ^ 300 = e3 at *
    generalize (2 : K) ^ 203 = e2 at *
    generalize (2 : K) ^ 200 = e1 at *
    linarith
  have up : ∀ {x : K} {k : ℕ}, |x| ≤ 2 ^ k → k ≤ 300 → |x| ≤ 2 ^ 300 := fun h hk =>
    h.trans (pow_le_pow_right₀ one_le_two hk)
  unfold samplePointR pointF
  rw [e, hg]
  simp only [py_ok_bind, py_pure]
  rw [Flt.fin_sub, double_fin (up hd (by norm_num)), Flt.fin_mul, double_fin (up hm (by norm_num)), Flt.fin_add, double_fin hs]

/-- C131: the first sample is the lower end. -/
theorem C131_first {n : ℕ} (hn : 2 ≤ n) {lo hi : K} (hlo : Spec.Moderate lo) (hhi : Spec.Moderate hi) :
    samplePointR ieee n (.fin lo) (.fin hi) 0 = .ok (.fin lo) := by
  rw [samplePointR_fin hn hlo.2 hhi.2 0 (by omega)]
  unfold pointF
  rw [Nat.cast_zero, zero_div, Fmt.near_zero, zero_mul, Fmt.near_zero, zero_add, hlo.1]

/-- C131: samples do not decrease. -/
theorem C131_order {n : ℕ} (hn : 2 ≤ n) {lo hi : K} (hlo : Spec.Moderate lo) (hhi : Spec.Moderate hi) (hle : lo ≤ hi)
    {i j : ℕ} (hij : i ≤ j) (hj : j < n) : ∃ x y, samplePointR ieee n (.fin lo) (.fin hi) i = .ok (.fin x) ∧
      samplePointR ieee n (.fin lo) (.fin hi) j = .ok (.fin y) ∧ lo ≤ x ∧ x ≤ y := by
  have mono : ∀ i j : ℕ, i ≤ j → pointF n lo hi i ≤ pointF n lo hi j := by
    intro i j hij
    have hpos : (0 : K) < n - 1 := by
      have : (2 : K) ≤ n := by exact_mod_cast hn
      linarith
    have hq : (i : K) / (n - 1) ≤ j / (n - 1) := div_le_div_of_nonneg_right (by exact_mod_cast hij) hpos.le
    refine Fmt.near_mono _ (add_le_add (Fmt.near_mono _ ?_) le_rfl)
    exact mul_le_mul_of_nonneg_right (Fmt.near_mono _ hq) (Fmt.near_nonneg _ (by linarith))
  refine ⟨_, _, samplePointR_fin hn hlo.2 hhi.2 i (by omega), samplePointR_fin hn hlo.2 hhi.2 j hj, ?_, mono i j hij⟩
  have h0 := mono 0 i (by omega)
  have e := C131_first hn hlo hhi
  rw [samplePointR_fin hn hlo.2 hhi.2 0 (by omega)] at e
  rwa [Flt.fin.inj (Except.ok.inj e)] at h0

/-- C131: samples of the unit interval are the nearest numbers to `i / (n - 1)`, from 0 to 1. -/
theorem C131_unit {n : ℕ} (hn : 2 ≤ n) (i : ℕ) (hi : i < n) :
    samplePointR ieee n (.fin 0) (.fin (1 : K)) i = unitPointR ieee n i ∧
    unitPointR ieee n i = .ok (double.round (.fin ((i : K) / (n - 1)))) ∧
    unitPointR ieee n 0 = .ok (.fin (0 : K)) ∧ unitPointR ieee n (n - 1) = .ok (.fin (1 : K)) := by
  obtain ⟨e, t0, t1⟩ := unitPointR_fin (K := K) hn i hi
  have hpos : (0 : K) < n - 1 := by
    have : (2 : K) ≤ n := by exact_mod_cast hn
    linarith
  have h1 : (i : K) / (n - 1) ≤ 1 := by
    rw [div_le_one hpos]
    have : (i : K) + 1 ≤ n := by exact_mod_cast hi
    linarith
  have h1200 : (1 : K) ≤ 2 ^ 200 := one_le_pow₀ one_le_two
  refine ⟨?_, ?_, ?_, ?_⟩
  · rw [samplePointR_fin hn (by simp) (by simpa using h1200) i hi, e]
    unfold pointF
    rw [sub_zero, double_one, mul_one, add_zero, Fmt.near_near, Fmt.near_near]
  · rw [e]
    have := double_fin (K := K) (x := (i : K) / (n - 1)) (by
      rw [abs_of_nonneg (by positivity)]
      exact h1.trans (one_le_pow₀ one_le_two))
    exact congrArg _ this.symm
  · rw [(unitPointR_fin hn 0 (by omega)).1, Nat.cast_zero, zero_div, Fmt.near_zero]
  · rw [(unitPointR_fin hn (n - 1) (by omega)).1, Nat.cast_sub (by omega), Nat.cast_one, div_self hpos.ne', double_one]

/-- C131: samples are within `(|lo| + |hi|) / 2^50 + 2^-1070` of `lo + i / (n - 1) * (hi - lo)`. -/
theorem C131_near {n : ℕ} (hn : 2 ≤ n) {lo hi : K} (hlo : Spec.Moderate lo) (hhi : Spec.Moderate hi) (i : ℕ) (hin : i < n) :
    ∃ x, samplePointR ieee n (.fin lo) (.fin hi) i = .ok (.fin x) ∧
      |x - (lo + (i : K) / (n - 1) * (hi - lo))| ≤ (|lo| + |hi|) / 2 ^ 50 + 2 ^ (-1070 : ℤ) := by
  refine ⟨_, samplePointR_fin hn hlo.2 hhi.2 i hin, ?_⟩
  obtain ⟨_, t0, t1⟩ := unitPointR_fin (K := K) hn i hin
  have hpos : (0 : K) < n - 1 := by
    have : (2 : K) ≤ n := by exact_mod_cast hn
    linarith
  have q0 : 0 ≤ (i : K) / (n - 1) := by positivity
  have q1 : (i : K) / (n - 1) ≤ 1 := by
    rw [div_le_one hpos]
    have : (i : K) + 1 ≤ n := by exact_mod_cast hin
    linarith
  unfold pointF
  have eq := double_rounder.err ((i : K) / (n - 1))
  generalize (i : K) / (n - 1) = q at *
  have ed := double_rounder.err (hi - lo)
  have em := double_rounder.err (double.near q * double.near (hi - lo))
  have es := double_rounder.err (double.near (double.near q * double.near (hi - lo)) + lo)
  generalize double.near (double.near (double.near q * double.near (hi - lo)) + lo) = S at *
  generalize double.near (double.near q * double.near (hi - lo)) = P at *
  generalize double.near (hi - lo) = D at *
  generalize double.near q = Q at *
  have hη : (0 : K) < 2 ^ (-1075 : ℤ) := two_zpow_pos _
  have hη1 : (2 : K) ^ (-1075 : ℤ) ≤ 1 / 2 ^ 53 := eta_le
  have e1070 : (2 : K) ^ (-1070 : ℤ) = 32 * 2 ^ (-1075 : ℤ) := by
    rw [show (32 : K) = 2 ^ (5 : ℤ) by norm_num, ← zpow_add₀ two_ne_zero]; norm_num
  rw [e1070]
  have hη2 : (2 : K) ^ (-1075 : ℤ) * |hi - lo| ≤ 1 / 2 ^ 53 * |hi - lo| := mul_le_mul_of_nonneg_right hη1 (abs_nonneg _)
  generalize (2 : K) ^ (-1075 : ℤ) = η at *
  obtain ⟨B, hB⟩ : ∃ B, |lo| + |hi| = B := ⟨_, rfl⟩
  have hd : |hi - lo| ≤ B := by have := abs_sub hi lo; linarith
  have hB0 : 0 ≤ B := (abs_nonneg _).trans hd
  have hl : |lo| ≤ B := by have := abs_nonneg hi; linarith
  rw [hB]
  obtain ⟨u, hu⟩ : ∃ u : K, 1 / 2 ^ 53 = u := ⟨_, rfl⟩
  have hu0 : 0 < u := by rw [← hu]; positivity
  have hu1 : u ≤ 1 / 2 ^ 10 := by rw [← hu]; norm_num
  have e50 : B / 2 ^ 50 = 8 * (u * B) := by rw [← hu]; ring
  rw [e50]
  rw [hu] at eq ed em es hη1 hη2
  obtain ⟨d, hde⟩ : ∃ d, hi - lo = d := ⟨_, rfl⟩
  rw [hde] at ed hd hη2 ⊢
  have huB : 0 ≤ u * B := by positivity
  have hud : |d| * u ≤ u * B := by rw [mul_comm]; exact mul_le_mul_of_nonneg_left hd hu0.le
  have huB1 : u * B ≤ B * (1 / 2 ^ 10) := by rw [mul_comm]; exact mul_le_mul_of_nonneg_left hu1 hB0
  -- the range
  have hD : |D - d| ≤ u * B + η := by linarith
  have hDB : |D| ≤ B + u * B + η := by
    have := abs_add_le (D - d) d
    rw [sub_add_cancel] at this
    linarith
  -- the quotient
  rw [abs_of_nonneg q0] at eq
  have hQ : |Q - q| ≤ u + η := by
    have : q * u ≤ u := mul_le_of_le_one_left hu0.le q1
    linarith
  -- the product
  have hQD : |Q * D - q * d| ≤ 3 * (u * B) + 2 * η := by
    have e1 : Q * D - q * d = Q * (D - d) + (Q - q) * d := by ring
    have e2 : |Q * (D - d)| ≤ u * B + η := by
      rw [abs_mul, abs_of_nonneg t0]
      exact (mul_le_of_le_one_left (abs_nonneg _) t1).trans hD
    have e3 : |(Q - q) * d| ≤ (u + η) * |d| := by
      rw [abs_mul]
      exact mul_le_mul_of_nonneg_right hQ (abs_nonneg _)
    have e4 : η * |d| ≤ u * B := by linarith
    have e5 := abs_add_le (Q * (D - d)) ((Q - q) * d)
    rw [e1]
    linarith
  have hQDa : |Q * D| ≤ B + u * B + η := by
    rw [abs_mul, abs_of_nonneg t0]
    exact (mul_le_of_le_one_left (abs_nonneg _) t1).trans hDB
  have small : ∀ X : K, X ≤ 2 * B + 8 * η → 0 ≤ X → X * u ≤ 2 * (u * B) + η := by
    intro X h1 h2
    have e1 := mul_le_mul_of_nonneg_right h1 hu0.le
    have e2 : 8 * η * u ≤ η := by
      have := mul_le_mul_of_nonneg_left hu1 hη.le
      linarith
    linarith
  have hP : |P - Q * D| ≤ u * B * (1 + 1 / 2 ^ 9) + 2 * η := by
    have e1 := mul_le_mul_of_nonneg_right hQDa hu0.le
    have e2 : u * B * u ≤ u * B * (1 / 2 ^ 10) := mul_le_mul_of_nonneg_left hu1 huB
    have e3 : η * u ≤ η := mul_le_of_le_one_right hη.le (hu1.trans (by norm_num))
    linarith
  have hPl : |P + lo| ≤ 2 * B + 8 * η := by
    have e1 := abs_add_le (P - Q * D) (Q * D - q * d)
    rw [sub_add_sub_cancel] at e1
    have e2 := abs_add_le (P - q * d) (q * d + lo)
    rw [show P - q * d + (q * d + lo) = P + lo by ring] at e2
    have e3 : |q * d + lo| ≤ B := by
      have a1 : q * d + lo = (1 - q) * lo + q * hi := by rw [← hde]; ring
      have a2 : |(1 - q) * lo| ≤ (1 - q) * |lo| := by rw [abs_mul, abs_of_nonneg (show 0 ≤ 1 - q by linarith)]
      have a3 : |q * hi| ≤ q * |hi| := by rw [abs_mul, abs_of_nonneg q0]
      have a4 : (1 - q) * |lo| ≤ |lo| := mul_le_of_le_one_left (abs_nonneg _) (by linarith)
      have a5 : q * |hi| ≤ |hi| := mul_le_of_le_one_left (abs_nonneg _) q1
      have := abs_add_le ((1 - q) * lo) (q * hi)
      rw [a1]
      linarith
    linarith
  have hS := small _ hPl (abs_nonneg _)
  have e1 := abs_le.mp es
  have e2 := abs_le.mp hP
  have e3 := abs_le.mp hQD
  rw [abs_le]
  constructor <;> linarith

/-- C131: stored in `float32` the last sample is the upper end, if the upper end is a number of
`float32` and the lower end is not larger in size. -/
theorem C131_last_partial {n : ℕ} (hn : 2 ≤ n) {lo hi : K} (hlo : Spec.Moderate lo) (hhi : Spec.IsSingle hi) (hsz : |lo| ≤ |hi|) :
    (samplePointR ieee n (.fin lo) (.fin hi) (n - 1)).map (ieee single) = .ok (.fin hi) := by
  have hm : Spec.Moderate hi := ⟨hhi.double, hhi.lt.le.trans (pow_le_pow_right₀ one_le_two (by norm_num))⟩
  obtain ⟨x, hx, hxe⟩ := C131_near hn hlo hm (n - 1) (by omega)
  have hpos : (0 : K) < n - 1 := by
    have : (2 : K) ≤ n := by exact_mod_cast hn
    linarith
  rw [Nat.cast_sub (by omega), Nat.cast_one, div_self hpos.ne', one_mul, add_sub_cancel] at hxe
  rw [hx]
  show Except.ok (ieee single (.fin x)) = _
  congr 1
  rcases hhi.big with rfl | hb
  · have hlo0 : lo = 0 := by
      rw [abs_zero] at hsz
      exact abs_eq_zero.mp (le_antisymm hsz (abs_nonneg _))
    subst hlo0
    have e := samplePointR_fin (K := K) hn (lo := 0) (hi := 0) (by simp) (by simp) (n - 1) (by omega)
    rw [hx] at e
    rw [Flt.fin.inj (Except.ok.inj e)]
    unfold pointF
    rw [sub_zero, Fmt.near_zero, mul_zero, Fmt.near_zero, add_zero, Fmt.near_zero]
    exact hhi
  · have h1 : |x - hi| ≤ |hi| / 2 ^ 26 := by
      refine hxe.trans ?_
      have a1 : (|lo| + |hi|) / 2 ^ 50 ≤ 2 * |hi| / 2 ^ 50 := div_le_div_of_nonneg_right (by linarith) (by positivity)
      have a2 : (2 : K) ^ (-1070 : ℤ) ≤ |hi| / 2 ^ 50 := by
        rw [le_div_iff₀ (by positivity)]
        refine le_trans ?_ hb
        rw [← zpow_natCast, ← zpow_add₀ two_ne_zero]
        exact zpow_le_zpow_right₀ one_le_two (by norm_num)
      have a3 : 3 * |hi| / 2 ^ 50 ≤ |hi| / 2 ^ 26 := by
        rw [div_le_div_iff₀ (by positivity) (by positivity)]
        have := mul_le_mul_of_nonneg_left (show (3 : K) * 2 ^ 26 ≤ 2 ^ 50 by norm_num) (abs_nonneg hi)
        linarith
      have a4 : 2 * |hi| / 2 ^ 50 + |hi| / 2 ^ 50 = 3 * |hi| / 2 ^ 50 := by ring
      linarith
    have h2 := Fmt.near_absorb single hhi.near (show |x - hi| ≤ |hi| / 2 ^ (single.mant + 3) from h1)
    have h3 := Fmt.round_eq single x (by
      rw [← Fmt.abs_near, h2]
      exact (Fmt.round_finite single hhi).2)
    rw [h2] at h3
    exact h3

/-- C131 is false of the last sample in `float64`: between the numbers nearest to 0.2 and 0.9 the last of two
samples is the number before the upper end, between those nearest to 0.3 and 0.9 it is the number after it,
and between -2^60 and 1 it is 0. -/
theorem C131_last_false :
    (∃ lo hi x : ℚ, Spec.Moderate lo ∧ Spec.Moderate hi ∧ lo < hi ∧
      samplePointR ieee 2 (.fin lo) (.fin hi) 1 = .ok (.fin x) ∧ x < hi) ∧
    (∃ lo hi x : ℚ, Spec.Moderate lo ∧ Spec.Moderate hi ∧ lo < hi ∧
      samplePointR ieee 2 (.fin lo) (.fin hi) 1 = .ok (.fin x) ∧ hi < x) ∧
    samplePointR ieee 2 (.fin (-2 ^ 60 : ℚ)) (.fin 1) 1 = .ok (.fin 0) := by
  refine ⟨⟨0x1999999999999a / 2 ^ 55, 0x1ccccccccccccd / 2 ^ 53, 0x1ccccccccccccc / 2 ^ 53, ?_⟩,
    ⟨0x13333333333333 / 2 ^ 54, 0x1ccccccccccccd / 2 ^ 53, 0x1cccccccccccce / 2 ^ 53, ?_⟩, ?_⟩
  · unfold Spec.Moderate; decide +kernel
  · unfold Spec.Moderate; decide +kernel
  · decide +kernel

/-- The second of three samples between 0.25 and 2 is 1.125; the last is 2. -/
example : samplePointR ieee 3 (.fin (1 / 4 : ℚ)) (.fin 2) 1 = .ok (.fin (9 / 8)) ∧
    samplePointR ieee 3 (.fin (1 / 4 : ℚ)) (.fin 2) 2 = .ok (.fin 2) ∧
    Spec.Moderate (1 / 4 : ℚ) ∧ Spec.IsSingle (2 : ℚ) := by
  unfold Spec.Moderate Spec.IsSingle
  decide +kernel

end CLF
