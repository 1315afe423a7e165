import Verif.Lemmas.RoundedLut
import Verif.Lemmas.RoundedCube

set_option linter.unusedSectionVars false

/-! Order through the interpolation of a table in IEEE arithmetic. -/

namespace CLF

variable {K : Type} [Field K] [LinearOrder K] [IsStrictOrderedRing K] [FloorRing K]

/-- Different positive `float32` numbers are well apart. -/
theorem single_apart {p q : K} (hp : Spec.IsSingle p) (hq : Spec.IsSingle q) (h0 : 0 ≤ p) (h : p < q) : q / 2 ^ 24 ≤ q - p := by
  have ep := hp.near
  have eq := hq.near
  rw [Fmt.near_of_nonneg _ h0] at ep
  rw [Fmt.near_of_nonneg _ (h0.trans h.le)] at eq
  generalize single.preCode p = i at ep
  generalize single.preCode q = j at eq
  have hij : i < j := by
    rw [← ep, ← eq] at h
    exact (Fmt.magVal_strictMono single).lt_iff_lt.mp h
  obtain ⟨c, rfl⟩ : ∃ c, j = c + 1 := ⟨j - 1, by omega⟩
  have hg := Fmt.magVal_gap (K := K) single c
  have hm : (single.magVal i : K) ≤ single.magVal c := (Fmt.magVal_strictMono single).monotone (by omega)
  rw [eq, show single.mant + 1 = 24 from rfl] at hg
  rw [ep] at hm
  linarith

/-- The smallest step of doubles is nothing to a `float32` number. -/
theorem Spec.IsSingle.eta_small {x : K} (h : Spec.IsSingle x) : x = 0 ∨ (2 : K) ^ (-1075 : ℤ) ≤ 1 / 2 ^ 53 * (|x| / 64) := by
  refine h.big.imp id fun hb => ?_
  have h1 : (1 : K) / 2 ^ 53 * (2 ^ (-149 : ℤ) / 64) = 2 ^ (-208 : ℤ) := by
    rw [one_div, ← zpow_natCast, ← zpow_neg, show (64 : K) = 2 ^ (6 : ℤ) by norm_num, ← zpow_sub₀ two_ne_zero, ← zpow_add₀ two_ne_zero]
    congr 1
  have h2 : (2 : K) ^ (-1075 : ℤ) ≤ 2 ^ (-208 : ℤ) := zpow_le_zpow_right₀ one_le_two (by norm_num)
  exact h2.trans (h1.symm.le.trans (mul_le_mul_of_nonneg_left (div_le_div_of_nonneg_right hb (by norm_num)) (by positivity)))

theorem eta_small : (2 : K) ^ (-1075 : ℤ) ≤ 1 / 2 ^ 53 * (1 / 64) := by
  have h1 : (1 : K) / 2 ^ 53 * (1 / 64) = 2 ^ (-59 : ℤ) := by
    rw [one_div, ← zpow_natCast, ← zpow_neg, show (1 / 64 : K) = 2 ^ (-6 : ℤ) by norm_num, ← zpow_add₀ two_ne_zero]
    congr 1
  rw [h1]
  exact zpow_le_zpow_right₀ one_le_two (by norm_num)

/-- The error of an interpolation that starts from `a`. -/
theorem lerpF_tight {t a b P : K} (ha : Spec.IsSingle a) (hz : a ≠ 0) (hab : a ≤ b) (h0 : 0 ≤ t) (h1 : t ≤ 1)
    (hP : t * (b - a) ≤ P) : |lerpF t a b - (a + t * (b - a))| ≤ 1 / 2 ^ 53 * (13 / 4 * |a| + 3 * P) := by
  have hη := ha.eta_small.resolve_left hz
  have hη' := eta_small (K := K)
  have hs := near_unit (show 0 ≤ 1 - t by linarith) (by linarith)
  have hA := abs_nonneg a
  have hP0 : 0 ≤ t * (b - a) := mul_nonneg h0 (by linarith)
  have e0 := double_rounder.err (1 - t)
  have e1 := double_rounder.err (double.near (1 - t) * a)
  have e2 := double_rounder.err (t * b)
  have e3 := double_rounder.err (double.near (double.near (1 - t) * a) + double.near (t * b))
  have m2 : |t * b| ≤ t * |a| + P := by
    have : t * b = t * a + t * (b - a) := by ring
    rw [this]
    refine (abs_add_le _ _).trans ?_
    rw [abs_mul, abs_of_nonneg h0, abs_of_nonneg hP0]
    linarith
  rw [abs_mul, abs_of_nonneg hs.1] at e1
  rw [abs_of_nonneg (show 0 ≤ 1 - t by linarith)] at e0
  have m1 : |double.near (1 - t) * a| ≤ double.near (1 - t) * |a| := by rw [abs_mul, abs_of_nonneg hs.1]
  unfold lerpF
  have ex : a + t * (b - a) = (1 - t) * a + t * b := by ring
  rw [ex]
  generalize double.near (double.near (1 - t) * a) = X at *
  generalize double.near (t * b) = Y at *
  generalize double.near (X + Y) = Z at *
  generalize double.near (1 - t) = s at *
  generalize (2 : K) ^ (-1075 : ℤ) = η at *
  have hu : (0 : K) ≤ 1 / 2 ^ 53 := by positivity
  have hu1 : (1 : K) / 2 ^ 53 ≤ 1 / 1024 := by norm_num
  generalize (1 : K) / 2 ^ 53 = u at *
  have w0 : |s - (1 - t)| ≤ u * (65 / 64) := by
    have : (1 - t) * u ≤ u := mul_le_of_le_one_left hu (by linarith)
    linarith
  have w1 : |(s - (1 - t)) * a| ≤ u * (65 / 64) * |a| := by
    rw [abs_mul]
    exact mul_le_mul_of_nonneg_right w0 hA
  have w2 : s * |a| + t * |a| ≤ 1026 / 1024 * |a| := by
    have h := (abs_le.mp w0).2
    have : s + t ≤ 1026 / 1024 := by linarith
    calc s * |a| + t * |a| = (s + t) * |a| := by ring
      _ ≤ _ := mul_le_mul_of_nonneg_right this hA
  have w3 := mul_le_mul_of_nonneg_left w2 hu
  have w4 := mul_le_mul_of_nonneg_left m2 hu
  have hsA : 0 ≤ s * |a| := mul_nonneg hs.1 hA
  have htA : 0 ≤ t * |a| := mul_nonneg h0 hA
  have uA : 0 ≤ u * |a| := mul_nonneg hu hA
  have uP : 0 ≤ u * P := mul_nonneg hu (hP0.trans hP)
  have vA : u * |a| ≤ 1 / 1024 * |a| := mul_le_mul_of_nonneg_right hu1 hA
  have vP : u * P ≤ 1 / 1024 * P := mul_le_mul_of_nonneg_right hu1 (hP0.trans hP)
  have w5 : |X + Y| ≤ 17 / 16 * |a| + 17 / 16 * P := by
    have k1 : |X + Y| ≤ |X - s * a| + |Y - t * b| + (|s * a| + |t * b|) := by
      have : X + Y = (X - s * a) + (Y - t * b) + (s * a + t * b) := by ring
      rw [this]
      exact (abs_add_le _ _).trans (add_le_add (abs_add_le _ _) (abs_add_le _ _))
    linarith
  have w6 := mul_le_mul_of_nonneg_left w5 hu
  have k : Z - ((1 - t) * a + t * b) = (Z - (X + Y)) + (X - s * a) + (Y - t * b) + (s - (1 - t)) * a := by ring
  rw [k]
  have k2 := abs_add_le ((Z - (X + Y)) + (X - s * a) + (Y - t * b)) ((s - (1 - t)) * a)
  have k3 := abs_add_le ((Z - (X + Y)) + (X - s * a)) (Y - t * b)
  have k4 := abs_add_le (Z - (X + Y)) (X - s * a)
  linarith

/-- Between two `float32` entries the rounded interpolation does not fall, if the two weights are the same or well apart. -/
theorem lerpF_order {t1 t2 a b : K} (ha : Spec.IsSingle a) (hb : Spec.IsSingle b) (hab : a ≤ b) (h0 : 0 ≤ t1) (h1 : t2 ≤ 1)
    (h12 : t1 ≤ t2) (hsp : t1 = t2 ∨ 15 / 16 / 2 ^ 24 * t2 ≤ t2 - t1) :
    single.near (lerpF t1 a b) ≤ single.near (lerpF t2 a b) := by
  rcases hsp with rfl | hsp
  · exact le_rfl
  rcases eq_or_ne a 0 with rfl | hz
  · refine Fmt.near_mono _ ?_
    unfold lerpF
    refine Fmt.near_mono _ ?_
    rw [mul_zero, mul_zero]
    exact add_le_add le_rfl (Fmt.near_mono _ (mul_le_mul_of_nonneg_right h12 hab))
  by_contra hc
  rw [not_le] at hc
  have hlt : lerpF t2 a b < lerpF t1 a b := by
    by_contra hn
    exact absurd (Fmt.near_mono single (not_lt.mp hn)) (not_le.mpr hc)
  have hd : 0 ≤ b - a := by linarith
  have lo := le_lerpF (h0.trans h12) h1 ha le_rfl (by norm_num) (show a - 0 * (1 / 2 ^ 53 * |a|) ≤ a by linarith)
    (show a - 0 * (1 / 2 ^ 53 * |a|) ≤ b by linarith)
  have hA := abs_nonneg a
  have lo' : a ≤ single.near (lerpF t2 a b) := by
    refine Fmt.le_near_of single ha.near ?_
    rw [show single.mant + 3 = 26 from rfl]
    refine le_trans ?_ lo
    norm_num
    linarith
  have hi : a + |a| / 2 ^ 26 < lerpF t1 a b := by
    by_contra hn
    have := Fmt.near_le_of single ha.near (show lerpF t1 a b ≤ a + |a| / 2 ^ (single.mant + 3) from not_lt.mp hn)
    linarith
  have hm : t1 * (b - a) ≤ t2 * (b - a) := mul_le_mul_of_nonneg_right h12 hd
  have g1 := (abs_le.mp (lerpF_tight ha hz hab h0 (h12.trans h1) hm)).2
  have g2 := (abs_le.mp (lerpF_tight ha hz hab (h0.trans h12) h1 le_rfl)).1
  have g3 := mul_le_mul_of_nonneg_right hsp hd
  rw [sub_mul, mul_assoc] at g3
  have hP := mul_nonneg (h0.trans h12) hd
  generalize t2 * (b - a) = P at *
  generalize t1 * (b - a) = Q at *
  generalize |a| = A at *
  norm_num at g1 g2 g3 hi
  linarith

/-- Positions of different `float32` numbers in the same cell of a table are well apart. -/
theorem posF_apart {m : ℕ} (hm0 : 0 < m) {p q k : K} (hp : Spec.IsSingle p) (hq : Spec.IsSingle q) (h0 : 0 ≤ p) (h : p < q) (hk : 0 ≤ k)
    (h1 : k ≤ posF m p) :
    15 / 16 / 2 ^ 24 * double.near (posF m q - k) ≤ double.near (posF m q - k) - double.near (posF m p - k) := by
  have hm1 : (1 : K) ≤ m := by exact_mod_cast hm0
  have hg := single_apart hp hq h0 h
  have hq0 : 0 < q := h0.trans_lt h
  have hη := hq.eta_small.resolve_left hq0.ne'
  rw [abs_of_pos hq0] at hη
  have hQ : q ≤ q * m := le_mul_of_one_le_right hq0.le hm1
  have hT : posF m p ≤ posF m q := Fmt.near_mono _ (mul_le_mul_of_nonneg_right h.le (by linarith))
  have e1 := double_rounder.err (p * m)
  have e2 := double_rounder.err (q * m)
  have e3 := double_rounder.err (posF m p - k)
  have e4 := double_rounder.err (posF m q - k)
  rw [abs_of_nonneg (show 0 ≤ p * m by positivity)] at e1
  rw [abs_of_nonneg (show 0 ≤ q * m by positivity)] at e2
  rw [abs_of_nonneg (show 0 ≤ posF m p - k by linarith)] at e3
  rw [abs_of_nonneg (show 0 ≤ posF m q - k by linarith)] at e4
  have hg' := mul_le_mul_of_nonneg_right hg (show (0 : K) ≤ m by linarith)
  rw [sub_mul, div_mul_eq_mul_div] at hg'
  change |posF m p - p * m| ≤ _ at e1
  change |posF m q - q * m| ≤ _ at e2
  have hpm : 0 ≤ p * m := by positivity
  generalize double.near (posF m p - k) = t1 at *
  generalize double.near (posF m q - k) = t2 at *
  generalize posF m p = T1 at *
  generalize posF m q = T2 at *
  generalize p * m = X at *
  generalize q * m = Y at *
  generalize (2 : K) ^ (-1075 : ℤ) = η at *
  rw [abs_le] at e1 e2 e3 e4
  norm_num at e1 e2 e3 e4 hη hg' ⊢
  linarith [e1.1, e1.2, e2.1, e2.2, e3.1, e3.2, e4.1, e4.2]

/-- A rising table is looked up in order. -/
theorem rowF_order {m : ℕ} (hm0 : 0 < m) (f : Fin (m + 1) → K) (hf : ∀ i, Spec.IsSingle (f i)) (hmono : Monotone f) {p q : K}
    (hp : Spec.IsSingle p) (hq : Spec.IsSingle q) (h : p ≤ q) :
    single.near (rowF f (posF m p)) ≤ single.near (rowF f (posF m q)) := by
  rcases h.eq_or_lt with rfl | h
  · exact le_rfl
  have hm' : (0 : K) < m := Nat.cast_pos.mpr hm0
  have hT : posF m p ≤ posF m q := Fmt.near_mono _ (mul_le_mul_of_nonneg_right h.le hm'.le)
  have cm : ∀ {i j : ℤ}, i ≤ j → f (clampRow m i) ≤ f (clampRow m j) := by
    intro i j hij
    refine hmono ?_
    rw [Fin.le_def]
    simp only [clampRow]
    omega
  rcases le_or_gt ⌈posF m p⌉ ⌊posF m q⌋ with hc | hc
  · -- different cells
    have a1 := (rowF_mem f (posF m p) _ _ (hf (clampRow m ⌊posF m p⌋)) (hf (clampRow m ⌈posF m p⌉)) ⟨le_rfl, cm (Int.floor_le_ceil _)⟩
      ⟨cm (Int.floor_le_ceil _), le_rfl⟩).2.2
    have a2 := (rowF_mem f (posF m q) _ _ (hf (clampRow m ⌊posF m q⌋)) (hf (clampRow m ⌈posF m q⌉)) ⟨le_rfl, cm (Int.floor_le_ceil _)⟩
      ⟨cm (Int.floor_le_ceil _), le_rfl⟩).2.1
    exact a1.trans ((cm hc).trans a2)
  · have f1 : ⌊posF m p⌋ = ⌊posF m q⌋ := by
      have := Int.floor_le_floor hT
      have := Int.ceil_le_floor_add_one (posF m p)
      omega
    have f2 : ⌈posF m p⌉ = ⌈posF m q⌉ := by
      have := Int.ceil_le_ceil hT
      have := Int.ceil_le_floor_add_one (posF m q)
      omega
    rcases lt_or_ge ⌊posF m q⌋ 0 with hk | hk
    · -- below the table
      have e1 : ∀ j : ℤ, j ≤ 0 → f (clampRow m j) = f (clampRow m 0) := by
        intro j hj
        congr 1
        ext
        simp only [clampRow]
        omega
      have hce : ⌈posF m q⌉ ≤ 0 := by
        have := Int.ceil_le_floor_add_one (posF m q)
        omega
      have a1 := (rowF_mem f (posF m p) _ _ (hf (clampRow m 0)) (hf (clampRow m 0)) ⟨(e1 _ (by omega)).ge, (e1 _ (by omega)).le⟩
        ⟨(e1 _ (by omega)).ge, (e1 _ (by omega)).le⟩).2.2
      have a2 := (rowF_mem f (posF m q) _ _ (hf (clampRow m 0)) (hf (clampRow m 0)) ⟨(e1 _ (by omega)).ge, (e1 _ (by omega)).le⟩
        ⟨(e1 _ (by omega)).ge, (e1 _ (by omega)).le⟩).2.1
      exact a1.trans a2
    · have hk' : (0 : K) ≤ (⌊posF m q⌋ : K) := by exact_mod_cast hk
      have hT1 : (⌊posF m q⌋ : K) ≤ posF m p := by rw [← f1]; exact Int.floor_le _
      have hpos : 0 ≤ p := by
        by_contra hn
        have h1 : posF m p ≤ 0 := double_rounder.nonpos (mul_nonpos_of_nonpos_of_nonneg (not_le.mp hn).le hm'.le)
        have h2 : ⌈posF m p⌉ ≤ 0 := Int.ceil_le.mpr (by simpa using h1)
        omega
      have key := posF_apart hm0 hp hq hpos h hk' hT1
      obtain ⟨_, g2, g3⟩ := fract_fin (T := posF m p)
      obtain ⟨_, g5, g6⟩ := fract_fin (T := posF m q)
      unfold rowF
      rw [f1, f2]
      rw [f1] at g2 g3
      exact lerpF_order (hf _) (hf _) (cm (Int.floor_le_ceil _)) g2 g6 (Fmt.near_mono _ (sub_le_sub_right hT _)) (.inr key)

end CLF
