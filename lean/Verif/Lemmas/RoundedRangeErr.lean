import Verif.Props.RoundedRange

/-! # Errors of the Range node in IEEE arithmetic -/

set_option linter.unusedSectionVars false

namespace CLF

variable {K : Type} [Field K] [LinearOrder K] [IsStrictOrderedRing K] [FloorRing K]

/-- `y` is the nonnegative number `x` up to a relative error. -/
def Rel (ε y x : K) : Prop := |y - x| ≤ ε * x

theorem rel_self {ε x : K} (h0 : 0 ≤ ε) (hx : 0 ≤ x) : Rel ε x x := by
  unfold Rel; rw [sub_self, abs_zero]; positivity

theorem Rel.mono {ε δ y x : K} (h : Rel ε y x) (hx : 0 ≤ x) (hε : ε ≤ δ) : Rel δ y x :=
  le_trans h (mul_le_mul_of_nonneg_right hε hx)

theorem Rel.trans {ε δ z y x : K} (h : Rel ε z y) (h' : Rel δ y x) (hε : 0 ≤ ε) : Rel (ε + δ + ε * δ) z x := by
  unfold Rel at *
  have h1 := abs_sub_le z y x
  have h2 : y ≤ x + δ * x := by have := (abs_le.mp h').2; linarith
  have h3 := mul_le_mul_of_nonneg_left h2 hε
  have e : (ε + δ + ε * δ) * x = ε * (x + δ * x) + δ * x := by ring
  rw [e]
  linarith

theorem Rel.mul {ε δ y x y' x' : K} (h : Rel ε y x) (h' : Rel δ y' x') (hx : 0 ≤ x) (hx' : 0 ≤ x') (hε : 0 ≤ ε) (hδ : 0 ≤ δ) :
    Rel (ε + δ + ε * δ) (y * y') (x * x') := by
  unfold Rel at *
  have e : y * y' - x * x' = (y - x) * (y' - x') + (y - x) * x' + x * (y' - x') := by ring
  rw [e]
  refine (abs_add_le _ _).trans ((add_le_add_left (abs_add_le _ _) _).trans ?_)
  rw [abs_mul, abs_mul, abs_mul, abs_of_nonneg hx, abs_of_nonneg hx']
  have h1 := mul_le_mul h h' (abs_nonneg _) (by positivity)
  have h2 := mul_le_mul_of_nonneg_right h hx'
  have h3 := mul_le_mul_of_nonneg_left h' hx
  have e : (ε + δ + ε * δ) * (x * x') = ε * x * (δ * x') + ε * x * x' + x * (δ * x') := by ring
  rw [e]
  linarith

theorem Rel.div {ε y x y' x' : K} (h : Rel ε y x) (h' : Rel ε y' x') (hx : 0 ≤ x) (hx' : 0 < x') (hε : 0 ≤ ε) (hε1 : ε ≤ 1 / 4) :
    Rel (3 * ε) (y / y') (x / x') := by
  unfold Rel at *
  have hy' : 3 / 4 * x' ≤ y' := by
    have := (abs_le.mp h').1
    have := mul_le_mul_of_nonneg_right hε1 hx'.le
    linarith
  have hy0 : 0 < y' := lt_of_lt_of_le (by positivity) hy'
  have e : y / y' - x / x' = ((y - x) * x' - x * (y' - x')) / (y' * x') := by
    field_simp
    ring
  rw [e, abs_div, abs_of_pos (mul_pos hy0 hx'), div_le_iff₀ (mul_pos hy0 hx')]
  refine (abs_sub _ _).trans ?_
  rw [abs_mul, abs_mul, abs_of_nonneg hx, abs_of_pos hx']
  have h2 := mul_le_mul_of_nonneg_right h hx'.le
  have h3 := mul_le_mul_of_nonneg_left h' hx
  have e2 : 3 * ε * (x / x') * (y' * x') = 3 * ε * x * y' := by field_simp
  rw [e2]
  have h4 := mul_le_mul_of_nonneg_left hy' (show 0 ≤ 3 * ε * x by positivity)
  have h5 : 0 ≤ ε * x * x' := by positivity
  have e3 : x * (ε * x') = ε * x * x' := by ring
  linarith

/-- Rounding to `float64`, away from zero. -/
theorem double_rel {z : K} (hz : 0 ≤ z) (h : z = 0 ∨ (2 : K) ^ (-900 : ℤ) ≤ z) : Rel (1 / 2 ^ 52) (double.near z) z := by
  unfold Rel
  rcases h with rfl | h
  · rw [double_rounder.zero, sub_self, abs_zero, mul_zero]
  · have h1 := double_rounder.err z
    rw [abs_of_nonneg hz] at h1
    have h2 : (2 : K) ^ (-1075 : ℤ) ≤ 1 / 2 ^ 53 * 2 ^ (-900 : ℤ) := by
      rw [one_div, ← zpow_natCast, ← zpow_neg, ← zpow_add₀ two_ne_zero]
      exact zpow_le_zpow_right₀ one_le_two (by norm_num)
    generalize (2 : K) ^ (-1075 : ℤ) = η at *
    generalize (2 : K) ^ (-900 : ℤ) = μ at *
    generalize |double.near z - z| = t at *
    norm_num at *
    linarith

/-- Numbers of pixels on the unit scale. -/
theorem pixel_rel {d : AVal} {v : K} (h : Spec.PixelNumber d v) (h0 : 0 ≤ v) :
    Rel (1 / 2 ^ 52) (boundF d v) (v / Spec.fullScale (some d)) ∧
      Rel (5 / 4 * (1 / 2 ^ 24)) (unitF d v) (v / Spec.fullScale (some d)) ∧
      (v / Spec.fullScale (some d) = 0 ∨ (2 : K) ^ (-149 : ℤ) ≤ v / Spec.fullScale (some d)) ∧
      v / Spec.fullScale (some d) < 2 ^ 128 := by
  have hpos : (0 : K) < Spec.fullScale (some d) := fullScale_pos _
  have hv0 : 0 ≤ v / Spec.fullScale (some d) := div_nonneg h0 hpos.le
  have hlt : v / Spec.fullScale (some d) < 2 ^ 128 := by
    have := unit_lt (some d) h.single.lt
    rwa [abs_of_nonneg hv0] at this
  rcases h with ⟨n, k, hd, hk, rfl⟩ | ⟨hd, hs⟩
  · obtain ⟨hS, hn⟩ := fullScale_bits (K := K) hd
    obtain ⟨p, hp, -, -, -, -, -, herr⟩ := unit_pos (some d) (x := (k : K)) (isSingle_nat (by
      have : 2 ^ n ≤ 2 ^ 16 := Nat.pow_le_pow_right (by norm_num) (by omega)
      omega))
    rw [(unitR_eq d (isSingle_nat (by
      have : 2 ^ n ≤ 2 ^ 16 := Nat.pow_le_pow_right (by norm_num) (by omega)
      omega))).1] at hp
    rw [← Flt.fin.inj hp, abs_of_nonneg hv0] at herr
    rcases Nat.eq_zero_or_pos k with rfl | hpos'
    · refine ⟨?_, ?_, .inl (by simp), hlt⟩
      · simp [Rel, boundF, double_rounder.zero]
      · simp [Rel, unitF, double_rounder.zero, single_rounder.zero]
    · have hbig : (1 : K) / 2 ^ 16 ≤ (k : K) / Spec.fullScale (some d) := by
        rw [hS]
        have hpow : (2 : K) ^ n ≤ 2 ^ 16 := pow_le_pow_right₀ one_le_two (by omega)
        have h1 : (1 : K) ≤ k := by exact_mod_cast hpos'
        exact div_le_div₀ (by linarith) h1 (by rw [← hS]; exact hpos) (by linarith)
      have hq : (2 : K) ^ (-149 : ℤ) ≤ 1 / 2 ^ 16 := by
        rw [one_div, ← zpow_natCast, ← zpow_neg]
        exact zpow_le_zpow_right₀ one_le_two (by norm_num)
      refine ⟨double_rel hv0 (.inr (le_trans ?_ hbig)), ?_, .inr (hq.trans hbig), hlt⟩
      · rw [one_div, ← zpow_natCast, ← zpow_neg]
        exact zpow_le_zpow_right₀ one_le_two (by norm_num)
      · have h148 : (2 : K) ^ (-148 : ℤ) ≤ 1 / 2 ^ 16 * (1 / 2 ^ 30) := by
          rw [one_div, one_div, ← zpow_natCast, ← zpow_natCast, ← zpow_neg, ← zpow_neg, ← zpow_add₀ two_ne_zero]
          exact zpow_le_zpow_right₀ one_le_two (by norm_num)
        unfold Rel
        refine herr.trans ?_
        generalize (2 : K) ^ (-148 : ℤ) = μ at *
        generalize (k : K) / Spec.fullScale (some d) = q at *
        norm_num at *
        linarith
  · have hb : boundF d v = v / Spec.fullScale (some d) := by
      rw [boundF, fullScale_none hd, div_one, hs.double]
    have hu : unitF d v = v / Spec.fullScale (some d) := by
      rw [unitF, fullScale_none hd, div_one, hs.double, hs.near]
    rw [hb, hu]
    refine ⟨rel_self (by positivity) hv0, rel_self (by positivity) hv0, ?_, hlt⟩
    rw [fullScale_none hd, div_one]
    have := hs.big
    rwa [abs_of_nonneg h0] at this

/-- Widths. -/
theorem width_rel {d : AVal} {a b : K} (ha : Spec.PixelNumber d a) (hb : Spec.PixelNumber d b) (h0 : 0 ≤ a) (hab : a ≤ b) :
    Rel (1 / 2 ^ 34) (double.near (boundF d b - boundF d a)) ((b - a) / Spec.fullScale (some d)) ∧
      ((b - a) / Spec.fullScale (some d) = 0 ∨ (2 : K) ^ (-149 : ℤ) ≤ (b - a) / Spec.fullScale (some d)) := by
  rcases hab.eq_or_lt with rfl | hlt
  · simp [Rel, double_rounder.zero]
  have hpos : (0 : K) < Spec.fullScale (some d) := fullScale_pos _
  have hw0 : 0 ≤ (b - a) / Spec.fullScale (some d) := div_nonneg (sub_nonneg.mpr hab) hpos.le
  have key : ∀ w : K, Rel (1 / 2 ^ 35) w ((b - a) / Spec.fullScale (some d)) →
      (2 : K) ^ (-149 : ℤ) ≤ (b - a) / Spec.fullScale (some d) →
      Rel (1 / 2 ^ 34) (double.near w) ((b - a) / Spec.fullScale (some d)) ∧
      ((b - a) / Spec.fullScale (some d) = 0 ∨ (2 : K) ^ (-149 : ℤ) ≤ (b - a) / Spec.fullScale (some d)) := by
    intro w hw h149
    have hw1 : (2 : K) ^ (-900 : ℤ) ≤ w := by
      have h1 : (2 : K) ^ (-900 : ℤ) ≤ 1 / 2 * 2 ^ (-149 : ℤ) := by
        rw [show (1 / 2 : K) = 2 ^ (-1 : ℤ) by norm_num, ← zpow_add₀ two_ne_zero]
        exact zpow_le_zpow_right₀ one_le_two (by norm_num)
      have h2 := (abs_le.mp hw).1
      generalize (2 : K) ^ (-900 : ℤ) = η at *
      generalize (2 : K) ^ (-149 : ℤ) = μ at *
      generalize (b - a) / Spec.fullScale (some d) = q at *
      norm_num at *
      linarith
    have hw2 : 0 ≤ w := (two_zpow_pos (K := K) (-900)).le.trans hw1
    exact ⟨((double_rel hw2 (.inr hw1)).trans hw (by positivity)).mono hw0 (by norm_num), .inr h149⟩
  by_cases hbits : Spec.bits (some d) = none
  · have hba : boundF d b - boundF d a = (b - a) / Spec.fullScale (some d) := by
      rw [boundF, boundF, fullScale_none hbits, div_one, div_one, div_one, hb.single.double, ha.single.double]
    refine key _ (by rw [hba]; exact rel_self (by positivity) hw0) ?_
    rw [fullScale_none hbits, div_one]
    obtain ⟨k, hk⟩ := ha.single.mul_eta
    obtain ⟨l, hl⟩ := hb.single.mul_eta
    have hμ := two_zpow_pos (K := K) (-149)
    rw [hk, hl] at hlt ⊢
    have hkl : k < l := by
      have := lt_of_mul_lt_mul_right hlt hμ.le
      exact_mod_cast this
    have : (1 : K) ≤ (l : K) - k := by
      have : (k : K) + 1 ≤ l := by exact_mod_cast hkl
      linarith
    rw [← sub_mul]
    exact le_mul_of_one_le_left hμ.le this
  · obtain ⟨ra, -, -, -⟩ := pixel_rel ha h0
    obtain ⟨rb, -, -, -⟩ := pixel_rel hb (h0.trans hab)
    rcases ha with ⟨n, k, hd, hk, rfl⟩ | ⟨hd, -⟩
    · rcases hb with ⟨n', k', hd', hk', rfl⟩ | ⟨hd', -⟩
      · obtain ⟨hS, hn⟩ := fullScale_bits (K := K) hd
        obtain ⟨hS', -⟩ := fullScale_bits (K := K) hd'
        have hpow : (2 : K) ^ n ≤ 2 ^ 16 := pow_le_pow_right₀ one_le_two (by omega)
        have h1 : (1 : K) ≤ (k' : K) - k := by
          have : k < k' := by exact_mod_cast hlt
          have : (k : K) + 1 ≤ k' := by exact_mod_cast this
          linarith
        have hwid : (1 : K) / 2 ^ 16 ≤ ((k' : K) - k) / Spec.fullScale (some d) := by
          rw [hS] at hpos ⊢
          exact div_le_div₀ (by linarith) h1 hpos (by linarith)
        have hle1 : (k' : K) / Spec.fullScale (some d) ≤ 1 := by
          rw [div_le_one hpos, hS']
          have : ((k' + 1 : ℕ) : K) ≤ ((2 ^ n' : ℕ) : K) := by exact_mod_cast hk'
          push_cast at this
          linarith
        have hle2 : (k : K) / Spec.fullScale (some d) ≤ (k' : K) / Spec.fullScale (some d) :=
          div_le_div_of_nonneg_right hab hpos.le
        have hq : (2 : K) ^ (-149 : ℤ) ≤ 1 / 2 ^ 16 := by
          rw [one_div, ← zpow_natCast, ← zpow_neg]
          exact zpow_le_zpow_right₀ one_le_two (by norm_num)
        refine key _ ?_ (hq.trans hwid)
        unfold Rel at *
        have e : boundF d (k' : K) - boundF d (k : K) - ((k' : K) - k) / Spec.fullScale (some d)
            = (boundF d (k' : K) - k' / Spec.fullScale (some d)) - (boundF d (k : K) - k / Spec.fullScale (some d)) := by
          rw [sub_div]; ring
        rw [e]
        refine (abs_sub _ _).trans ((add_le_add rb ra).trans ?_)
        generalize (k : K) / Spec.fullScale (some d) = x1 at *
        generalize (k' : K) / Spec.fullScale (some d) = x2 at *
        generalize ((k' : K) - k) / Spec.fullScale (some d) = w at *
        norm_num at *
        linarith
      · exact absurd hd' hbits
    · exact absurd hd hbits

/-- The scale. -/
theorem scale_rel {din dout : AVal} {mi ma mo mx : K} (hb : Spec.Bounds din dout mi ma mo mx) (hi : 0 ≤ mi) (ho : 0 ≤ mo) :
    Rel (1 / 2 ^ 32) (scaleF (boundF din mi) (boundF din ma) (boundF dout mo) (boundF dout mx))
      ((mx - mo) / Spec.fullScale (some dout) / ((ma - mi) / Spec.fullScale (some din))) ∧
    ((mx - mo) / Spec.fullScale (some dout) / ((ma - mi) / Spec.fullScale (some din)) = 0 ∨
      (2 : K) ^ (-280 : ℤ) ≤ (mx - mo) / Spec.fullScale (some dout) / ((ma - mi) / Spec.fullScale (some din))) := by
  obtain ⟨r1, h1⟩ := width_rel hb.minIn hb.maxIn hi hb.lt.le
  obtain ⟨r2, h2⟩ := width_rel hb.minOut hb.maxOut ho hb.le
  have hw : 0 < (ma - mi) / Spec.fullScale (some din) := div_pos (sub_pos.mpr hb.lt) (fullScale_pos _)
  have hh : 0 ≤ (mx - mo) / Spec.fullScale (some dout) := div_nonneg (sub_nonneg.mpr hb.le) (fullScale_pos _).le
  have hw2 : (ma - mi) / Spec.fullScale (some din) ≤ 2 ^ 128 := by
    have := (pixel_rel hb.maxIn (hi.trans hb.lt.le)).2.2.2
    refine le_trans ?_ this.le
    exact div_le_div_of_nonneg_right (by linarith) (fullScale_pos _).le
  have r3 := r2.div r1 hh hw (by positivity) (by norm_num)
  have hσ0 : 0 ≤ (mx - mo) / Spec.fullScale (some dout) / ((ma - mi) / Spec.fullScale (some din)) := div_nonneg hh hw.le
  have h3 : (mx - mo) / Spec.fullScale (some dout) / ((ma - mi) / Spec.fullScale (some din)) = 0 ∨
      (2 : K) ^ (-280 : ℤ) ≤ (mx - mo) / Spec.fullScale (some dout) / ((ma - mi) / Spec.fullScale (some din)) := by
    refine h2.imp (fun h => by rw [h, zero_div]) fun h => ?_
    rw [le_div_iff₀ hw]
    refine le_trans (mul_le_mul_of_nonneg_left hw2 (two_zpow_pos _).le) (le_trans ?_ h)
    rw [← zpow_natCast, ← zpow_add₀ two_ne_zero]
    exact zpow_le_zpow_right₀ one_le_two (by norm_num)
  refine ⟨?_, h3⟩
  unfold scaleF
  set q := double.near (boundF dout mx - boundF dout mo) / double.near (boundF din ma - boundF din mi) with hq
  generalize (mx - mo) / Spec.fullScale (some dout) / ((ma - mi) / Spec.fullScale (some din)) = σ at *
  clear_value q
  have hq0 : q = 0 ∨ (2 : K) ^ (-900 : ℤ) ≤ q := by
    rcases h3 with rfl | h3
    · left
      unfold Rel at r3
      rw [mul_zero, sub_zero] at r3
      exact abs_nonpos_iff.mp r3
    · right
      have h4 : (2 : K) ^ (-900 : ℤ) ≤ 1 / 2 * 2 ^ (-280 : ℤ) := by
        rw [show (1 / 2 : K) = 2 ^ (-1 : ℤ) by norm_num, ← zpow_add₀ two_ne_zero]
        exact zpow_le_zpow_right₀ one_le_two (by norm_num)
      have h5 := (abs_le.mp r3).1
      generalize (2 : K) ^ (-900 : ℤ) = η at *
      generalize (2 : K) ^ (-280 : ℤ) = μ at *
      norm_num at *
      linarith
  have hq1 : 0 ≤ q := by
    rcases hq0 with rfl | h
    · exact le_rfl
    · exact (two_zpow_pos (K := K) (-900)).le.trans h
  exact ((double_rel hq1 hq0).trans r3 (by positivity)).mono hσ0 (by norm_num)

/-- Products with the scale. -/
theorem prod_rel {ε y x sc σ : K} (h : Rel ε y x) (hx : 0 ≤ x) (hx1 : x = 0 ∨ (2 : K) ^ (-149 : ℤ) ≤ x)
    (hs : Rel (1 / 2 ^ 32) sc σ) (hσ : 0 ≤ σ) (hσ1 : σ = 0 ∨ (2 : K) ^ (-280 : ℤ) ≤ σ) (hε : 0 ≤ ε) (hε1 : ε ≤ 1 / 4) :
    Rel (ε + 1 / 2 ^ 31) (double.near (y * sc)) (x * σ) := by
  have hm := h.mul hs hx hσ hε (by positivity)
  have hxσ : 0 ≤ x * σ := mul_nonneg hx hσ
  have hz : y * sc = 0 ∨ (2 : K) ^ (-900 : ℤ) ≤ y * sc := by
    have hcase : x * σ = 0 ∨ (2 : K) ^ (-429 : ℤ) ≤ x * σ := by
      rcases hx1 with rfl | h1
      · left; simp
      rcases hσ1 with rfl | h2
      · left; simp
      right
      have := mul_le_mul h1 h2 (two_zpow_pos _).le hx
      rwa [← zpow_add₀ two_ne_zero] at this
    rcases hcase with h0 | h1
    · left
      unfold Rel at hm
      rw [h0, mul_zero, sub_zero] at hm
      exact abs_nonpos_iff.mp hm
    · right
      have h4 : (2 : K) ^ (-900 : ℤ) ≤ 1 / 4 * 2 ^ (-429 : ℤ) := by
        rw [show (1 / 4 : K) = 2 ^ (-2 : ℤ) by norm_num, ← zpow_add₀ two_ne_zero]
        exact zpow_le_zpow_right₀ one_le_two (by norm_num)
      have h5 := (abs_le.mp hm).1
      have h6 : (ε + 1 / 2 ^ 32 + ε * (1 / 2 ^ 32)) * (x * σ) ≤ 1 / 2 * (x * σ) := by
        refine mul_le_mul_of_nonneg_right ?_ hxσ
        norm_num
        linarith
      generalize (2 : K) ^ (-900 : ℤ) = η at *
      generalize (2 : K) ^ (-429 : ℤ) = μ at *
      linarith
  have hz0 : 0 ≤ y * sc := by
    rcases hz with h | h
    · exact h.ge
    · exact (two_zpow_pos (K := K) (-900)).le.trans h
  refine ((double_rel hz0 hz).trans hm (by positivity)).mono hxσ ?_
  norm_num
  linarith

/-- Back from the unit scale. -/
theorem back_err {P D T S z : K} (hP : 0 ≤ P) (hD : 0 ≤ D) (hS : 0 < S)
    (hz1 : |z - T| ≤ 5 * (1 / 2 ^ 24) * (P + 2 * D) + 4 * 2 ^ (-150 : ℤ)) (hz2 : |z| ≤ 2 * (P + D) + 2 ^ (-148 : ℤ)) :
    |single.near (double.near (z * S)) - T * S| ≤ (P + D) * S / 2 ^ 20 + (S + 1) * 2 ^ (-146 : ℤ) := by
  have e146 : (2 : K) ^ (-146 : ℤ) = 16 * 2 ^ (-150 : ℤ) := by
    rw [show (16 : K) = 2 ^ (4 : ℤ) by norm_num, ← zpow_add₀ two_ne_zero]
    norm_num
  have eη : (2 : K) ^ (-1075 : ℤ) ≤ 1 / 2 ^ 10 * 2 ^ (-150 : ℤ) := by
    rw [one_div, ← zpow_natCast, ← zpow_neg, ← zpow_add₀ two_ne_zero]
    exact zpow_le_zpow_right₀ one_le_two (by norm_num)
  have hη0 : (0 : K) ≤ 2 ^ (-1075 : ℤ) := (two_zpow_pos _).le
  have hμ0 : (0 : K) ≤ 2 ^ (-150 : ℤ) := (two_zpow_pos _).le
  rw [e146]
  have ew := double_rounder.err (z * S)
  have eo := single_rounder.err (double.near (z * S))
  have e148 : (2 : K) ^ (-148 : ℤ) = 4 * 2 ^ (-150 : ℤ) := by
    rw [show (4 : K) = 2 ^ (2 : ℤ) by norm_num, ← zpow_add₀ two_ne_zero]
    norm_num
  rw [e148] at hz2
  rw [abs_mul, abs_of_pos hS] at ew
  have k1 : |z * S - T * S| ≤ 5 * (1 / 2 ^ 24) * (P * S + 2 * (D * S)) + 4 * (2 ^ (-150 : ℤ) * S) := by
    rw [← sub_mul, abs_mul, abs_of_pos hS]
    refine (mul_le_mul_of_nonneg_right hz1 hS.le).trans_eq ?_
    ring
  have k2 : |z| * S ≤ 2 * (P * S + D * S) + 4 * (2 ^ (-150 : ℤ) * S) := by
    refine (mul_le_mul_of_nonneg_right hz2 hS.le).trans_eq ?_
    ring
  have e5 : (P + D) * S / 2 ^ 20 + (S + 1) * (16 * 2 ^ (-150 : ℤ))
      = (P * S + D * S) / 2 ^ 20 + 16 * (2 ^ (-150 : ℤ) * S) + 16 * 2 ^ (-150 : ℤ) := by ring
  rw [e5]
  have hPS : 0 ≤ P * S := by positivity
  have hDS : 0 ≤ D * S := by positivity
  have hμS : 0 ≤ 2 ^ (-150 : ℤ) * S := by positivity
  have hzS : 0 ≤ |z| * S := by positivity
  have kw : |double.near (z * S)| ≤ 3 * (P * S + D * S) + 5 * (2 ^ (-150 : ℤ) * S) + 2 ^ (-150 : ℤ) := by
    have a := abs_add_le (double.near (z * S) - z * S) (z * S)
    rw [sub_add_cancel, abs_mul, abs_of_pos hS] at a
    generalize |z| * S = t at *
    generalize |double.near (z * S)| = t2 at *
    generalize |double.near (z * S) - z * S| = t3 at *
    generalize (2 : K) ^ (-150 : ℤ) * S = μS at *
    generalize (2 : K) ^ (-1075 : ℤ) = η at *
    generalize (2 : K) ^ (-150 : ℤ) = μ at *
    norm_num at ew k2 eη
    linarith
  have a1 := abs_le.mp k1
  have a2 := abs_le.mp ew
  have a3 := abs_le.mp eo
  generalize T * S = TS at *
  generalize |z| * S = t at *
  generalize |double.near (z * S)| = t2 at *
  generalize single.near (double.near (z * S)) = o at *
  generalize double.near (z * S) = w at *
  generalize z * S = zS at *
  generalize (2 : K) ^ (-150 : ℤ) * S = μS at *
  generalize (2 : K) ^ (-1075 : ℤ) = η at *
  generalize (2 : K) ^ (-150 : ℤ) = μ at *
  rw [abs_le]
  clear hz1 hz2
  generalize P * S = PS at *
  generalize D * S = DS at *
  norm_num at a1 a2 a3 k2 kw eη ⊢
  constructor <;> linarith [a1.1, a1.2, a2.1, a2.2, a3.1, a3.2]

/-- The whole computation, on the unit scale and back: `P = X σ`, `Q = A σ`. -/
theorem range_err {P Q C D S p m c d s g : K} (hP : 0 ≤ P) (hQ : 0 ≤ Q) (hQP : Q ≤ P) (hC : 0 ≤ C) (hS : 0 < S)
    (hT : P - Q + C ≤ D) (hp : Rel (3 / 2 * (1 / 2 ^ 24)) p P) (hm : Rel (1 / 2 ^ 30) m Q)
    (hc : Rel (1 / 2 ^ 52) c C) (hd : Rel (1 / 2 ^ 52) d D) (hs : s = double.near (p + c)) (hg : g = double.near (s - m)) :
    |single.near (double.near (single.near (min d (max c (single.near g))) * S)) - (P - Q + C) * S|
      ≤ (P + D) * S / 2 ^ 20 + (S + 1) * 2 ^ (-146 : ℤ) := by
  have es := double_rounder.err (p + c)
  have eg := double_rounder.err (s - m)
  have eG := single_rounder.err g
  rw [← hs] at es
  rw [← hg] at eg
  have eη : (2 : K) ^ (-1075 : ℤ) ≤ 1 / 2 ^ 10 * 2 ^ (-150 : ℤ) := by
    rw [one_div, ← zpow_natCast, ← zpow_neg, ← zpow_add₀ two_ne_zero]
    exact zpow_le_zpow_right₀ one_le_two (by norm_num)
  have hη0 : (0 : K) ≤ 2 ^ (-1075 : ℤ) := (two_zpow_pos _).le
  have hμ0 : (0 : K) ≤ 2 ^ (-150 : ℤ) := (two_zpow_pos _).le
  unfold Rel at hp hm hc hd
  have hD : 0 ≤ D := by linarith
  have hT0 : 0 ≤ P - Q + C := by linarith
  -- the map
  have hpc : |p + c| ≤ 2 * (P + C) := by
    have a1 := abs_le.mp hp
    have a2 := abs_le.mp hc
    rw [abs_le]
    norm_num at a1 a2
    constructor <;> linarith [a1.1, a1.2, a2.1, a2.2]
  have hs1 : |s - (P + C)| ≤ 8 / 5 * (1 / 2 ^ 24) * (P + C) + 2 ^ (-1075 : ℤ) := by
    have a1 := abs_le.mp hp
    have a2 := abs_le.mp hc
    have a3 := abs_le.mp es
    rw [abs_le]
    generalize |p + c| = t at *
    generalize (2 : K) ^ (-1075 : ℤ) = η at *
    norm_num at a1 a2 a3 ⊢
    constructor <;> linarith [a1.1, a1.2, a2.1, a2.2, a3.1, a3.2]
  have hsm : |s - m| ≤ 2 * (P + C) + 2 ^ (-1075 : ℤ) := by
    have a1 := abs_le.mp hs1
    have a2 := abs_le.mp hm
    rw [abs_le]
    generalize (2 : K) ^ (-1075 : ℤ) = η at *
    norm_num at a1 a2 ⊢
    constructor <;> linarith [a1.1, a1.2, a2.1, a2.2]
  have hg1 : |g - (P - Q + C)| ≤ 7 / 4 * (1 / 2 ^ 24) * (P + C) + 3 * 2 ^ (-1075 : ℤ) := by
    have a1 := abs_le.mp hs1
    have a2 := abs_le.mp hm
    have a3 := abs_le.mp eg
    rw [abs_le]
    generalize |s - m| = t at *
    generalize (2 : K) ^ (-1075 : ℤ) = η at *
    norm_num at a1 a2 a3 ⊢
    constructor <;> linarith [a1.1, a1.2, a2.1, a2.2, a3.1, a3.2]
  have hgs : |g| ≤ (1 + 1 / 2 ^ 20) * (P + C) + 3 * 2 ^ (-1075 : ℤ) := by
    have a1 := abs_le.mp hg1
    rw [abs_le]
    generalize (2 : K) ^ (-1075 : ℤ) = η at *
    norm_num at a1 ⊢
    constructor <;> linarith [a1.1, a1.2]
  have hG1 : |single.near g - (P - Q + C)| ≤ 3 * (1 / 2 ^ 24) * (P + C) + 2 * 2 ^ (-150 : ℤ) := by
    have a1 := abs_le.mp hg1
    have a3 := abs_le.mp eG
    rw [abs_le]
    generalize |g| = t at *
    generalize (2 : K) ^ (-1075 : ℤ) = η at *
    generalize (2 : K) ^ (-150 : ℤ) = μ at *
    norm_num at a1 a3 eη ⊢
    constructor <;> linarith [a1.1, a1.2, a3.1, a3.2]
  -- clamping
  have hy1 : |min d (max c (single.near g)) - (P - Q + C)| ≤ 3 * (1 / 2 ^ 24) * (P + C) + 1 / 2 ^ 52 * D + 2 * 2 ^ (-150 : ℤ) := by
    have e : P - Q + C = min D (max C (P - Q + C)) := by rw [max_eq_right (by linarith), min_eq_right hT]
    rw [show min d (max c (single.near g)) - (P - Q + C) = min d (max c (single.near g)) - min D (max C (P - Q + C)) by rw [← e]]
    have hCD : 1 / 2 ^ 52 * C ≤ 1 / 2 ^ 52 * D := mul_le_mul_of_nonneg_left (by linarith) (by positivity)
    have hPC : 0 ≤ 3 * (1 / 2 ^ 24) * (P + C) := by positivity
    have hD0 : 0 ≤ 1 / 2 ^ 52 * D := by positivity
    refine (abs_min_sub_min_le_max _ _ _ _).trans (max_le ?_ ((abs_max_sub_max_le_max _ _ _ _).trans (max_le ?_ ?_)))
    · linarith
    · linarith
    · linarith
  generalize min d (max c (single.near g)) = y at *
  have ey := single_rounder.err y
  have hz1 : |single.near y - (P - Q + C)| ≤ 5 * (1 / 2 ^ 24) * (P + 2 * D) + 4 * 2 ^ (-150 : ℤ) ∧ |single.near y| ≤ 2 * (P + D) + 2 ^ (-148 : ℤ) := by
    have a1 := abs_le.mp hy1
    have a3 := abs_le.mp ey
    have hy2 : |y| ≤ (1 + 1 / 2 ^ 20) * D + 1 / 2 ^ 20 * P + 2 * 2 ^ (-150 : ℤ) := by
      rw [abs_le]
      generalize (2 : K) ^ (-150 : ℤ) = μ at *
      norm_num at a1 ⊢
      constructor <;> linarith [a1.1, a1.2]
    have e148 : (2 : K) ^ (-148 : ℤ) = 4 * 2 ^ (-150 : ℤ) := by
      rw [show (4 : K) = 2 ^ (2 : ℤ) by norm_num, ← zpow_add₀ two_ne_zero]
      norm_num
    rw [e148]
    generalize |y| = t at *
    generalize (2 : K) ^ (-150 : ℤ) = μ at *
    norm_num at a1 a3 hy2
    constructor
    · rw [abs_le]
      norm_num
      constructor <;> linarith [a1.1, a1.2, a3.1, a3.2]
    · rw [abs_le]
      constructor <;> linarith [a1.1, a1.2, a3.1, a3.2]
  exact back_err hP hD hS hz1.1 hz1.2

end CLF
