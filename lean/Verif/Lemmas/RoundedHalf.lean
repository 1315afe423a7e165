import Verif.Lemmas.RoundedCube
import Verif.Lemmas.HalfDomain
import Verif.Lemmas.RoundedRange
import Verif.Lemmas.RoundedMatrix

set_option linter.unusedSectionVars false

/-! # Half-domain lookups in IEEE arithmetic -/

namespace CLF

variable {K : Type} [Field K] [LinearOrder K] [IsStrictOrderedRing K] [FloorRing K]

namespace Fmt

/-- Short multiples of powers of two are numbers of the format, subnormal ones included. -/
theorem exists_code (f : Fmt) : ∀ (e k : ℕ), k ≤ 2 ^ (f.mant + 1) →
    ∃ c, (f.magVal c : K) = k * 2 ^ ((e : ℤ) + 1 - f.bias - f.mant)
  | 0, k, hk => ⟨_, f.magVal_split 0 k hk (.inl rfl)⟩
  | e + 1, k, hk => by
    rcases Nat.lt_or_ge k (2 ^ f.mant) with h | h
    · obtain ⟨c, hc⟩ := exists_code f e (2 * k) (by rw [pow_succ]; omega)
      refine ⟨c, hc.trans ?_⟩
      rw [show ((e + 1 : ℕ) : ℤ) + 1 - f.bias - f.mant = (e : ℤ) + 1 - f.bias - f.mant + 1 by push_cast; ring,
        zpow_add_one₀ two_ne_zero]
      push_cast
      ring
    · exact ⟨_, f.magVal_split (e + 1) k hk (.inr h)⟩

theorem near_multiple (f : Fmt) (k : ℤ) (g : ℤ) (hk : |k| ≤ 2 ^ (f.mant + 1)) (hg : 1 - f.bias - f.mant ≤ g) :
    f.near ((k : K) * 2 ^ g) = k * 2 ^ g := by
  obtain ⟨e, rfl⟩ : ∃ e : ℕ, g = e + 1 - f.bias - f.mant := ⟨(g - (1 - f.bias - f.mant)).toNat, by omega⟩
  have key : ∀ n : ℕ, n ≤ 2 ^ (f.mant + 1) → f.near ((n : K) * 2 ^ ((e : ℤ) + 1 - f.bias - f.mant))
      = n * 2 ^ ((e : ℤ) + 1 - f.bias - f.mant) := by
    intro n hn
    obtain ⟨c, hc⟩ := exists_code (K := K) f e n hn
    rw [← hc, near_of_nonneg f (magVal_nonneg f c), preCode_magVal]
  have hn : k.natAbs ≤ 2 ^ (f.mant + 1) := by zify; exact hk
  rcases Int.natAbs_eq k with h | h
  · generalize k.natAbs = n at h hn
    subst h
    exact_mod_cast key n hn
  · generalize k.natAbs = n at h hn
    subst h
    have := key n hn
    rw [Int.cast_neg, Int.cast_natCast, neg_mul, near_neg, this]

/-- What is below the middle of the gap above a number of the format is not rounded above it. -/
theorem near_lt_of (f : Fmt) {r y : K} (hy : f.near y = y) (h : r < y + |y| / 2 ^ (f.mant + 2)) : f.near r ≤ y := by
  have hp : (0 : K) < 2 ^ (f.mant + 1) := by positivity
  have h4 : ∀ z : K, z / 2 ^ (f.mant + 2) = z / 2 ^ (f.mant + 1) / 2 := by
    intro z
    rw [show f.mant + 2 = f.mant + 1 + 1 by ring, pow_succ (2 : K) (f.mant + 1)]
    rw [div_div]
  rcases lt_or_ge y 0 with h0 | h0
  · rw [abs_of_neg h0] at h
    have hm : f.magVal (f.preCode (-y)) = -y := by
      have := f.near_of_nonneg (show 0 ≤ -y by linarith)
      rw [near_neg, hy] at this
      exact this.symm
    obtain ⟨c, hc⟩ : ∃ c, f.preCode (-y) = c + 1 := by
      refine ⟨f.preCode (-y) - 1, ?_⟩
      have : f.preCode (-y) ≠ 0 := by
        intro hz
        rw [hz, magVal_zero] at hm
        linarith
      omega
    have hg := magVal_gap (K := K) f c
    rw [hc] at hm
    rw [hm] at hg
    rw [h4] at h
    have hr : (f.magVal c + f.magVal (c + 1)) / 2 < -r := by
      rw [hm]
      linarith
    have hr0 : 0 ≤ -r := by
      have := magVal_nonneg (K := K) f c
      have := magVal_nonneg (K := K) f (c + 1)
      linarith
    have := le_preCode f (-r) hr0 c hr
    have hv := (magVal_strictMono (K := K) f).monotone this
    have hn := f.near_of_nonneg hr0
    rw [near_neg] at hn
    linarith
  · rw [abs_of_nonneg h0, h4] at h
    rcases le_or_gt r y with hr | hr
    · exact (near_mono f hr).trans hy.le
    · have hm : f.magVal (f.preCode y) = y := by
        rw [← f.near_of_nonneg h0, hy]
      have hg := magVal_gap (K := K) f (f.preCode y)
      have hs := magVal_succ (K := K) f (f.preCode y)
      rw [hm] at hg hs
      have hq : y / 2 ^ (f.mant + 1) ≤ f.magVal (f.preCode y + 1) / 2 ^ (f.mant + 1) :=
        div_le_div_of_nonneg_right hs.le hp.le
      have := preCode_le f r (h0.trans hr.le) (f.preCode y) (by
        rw [hm]
        linarith)
      rw [near_of_nonneg f (h0.trans hr.le), ← hm]
      exact (magVal_strictMono (K := K) f).monotone this

/-- The sharp bound on the relative error of rounding. -/
theorem near_error_sharp (f : Fmt) (x : K) :
    |f.near x - x| ≤ |x| / (2 ^ (f.mant + 1) + 1) ∨ |f.near x - x| ≤ 2 ^ (-f.bias - f.mant) := by
  wlog hx : 0 ≤ x generalizing x with H
  · have := H (-x) (by linarith)
    rw [near_neg, abs_neg, ← abs_neg] at this
    rwa [show -(-f.near x - -x) = f.near x - x by ring] at this
  rw [near_value f hx]
  obtain ⟨E, hE⟩ : ∃ E, f.binExp x = E := ⟨_, rfl⟩
  rw [hE]
  have hu : (0 : K) < 2 ^ (E - f.mant) := two_zpow_pos _
  obtain ⟨z, hz⟩ : ∃ z, x / 2 ^ (E - f.mant) = z := ⟨_, rfl⟩
  have hxz : x = z * 2 ^ (E - f.mant) := by rw [← hz]; field_simp
  have he : |(rne z : K) * 2 ^ (E - f.mant) - x| = |(rne z : K) - z| * 2 ^ (E - f.mant) := by
    rw [hxz, ← sub_mul, abs_mul, abs_of_pos hu]
  rw [hz, he]
  have h3 := rne_near z
  by_cases hl : 0 < x ∧ 1 - f.bias ≤ Int.log 2 x
  · left
    have hEl : E = Int.log 2 x := by
      rw [← hE]; unfold binExp
      rw [if_neg (not_le.mpr hl.1), max_eq_left hl.2]
    have e1 : (2 : K) ^ E ≤ x := by
      rw [hEl]; exact_mod_cast Int.zpow_log_le_self (b := 2) (by norm_num) hl.1
    have e2 : (2 : K) ^ f.mant ≤ z := by
      rw [← hz, le_div_iff₀ hu, ← zpow_natCast, ← zpow_add₀ two_ne_zero]
      rwa [show (f.mant : ℤ) + (E - f.mant) = E by ring]
    have hp : (0 : K) < 2 ^ f.mant := by positivity
    have hx' : |x| / (2 ^ (f.mant + 1) + 1) = z / (2 ^ (f.mant + 1) + 1) * 2 ^ (E - f.mant) := by
      rw [abs_of_nonneg hx, hxz]; ring
    rw [hx']
    refine mul_le_mul_of_nonneg_right ?_ hu.le
    rw [le_div_iff₀ (by positivity), pow_succ]
    rcases le_total (2 ^ f.mant + 1 / 2) z with h | h
    · have := mul_le_mul_of_nonneg_right h3 (show (0 : K) ≤ 2 ^ f.mant * 2 + 1 by positivity)
      linarith
    · -- the power of two is as near
      have h5 : |(rne z : K) - z| ≤ z - 2 ^ f.mant := by
        have hfl : ⌊z⌋ = (2 : ℤ) ^ f.mant := Int.floor_eq_iff.mpr ⟨by push_cast; exact e2, by push_cast; linarith⟩
        rcases rne_floor_or z with ⟨e, h'⟩ | ⟨e, h'⟩
        · rw [e, hfl]
          push_cast
          rw [abs_sub_comm, abs_of_nonneg (by linarith)]
        · rw [hfl] at h'
          push_cast at h'
          refine h3.trans ?_
          linarith
      have := mul_le_mul_of_nonneg_right h5 (show (0 : K) ≤ 2 ^ f.mant * 2 + 1 by positivity)
      refine this.trans ?_
      have := mul_le_mul_of_nonneg_left h (show (0 : K) ≤ 2 ^ f.mant * 2 by positivity)
      linarith
  · right
    have hEm : E = 1 - f.bias := by
      rw [← hE]; unfold binExp
      split_ifs with h0
      · rfl
      · have := not_le.mp fun h' => hl ⟨lt_of_not_ge h0, h'⟩
        omega
    have hsub : (2 : K) ^ (1 - f.bias - (f.mant : ℤ)) / 2 = 2 ^ (-f.bias - (f.mant : ℤ)) := by
      rw [show (1 - f.bias - (f.mant : ℤ)) = (-f.bias - f.mant) + 1 by ring, zpow_add_one₀ two_ne_zero]
      field_simp
    rw [← hsub, ← hEm]
    have := mul_le_mul_of_nonneg_right h3 hu.le
    linarith

end Fmt

/-! ## The difference from the nearest half -/

/-- What a `float32` value and its nearest half have in common. -/
theorem half_diff {x : K} (hx : single.near x = x) (h0 : 0 ≤ x) :
    ∃ (E : ℤ) (k : ℤ), -126 ≤ E ∧ |k| ≤ 2 ^ 24 ∧ x - half.near x = k * 2 ^ (E - 23) ∧
      (E < -121 → half.near x = 0) := by
  have es := Fmt.near_value single h0
  have eh := Fmt.near_value half h0
  rw [hx] at es
  rw [single_mant] at es
  rw [show half.mant = 10 from rfl] at eh
  obtain ⟨E, hE⟩ : ∃ E, single.binExp x = E := ⟨_, rfl⟩
  obtain ⟨H, hH⟩ : ∃ H, half.binExp x = H := ⟨_, rfl⟩
  rw [hE] at es
  rw [hH] at eh
  push_cast at es eh
  have hEH : -126 ≤ E ∧ -14 ≤ H ∧ E ≤ H ∧ (E = H ∨ H = -14 ∧ (x < 2 ^ (E + 1))) := by
    rw [← hE, ← hH]
    unfold Fmt.binExp
    rw [single_bias, show half.bias = 15 from rfl]
    split_ifs with hc
    · exact ⟨by omega, by omega, by omega, .inr ⟨rfl, hc.trans_lt (two_zpow_pos _)⟩⟩
    · refine ⟨by omega, by omega, by omega, ?_⟩
      rcases le_total (Int.log 2 x) (-14) with h | h
      · refine .inr ⟨by omega, ?_⟩
        have h1 := Int.lt_zpow_succ_log_self (b := 2) (by norm_num) x
        push_cast at h1
        exact h1.trans_le (zpow_le_zpow_right₀ one_le_two (by omega))
      · exact .inl (by omega)
  obtain ⟨h1, h2, h3, h4⟩ := hEH
  obtain ⟨k, hk⟩ : ∃ k, Fmt.rne (x / 2 ^ (E - 23)) = k := ⟨_, rfl⟩
  obtain ⟨l, hl⟩ : ∃ l, Fmt.rne (x / 2 ^ (H - 10)) = l := ⟨_, rfl⟩
  have hnear := Fmt.rne_near (x / 2 ^ (H - 10))
  rw [hl] at hnear eh
  rw [hk] at es
  have hu : (0 : K) < 2 ^ (H - 10) := two_zpow_pos _
  have hus : (0 : K) < 2 ^ (E - 23) := two_zpow_pos _
  have hd : |x - half.near x| ≤ 2 ^ (H - 11) := by
    have e1 : x - half.near x = (x / 2 ^ (H - 10) - l) * 2 ^ (H - 10) := by rw [eh]; field_simp
    rw [e1, abs_mul, abs_of_pos hu, abs_sub_comm]
    refine (mul_le_mul_of_nonneg_right hnear hu.le).trans (le_of_eq ?_)
    rw [show H - 10 = H - 11 + 1 by ring, zpow_add_one₀ two_ne_zero]
    ring
  have hzero : H = -14 → x < 2 ^ (-25 : ℤ) → half.near x = 0 := by
    intro hH14 hxs
    have : l = 0 := by
      rw [← hl, hH14]
      have hz : x / 2 ^ ((-14 : ℤ) - 10) < 1 / 2 := by
        rw [div_lt_iff₀ (two_zpow_pos _)]
        refine hxs.trans_le (le_of_eq ?_)
        rw [show ((-14 : ℤ) - 10) = -25 + 1 by norm_num, zpow_add_one₀ two_ne_zero]
        ring
      have hz0 : 0 ≤ x / 2 ^ ((-14 : ℤ) - 10) := div_nonneg h0 (two_zpow_pos _).le
      have hfl : ⌊x / 2 ^ ((-14 : ℤ) - 10)⌋ = 0 := Int.floor_eq_iff.mpr ⟨by exact_mod_cast hz0, by push_cast; linarith⟩
      rcases Fmt.rne_floor_or (x / 2 ^ ((-14 : ℤ) - 10)) with ⟨e, _⟩ | ⟨_, h'⟩
      · rw [e, hfl]
      · rw [hfl] at h'
        push_cast at h'
        linarith
    rw [eh, this]
    simp
  have hint : ∀ k' : ℤ, x - half.near x = k' * 2 ^ (E - 23) → |x - half.near x| ≤ 2 ^ (E + 1) → |k'| ≤ 2 ^ 24 := by
    intro k' hk' hle
    rw [hk', abs_mul, abs_of_pos hus, show E + 1 = 24 + (E - 23) by ring, zpow_add₀ two_ne_zero] at hle
    have := le_of_mul_le_mul_right hle hus
    exact_mod_cast this
  by_cases hc : H ≤ E + 12
  · have e1 : (l : K) * 2 ^ (H - 10) = ((l * 2 ^ (H - 10 - (E - 23)).toNat : ℤ) : K) * 2 ^ (E - 23) := by
      push_cast
      rw [mul_assoc, ← zpow_natCast (2 : K) ((H - 10 - (E - 23)).toNat), ← zpow_add₀ two_ne_zero]
      congr 2
      omega
    have e2 : x - half.near x = ((k - l * 2 ^ (H - 10 - (E - 23)).toNat : ℤ) : K) * 2 ^ (E - 23) := by
      rw [eh, e1]
      conv_lhs => rw [es]
      push_cast
      ring
    refine ⟨E, _, h1, hint _ e2 (hd.trans (zpow_le_zpow_right₀ one_le_two (by omega))), e2, fun h => by omega⟩
  · have h14 : H = -14 := by rcases h4 with h | h <;> omega
    have hx' : x < 2 ^ (E + 1) := by
      rcases h4 with h | h
      · omega
      · exact h.2
    have hz := hzero h14 (hx'.trans_le (zpow_le_zpow_right₀ one_le_two (by omega)))
    have e2 : x - half.near x = (k : K) * 2 ^ (E - 23) := by rw [hz, sub_zero]; exact es
    refine ⟨E, k, h1, hint _ e2 ?_, e2, fun _ => hz⟩
    rw [hz, sub_zero, abs_of_nonneg h0]
    exact hx'.le

theorem half_diff' {x : K} (hx : single.near x = x) :
    ∃ (E : ℤ) (k : ℤ), -126 ≤ E ∧ |k| ≤ 2 ^ 24 ∧ x - half.near x = k * 2 ^ (E - 23) ∧
      (E < -121 → half.near x = 0) := by
  rcases le_total 0 x with h | h
  · exact half_diff hx h
  · obtain ⟨E, k, h1, h2, h3, h4⟩ := half_diff (x := -x) (by rw [Fmt.near_neg, hx]) (by linarith)
    rw [Fmt.near_neg] at h3 h4
    refine ⟨E, -k, h1, by rwa [abs_neg], ?_, fun h => by have := h4 h; linarith⟩
    push_cast
    linarith

/-- The gap between neighbouring halves. -/
theorem half_gap {i j : ℕ} (h : Spec.halfNeighbours i j) : (Spec.halfValue i : K) = Spec.halfValue j ∨
    ∃ (r : ℤ) (s : ℤ), (s = 1 ∨ s = -1) ∧ -24 ≤ r ∧ r ≤ 5 ∧ (Spec.halfValue j - Spec.halfValue i : K) = s * 2 ^ r ∧
      ((Spec.halfValue i : K) = 0 → r = -24) := by
  obtain ⟨f1, f2, hs, h3, h4⟩ := h
  rw [halfFinite_iff] at f1 f2
  -- the gap of two magnitudes
  have key : ∀ c : ℕ, c + 1 < 31744 → ∃ r : ℤ, -24 ≤ r ∧ r ≤ 5 ∧
      (Spec.halfValue (c + 1) - Spec.halfValue c : K) = 2 ^ r ∧ (c = 0 → r = -24) ∧
      (Spec.halfValue (c + 1) : K) ≠ 0 := by
    intro c hc
    rw [← half_magVal (c + 1) hc, ← half_magVal c (by omega)]
    have hpos : (0 : K) < half.magVal (c + 1) := by
      have := (Fmt.magVal_strictMono (K := K) half) (show 0 < c + 1 by omega)
      rwa [Fmt.magVal_zero] at this
    obtain ⟨e, k, he, hk, hek⟩ := half.exists_split c
    have m10 : half.mant = 10 := rfl
    have hb : half.bias = 15 := rfl
    have e1 := Fmt.magVal_split (K := K) half e k hk.le hek
    have e2 := Fmt.magVal_split (K := K) half e (k + 1) hk (by omega)
    rw [m10] at he hk hek e1 e2
    rw [← Nat.add_assoc] at e2
    rw [← he] at e1 e2
    rw [hb] at e1 e2
    refine ⟨(e : ℤ) + 1 - 15 - (10 : ℕ), by push_cast; omega, by push_cast; omega, ?_, fun h0 => by push_cast; omega, hpos.ne'⟩
    rw [e1, e2]
    push_cast
    ring
  have hz : (Spec.halfValue 0 : K) = 0 := by rw [← half_magVal 0 (by omega), Fmt.magVal_zero]
  have neq : ∀ c : ℕ, c < 31744 → (Spec.halfValue c : K) = 0 → c = 0 := by
    intro c hc h0
    rw [← half_magVal c hc, ← Fmt.magVal_zero (K := K) half] at h0
    exact (Fmt.magVal_strictMono (K := K) half).injective h0
  have main : ∀ p q : ℕ, p < 31744 → q < 31744 → p ≤ q + 1 → q ≤ p + 1 → (Spec.halfValue p : K) = Spec.halfValue q ∨
    ∃ (r : ℤ) (s : ℤ), (s = 1 ∨ s = -1) ∧ -24 ≤ r ∧ r ≤ 5 ∧ (Spec.halfValue q - Spec.halfValue p : K) = s * 2 ^ r ∧
      ((Spec.halfValue p : K) = 0 → r = -24) := by
    intro p q hp hq h1 h2
    rcases lt_trichotomy p q with h | rfl | h
    · obtain rfl : q = p + 1 := by omega
      obtain ⟨r, r1, r2, r3, r4, _⟩ := key p hq
      exact .inr ⟨r, 1, .inl rfl, r1, r2, by rw [r3]; simp, fun h0 => r4 (neq p hp h0)⟩
    · exact .inl rfl
    · obtain rfl : p = q + 1 := by omega
      obtain ⟨r, r1, r2, r3, _, r5⟩ := key q hp
      exact .inr ⟨r, -1, .inr rfl, r1, r2, by rw [← neg_sub, r3]; simp, fun h0 => absurd h0 r5⟩
  rcases f1 with f1 | f1
  · exact main i j f1 (by omega) h3 h4
  · obtain ⟨p, rfl⟩ : ∃ p, i = 32768 + p := ⟨i - 32768, by omega⟩
    obtain ⟨q, rfl⟩ : ∃ q, j = 32768 + q := ⟨j - 32768, by omega⟩
    rw [halfValue_neg p (by omega), halfValue_neg q (by omega)]
    rcases main p q (by omega) (by omega) (by omega) (by omega) with h | ⟨r, s, s1, r1, r2, r3, r4⟩
    · exact .inl (by rw [h])
    · refine .inr ⟨r, -s, by omega, r1, r2, ?_, fun h0 => r4 (by linarith)⟩
      push_cast
      linarith

/-! ## The blend -/

/-- The blend of two entries: the second product is of the format `W` (`clf/Array.py:460-463`). -/
def halfF (W : Fmt) (w v1 v2 : K) : K :=
  double.near (double.near (double.near (1 - w) * v1) + W.near (w * v2))

theorem halfF_neg (W : Fmt) (w v1 v2 : K) : halfF W w (-v1) (-v2) = -halfF W w v1 v2 := by
  unfold halfF
  rw [mul_neg, mul_neg, Fmt.near_neg, Fmt.near_neg, ← neg_add, Fmt.near_neg]

/-- The product of a weight of at most one half. -/
theorem half_product {W : Fmt} (hW : W = single ∨ W = double) {w M : K} (h0 : 0 ≤ w) (h1 : w ≤ 1 / 2)
    (hM : 2 ^ (-124 : ℤ) ≤ |M|) : |W.near (w * M) - w * M| ≤ |M| / (2 ^ 25 + 2) := by
  have hM0 : 0 ≤ |M| := abs_nonneg M
  have hwM : |w * M| ≤ |M| / 2 := by
    rw [abs_mul, abs_of_nonneg h0]
    have := mul_le_mul_of_nonneg_right h1 hM0
    linarith
  rcases hW with rfl | rfl
  · rcases Fmt.near_error_sharp single (w * M) with h | h
    · refine h.trans ?_
      rw [single_mant, div_le_div_iff₀ (by positivity) (by positivity)]
      have := mul_le_mul_of_nonneg_right hwM (show (0 : K) ≤ 2 ^ 25 + 2 by positivity)
      refine this.trans (le_of_eq ?_)
      ring
    · refine h.trans ?_
      rw [single_mant, single_bias, le_div_iff₀ (by positivity)]
      refine le_trans ?_ hM
      have e : (2 : K) ^ (-124 : ℤ) = 2 ^ (-127 - ((23 : ℕ) : ℤ)) * 2 ^ 26 := by
        rw [← zpow_natCast, ← zpow_add₀ two_ne_zero]; norm_num
      rw [e]
      refine mul_le_mul_of_nonneg_left ?_ (two_zpow_pos _).le
      norm_num
  · refine (double_rounder.err (w * M)).trans ?_
    have h3 : (2 : K) ^ (-1075 : ℤ) ≤ |M| * (1 / 2 ^ 53) := by
      refine le_trans ?_ (mul_le_mul_of_nonneg_right hM (by positivity))
      rw [one_div, ← zpow_natCast, ← zpow_neg, ← zpow_add₀ two_ne_zero]
      exact zpow_le_zpow_right₀ one_le_two (by norm_num)
    have h4 : |w * M| * (1 / 2 ^ 53) ≤ |M| * (1 / 2 ^ 53) :=
      mul_le_mul_of_nonneg_right (by linarith) (by positivity)
    refine (add_le_add h4 h3).trans ?_
    rw [le_div_iff₀ (by positivity)]
    have : (1 : K) / 2 ^ 53 * 2 * (2 ^ 25 + 2) ≤ 1 := by norm_num
    have := mul_le_mul_of_nonneg_left this hM0
    linarith

/-- The blend of entries that are at most `M` is stored as at most `M`. -/
theorem halfF_le {W : Fmt} (hW : W = single ∨ W = double) {w v1 v2 M : K} (h0 : 0 ≤ w) (h1 : w ≤ 1 / 2) (hM : Spec.IsSingle M)
    (hb : M = 0 ∨ 2 ^ (-124 : ℤ) ≤ |M|) (hv1 : v1 ≤ M) (hv2 : v2 ≤ M) : single.near (halfF W w v1 v2) ≤ M := by
  have hs0 : 0 ≤ double.near (1 - w) := Fmt.near_nonneg _ (by linarith)
  rcases hb with rfl | hb
  · unfold halfF
    refine single_rounder.nonpos (double_rounder.nonpos (add_nonpos
      (double_rounder.nonpos (mul_nonpos_of_nonneg_of_nonpos hs0 hv1)) ?_))
    have := Fmt.near_mono W (mul_nonpos_of_nonneg_of_nonpos h0 hv2)
    rwa [Fmt.near_zero] at this
  have hM0 : 0 ≤ |M| := abs_nonneg M
  have hu : (0 : K) < 1 / 2 ^ 53 := by positivity
  have hη : (2 : K) ^ (-1075 : ℤ) ≤ 1 / 2 ^ 53 * |M| := by
    refine le_trans ?_ (mul_le_mul_of_nonneg_left hb hu.le)
    rw [one_div, ← zpow_natCast, ← zpow_neg, ← zpow_add₀ two_ne_zero]
    exact zpow_le_zpow_right₀ one_le_two (by norm_num)
  have hw := double_rounder.weight eta_le h0 (show w ≤ 1 by linarith)
  -- the second product
  have hP : W.near (w * v2) ≤ w * M + |M| / (2 ^ 25 + 2) := by
    have := Fmt.near_mono W (mul_le_mul_of_nonneg_left hv2 h0)
    have := (abs_le.mp (half_product hW h0 h1 hb)).2
    linarith
  -- the first product
  have hs2 : double.near (1 - w) ≤ 1 := (near_unit (show 0 ≤ 1 - w by linarith) (by linarith)).2
  have hQ : double.near (double.near (1 - w) * v1) ≤ double.near (1 - w) * M + 2 * (1 / 2 ^ 53 * |M|) := by
    have e1 := Fmt.near_mono double (mul_le_mul_of_nonneg_left hv1 hs0)
    have e2 := (abs_le.mp (double_rounder.err (double.near (1 - w) * M))).2
    have e3 : |double.near (1 - w) * M| ≤ |M| := by
      rw [abs_mul, abs_of_nonneg hs0]
      exact mul_le_of_le_one_left hM0 hs2
    have e4 := mul_le_mul_of_nonneg_right e3 hu.le
    linarith
  have hsM : double.near (1 - w) * M + w * M ≤ M + 2 * (1 / 2 ^ 53 * |M|) := by
    have e1 : double.near (1 - w) * M + w * M - M = (double.near (1 - w) + w - 1) * M := by ring
    have e2 := le_abs_self ((double.near (1 - w) + w - 1) * M)
    rw [abs_mul] at e2
    have e3 := mul_le_mul_of_nonneg_right hw.2 hM0
    linarith
  -- the sum
  have hT : double.near (double.near (1 - w) * v1) + W.near (w * v2)
      ≤ M + 4 * (1 / 2 ^ 53 * |M|) + |M| / (2 ^ 25 + 2) := by linarith
  have e5 : |M| / (2 ^ 25 + 2) ≤ |M| / 2 := div_le_div_of_nonneg_left hM0 (by norm_num) (by norm_num)
  have e6 : 4 * (1 / 2 ^ 53 * |M|) ≤ |M| / 2 := by
    have := mul_le_mul_of_nonneg_right (show (4 : K) * (1 / 2 ^ 53) ≤ 1 / 2 by norm_num) hM0
    linarith
  have hS := Fmt.near_mono double hT
  have hE := (abs_le.mp (double_rounder.err (M + 4 * (1 / 2 ^ 53 * |M|) + |M| / (2 ^ 25 + 2)))).2
  have e7 : |M + 4 * (1 / 2 ^ 53 * |M|) + |M| / (2 ^ 25 + 2)| ≤ 2 * |M| := by
    have a1 := abs_le.mp (le_refl |M|)
    have a2 : 0 ≤ |M| / (2 ^ 25 + 2) := by positivity
    have a3 : 0 ≤ 1 / 2 ^ 53 * |M| := by positivity
    rw [abs_le]
    constructor <;> linarith
  have e8 := mul_le_mul_of_nonneg_right e7 hu.le
  refine Fmt.near_lt_of single hM.near ?_
  rw [single_mant]
  have hpos : 0 < |M| := lt_of_lt_of_le (two_zpow_pos _) hb
  have hfin : 7 * (1 / 2 ^ 53 * |M|) + |M| / (2 ^ 25 + 2) < |M| / 2 ^ (23 + 2) := by
    have a1 : (7 : K) * (1 / 2 ^ 53) + 1 / (2 ^ 25 + 2) < 1 / 2 ^ (23 + 2) := by norm_num
    have := mul_lt_mul_of_pos_right a1 hpos
    rw [div_eq_mul_one_div |M| (2 ^ (23 + 2)), div_eq_mul_one_div |M| (2 ^ 25 + 2)]
    linarith
  unfold halfF
  linarith

theorem le_halfF {W : Fmt} (hW : W = single ∨ W = double) {w v1 v2 M : K} (h0 : 0 ≤ w) (h1 : w ≤ 1 / 2) (hM : Spec.IsSingle M)
    (hb : M = 0 ∨ 2 ^ (-124 : ℤ) ≤ |M|) (hv1 : M ≤ v1) (hv2 : M ≤ v2) : M ≤ single.near (halfF W w v1 v2) := by
  have := halfF_le hW h0 h1 (isSingle_neg hM) (by simpa using hb) (neg_le_neg hv1) (neg_le_neg hv2)
  rw [halfF_neg, Fmt.near_neg] at this
  linarith

/-- The weight zero picks the first entry. -/
theorem halfF_zero (W : Fmt) {v1 : K} (h : Spec.IsSingle v1) (v2 : K) : single.near (halfF W 0 v1 v2) = v1 := by
  unfold halfF
  rw [sub_zero, double_one, one_mul, zero_mul, Fmt.near_zero, add_zero, h.double, h.double, h.near]

/-- The stored blend is a number. -/
theorem halfF_stored {W : Fmt} (hW : W = single ∨ W = double) {w v1 v2 : K} (h0 : 0 ≤ w) (h1 : w ≤ 1 / 2)
    (hv1 : Spec.IsSingle v1) (hv2 : Spec.IsSingle v2) :
    single.round (.fin (halfF W w v1 v2)) = .fin (single.near (halfF W w v1 v2)) := by
  have habs : ∀ v : K, Spec.IsSingle v → Spec.IsSingle |v| := by
    intro v hv
    rcases abs_choice v with h | h <;> rw [h]
    · exact hv
    · exact isSingle_neg hv
  obtain ⟨M, hM, hb, m1, m2⟩ : ∃ M : K, Spec.IsSingle M ∧ 2 ^ (-124 : ℤ) ≤ M ∧ |v1| ≤ M ∧ |v2| ≤ M := by
    have hone : Spec.IsSingle (1 : K) := by simpa using isSingle_nat (K := K) (k := 1) (by norm_num)
    have hsm : (2 : K) ^ (-124 : ℤ) ≤ 1 := zpow_le_one_of_nonpos₀ one_le_two (by norm_num)
    refine ⟨max 1 (max |v1| |v2|), ?_, hsm.trans (le_max_left _ _), (le_max_left _ _).trans (le_max_right _ _),
      (le_max_right _ _).trans (le_max_right _ _)⟩
    rcases max_choice 1 (max |v1| |v2|) with h | h <;> rw [h]
    · exact hone
    · rcases max_choice |v1| |v2| with h | h <;> rw [h]
      · exact habs _ hv1
      · exact habs _ hv2
  have hMp : 0 < M := lt_of_lt_of_le (two_zpow_pos _) hb
  have hb' : 2 ^ (-124 : ℤ) ≤ |M| := by rwa [abs_of_pos hMp]
  have e1 := halfF_le hW h0 h1 hM (.inr hb') (abs_le.mp m1).2 (abs_le.mp m2).2
  have e2 := le_halfF hW h0 h1 (isSingle_neg hM) (.inr (by rwa [abs_neg])) (abs_le.mp m1).1 (abs_le.mp m2).1
  refine Fmt.round_eq single _ ?_
  rw [← Fmt.abs_near]
  have b1 := (Fmt.round_finite single hM).2
  rw [abs_of_pos hMp] at b1
  exact (abs_le.mpr ⟨e2, e1⟩).trans_lt b1

/-- How far the stored blend is from the exact one. -/
theorem halfF_err {W : Fmt} (hW : W = single ∨ W = double) {w v1 v2 B : K} (h0 : 0 ≤ w) (h1 : w ≤ 1 / 2)
    (hv1 : |v1| ≤ B) (hv2 : |v2| ≤ B) :
    |single.near (halfF W w v1 v2) - ((1 - w) * v1 + w * v2)| ≤ B / 2 ^ 23 + 2 ^ (-148 : ℤ) := by
  have hB : 0 ≤ B := (abs_nonneg _).trans hv1
  have hη0 : (0 : K) < 2 ^ (-150 : ℤ) := two_zpow_pos _
  have hη : (2 : K) ^ (-1075 : ℤ) ≤ 2 ^ (-150 : ℤ) * (1 / 2 ^ 10) := by
    rw [one_div, ← zpow_natCast, ← zpow_neg, ← zpow_add₀ two_ne_zero]
    exact zpow_le_zpow_right₀ one_le_two (by norm_num)
  have e148 : (2 : K) ^ (-148 : ℤ) = 4 * 2 ^ (-150 : ℤ) := by
    rw [show (4 : K) = 2 ^ (2 : ℤ) by norm_num, ← zpow_add₀ two_ne_zero]; norm_num
  have hw := double_rounder.weight eta_le h0 (show w ≤ 1 by linarith)
  have hs0 : 0 ≤ double.near (1 - w) := hw.1
  have hs2 : double.near (1 - w) ≤ 1 := (near_unit (show 0 ≤ 1 - w by linarith) (by linarith)).2
  have mv2 : |w * v2| ≤ B / 2 := by
    rw [abs_mul, abs_of_nonneg h0]
    have := mul_le_mul h1 hv2 (abs_nonneg _) (by norm_num)
    linarith
  have mv1 : |double.near (1 - w) * v1| ≤ B := by
    rw [abs_mul, abs_of_nonneg hs0]
    exact (mul_le_of_le_one_left (abs_nonneg _) hs2).trans hv1
  have hP : |W.near (w * v2) - w * v2| ≤ B / 2 * (1 / 2 ^ 24) + 2 ^ (-150 : ℤ) := by
    have e := mul_le_mul_of_nonneg_right mv2 (show (0 : K) ≤ 1 / 2 ^ 24 by positivity)
    rcases hW with rfl | rfl
    · have := single_rounder.err (w * v2)
      linarith
    · have a1 := double_rounder.err (w * v2)
      have a2 := mul_le_mul_of_nonneg_left (show (1 : K) / 2 ^ 53 ≤ 1 / 2 ^ 24 by norm_num) (abs_nonneg (w * v2))
      have a3 : (2 : K) ^ (-150 : ℤ) * (1 / 2 ^ 10) ≤ 2 ^ (-150 : ℤ) := mul_le_of_le_one_right hη0.le (by norm_num)
      linarith
  have hQ : |double.near (double.near (1 - w) * v1) - double.near (1 - w) * v1| ≤ B * (1 / 2 ^ 53) + 2 ^ (-150 : ℤ) * (1 / 2 ^ 10) := by
    have a1 := double_rounder.err (double.near (1 - w) * v1)
    have a2 := mul_le_mul_of_nonneg_right mv1 (show (0 : K) ≤ 1 / 2 ^ 53 by positivity)
    linarith
  have hs : |double.near (1 - w) * v1 - (1 - w) * v1| ≤ 2 * (1 / 2 ^ 53) * B := by
    rw [show double.near (1 - w) * v1 - (1 - w) * v1 = (double.near (1 - w) + w - 1) * v1 by ring, abs_mul]
    exact mul_le_mul hw.2 hv1 (abs_nonneg _) (by positivity)
  obtain ⟨Q, hQe⟩ : ∃ Q, double.near (double.near (1 - w) * v1) = Q := ⟨_, rfl⟩
  obtain ⟨P, hPe⟩ : ∃ P, W.near (w * v2) = P := ⟨_, rfl⟩
  have hex : |(1 - w) * v1 + w * v2| ≤ B := by
    have a1 : |(1 - w) * v1| ≤ (1 - w) * B := by
      rw [abs_mul, abs_of_nonneg (show 0 ≤ 1 - w by linarith)]
      exact mul_le_mul_of_nonneg_left hv1 (by linarith)
    have a2 : |w * v2| ≤ w * B := by
      rw [abs_mul, abs_of_nonneg h0]
      exact mul_le_mul_of_nonneg_left hv2 h0
    have := abs_add_le ((1 - w) * v1) (w * v2)
    linarith
  unfold halfF
  rw [hQe] at hQ ⊢
  rw [hPe] at hP ⊢
  obtain ⟨s, hse⟩ : ∃ s, double.near (1 - w) * v1 = s := ⟨_, rfl⟩
  rw [hse] at hQ hs
  obtain ⟨X, hX⟩ : ∃ X, (1 - w) * v1 = X := ⟨_, rfl⟩
  obtain ⟨Y, hY⟩ : ∃ Y, w * v2 = Y := ⟨_, rfl⟩
  rw [hX] at hs hex ⊢
  rw [hY] at hP hex ⊢
  have hQP : |Q + P - (X + Y)| ≤ B * (1 / 2 ^ 25) + 3 * B * (1 / 2 ^ 53) + 2 ^ (-150 : ℤ) * (1 + 1 / 2 ^ 10) := by
    have a1 := abs_le.mp hQ
    have a2 := abs_le.mp hs
    have a3 := abs_le.mp hP
    have a4 : B / 2 * (1 / 2 ^ 24) = B * (1 / 2 ^ 25) := by ring
    rw [abs_le]
    constructor <;> linarith
  have hS := double_rounder.err (Q + P)
  have hy := single_rounder.err (double.near (Q + P))
  obtain ⟨S, hSe⟩ : ∃ S, double.near (Q + P) = S := ⟨_, rfl⟩
  rw [hSe] at hS hy ⊢
  generalize single.near S = y at hy
  generalize (2 : K) ^ (-150 : ℤ) = η at *
  generalize (2 : K) ^ (-1075 : ℤ) = ζ at *
  obtain ⟨Z, hZ⟩ : ∃ Z, X + Y = Z := ⟨_, rfl⟩
  rw [hZ] at hQP hex ⊢
  have b1 : |Q + P| ≤ 2 * B + 2 * η := by
    have := abs_add_le (Q + P - Z) Z
    rw [sub_add_cancel] at this
    have c1 : B * (1 / 2 ^ 25) + 3 * B * (1 / 2 ^ 53) ≤ B := by
      have := mul_le_mul_of_nonneg_left (show (1 : K) / 2 ^ 25 + 3 * (1 / 2 ^ 53) ≤ 1 by norm_num) hB
      linarith
    have c2 : η * (1 + 1 / 2 ^ 10) ≤ 2 * η := by
      have := mul_le_mul_of_nonneg_left (show (1 : K) + 1 / 2 ^ 10 ≤ 2 by norm_num) hη0.le
      linarith
    linarith
  have b2 : |S - Z| ≤ B * (1 / 2 ^ 25) + 5 * B * (1 / 2 ^ 53) + η * (1 + 1 / 2 ^ 8) := by
    have c1 := mul_le_mul_of_nonneg_right b1 (show (0 : K) ≤ 1 / 2 ^ 53 by positivity)
    have c2 := abs_add_le (S - (Q + P)) (Q + P - Z)
    rw [sub_add_sub_cancel] at c2
    have c3 : η * (1 / 2 ^ 10) + η * (1 / 2 ^ 10) + 2 * η * (1 / 2 ^ 53) ≤ η * (1 / 2 ^ 8) := by
      have := mul_le_mul_of_nonneg_left (show (1 : K) / 2 ^ 10 + 1 / 2 ^ 10 + 2 * (1 / 2 ^ 53) ≤ 1 / 2 ^ 8 by norm_num) hη0.le
      linarith
    linarith
  have b3 : |S| ≤ B + (B * (1 / 2 ^ 25) + 5 * B * (1 / 2 ^ 53) + η * (1 + 1 / 2 ^ 8)) := by
    have := abs_add_le (S - Z) Z
    rw [sub_add_cancel] at this
    linarith
  have c1 := mul_le_mul_of_nonneg_right b3 (show (0 : K) ≤ 1 / 2 ^ 24 by positivity)
  have c2 := abs_add_le (y - S) (S - Z)
  rw [sub_add_sub_cancel] at c2
  have c3 : B * (1 / 2 ^ 25) + 5 * B * (1 / 2 ^ 53) + (B + (B * (1 / 2 ^ 25) + 5 * B * (1 / 2 ^ 53))) * (1 / 2 ^ 24) ≤ B / 2 ^ 23 := by
    have := mul_le_mul_of_nonneg_left (show (1 : K) / 2 ^ 25 + 5 * (1 / 2 ^ 53) + (1 + (1 / 2 ^ 25 + 5 * (1 / 2 ^ 53))) * (1 / 2 ^ 24)
      ≤ 1 / 2 ^ 23 by norm_num) hB
    linarith
  have c4 : η * (1 + 1 / 2 ^ 8) + η * (1 + 1 / 2 ^ 8) * (1 / 2 ^ 24) + η ≤ 4 * η := by
    have := mul_le_mul_of_nonneg_left (show (1 + 1 / 2 ^ 8) + (1 + 1 / 2 ^ 8) * (1 / 2 ^ 24) + 1 ≤ (4 : K) by norm_num) hη0.le
    linarith
  rw [e148]
  linarith

/-! ## The lookup -/

theorem halfR_fin (R : Rounding K) (t : Fmt) {c : ℕ} {a : Arr K} {T : Fin 65536 → Fin (c + 1) → Flt K}
    {V : ℕ → Fin (c + 1) → K} (h : HalfTable a T V) (x : K) (ch : ℕ) (n1 n2 : ℕ)
    (f1 : Spec.halfFinite n1) (f2 : Spec.halfFinite n2) (e1 : half.encode (.fin x) = n1)
    (e2 : (if 0 ≤ x - Spec.halfValue n1 then
        Arr.clampCode (if x < 0 then 32768 else 0) (if x < 0 then 64511 else 31743)
          ((n1 : ℤ) + if x < 0 then -1 else 1)
      else Arr.clampCode (if x < 0 then 32768 else 0) (if x < 0 then 64511 else 31743)
          ((n1 : ℤ) - if x < 0 then -1 else 1)) = n2) (w : K)
    (hw : (if (Spec.halfValue n2 - Spec.halfValue n1 : K) = 0 then 0
      else (x - Spec.halfValue n1) / (Spec.halfValue n2 - Spec.halfValue n1)) = w)
    (d1 : R single (.fin (x - Spec.halfValue n1)) = .fin (x - Spec.halfValue n1))
    (d2 : R half (.fin (Spec.halfValue n2 - Spec.halfValue n1)) = .fin (Spec.halfValue n2 - Spec.halfValue n1))
    (d3 : (Spec.halfValue n2 - Spec.halfValue n1 : K) ≠ 0 → R single (.fin w) = .fin w) :
    a.lookup1DHalfDomainInterpolatedR R t (.fin x) ch
      = .ok (R double (R double (R double (.fin 1 - .fin w) * .fin (V n1 (Spec.column c ch)))
          + R (t.wider single) (.fin w * .fin (V n2 (Spec.column c ch))))) := by
  unfold Arr.lookup1DHalfDomainInterpolatedR
  simp only [e1, half_decode n1 f1, Flt.fin_sub, d1, Flt.lt_fin, Flt.le_fin, decide_eq_true_eq]
  rw [e2]
  simp only [half_decode n2 f2, Flt.fin_sub, d2, h.lookupFin n1 f1, h.lookupFin n2 f2, py_ok_bind,
    Flt.fin.injEq]
  have : (if (Spec.halfValue n2 - Spec.halfValue n1 : K) = 0 then Flt.fin 0
      else R single (Flt.fin (x - Spec.halfValue n1) / Flt.fin (Spec.halfValue n2 - Spec.halfValue n1)))
      = Flt.fin w := by
    split_ifs at hw ⊢ with h0
    · rw [hw]
    · rw [Flt.fin_div h0, hw]
      exact d3 h0
  rw [this]
  simp only [Flt.fin_sub, Flt.fin_mul, py_pure]

/-- The nearest half. -/
theorem half_encode_near {x : K} {i : ℕ} (hi : Spec.halfFinite i) (h : half.encode (.fin x) = i) :
    (Spec.halfValue i : K) = half.near x := by
  have e : half.round (.fin x) = .fin (Spec.halfValue i : K) := by
    unfold Fmt.round
    rw [h, half_decode i hi]
  exact (Fmt.round_finite half e).1.symm

/-- The lookup of a finite `float32` value below the overflow threshold. -/
theorem halfR_core {t : Fmt} (ht : t = half ∨ t = single ∨ t = double) {c : ℕ} {a : Arr K} {T : Fin 65536 → Fin (c + 1) → Flt K}
    {V : ℕ → Fin (c + 1) → K} (h : HalfTable a T V) (hV : ∀ n, Spec.halfFinite n → ∀ j, Spec.IsSingle (V n j)) {x : K}
    (hxs : Spec.IsSingle x) (hx : |x| < 65520) :
    ∃ (i j : ℕ) (w : K), Spec.halfNeighbours i j ∧ half.encode (.fin x) = i ∧ 0 ≤ w ∧ w ≤ 1 / 2 ∧ (i < 32768 ↔ 0 ≤ x) ∧
      (x = Spec.halfValue i → w = 0) ∧
      (∀ ch, a.lookup1DHalfDomainInterpolatedR ieee t (.fin x) ch
        = .ok (.fin (halfF (t.wider single) w (V i (Spec.column c ch)) (V j (Spec.column c ch))))) ∧
      (|x| ≤ 65504 → x = (1 - w) * Spec.halfValue i + w * Spec.halfValue j) ∧
      (65504 ≤ |x| → |(Spec.halfValue i : K)| = 65504 ∧ w = 0) := by
  obtain ⟨i, j, w, hn, e1, h0, h1, hs, hz, e2, hw, hv, hb⟩ := half_codes x hx
  refine ⟨i, j, w, hn, e1, h0, h1, hs, hz, fun ch => ?_, hv, hb⟩
  have hnear := half_encode_near hn.1 e1
  obtain ⟨E, k, E1, k1, d, dz⟩ := half_diff' hxs.near
  rw [← hnear] at d dz
  have hdiff : |x - Spec.halfValue i| ≤ 2 ^ 125 := by
    have a2 : |x| ≤ 2 ^ 17 := hx.le.trans (by norm_num)
    have a3 : |(Spec.halfValue i : K)| ≤ 2 ^ 17 := by
      rw [hnear, Fmt.abs_near]
      have a4 := (abs_le.mp (Fmt.near_error half |x|)).2
      rw [abs_abs, show half.mant = 10 from rfl, show half.bias = 15 from rfl] at a4
      have a5 : |x| / 2 ^ (10 + 1) ≤ 2 ^ 6 := by
        rw [div_le_iff₀ (by positivity)]
        exact a2.trans (by norm_num)
      have a6 : (2 : K) ^ (-15 - ((10 : ℕ) : ℤ)) ≤ 1 := zpow_le_one_of_nonpos₀ one_le_two (by norm_num)
      norm_num at a5 a6 hx ⊢
      linarith
    have a7 := abs_sub x (Spec.halfValue i : K)
    have a8 : (2 : K) ^ 17 + 2 ^ 17 ≤ 2 ^ 125 := by norm_num
    linarith
  have d1 : ieee single (.fin (x - Spec.halfValue i)) = .fin (x - Spec.halfValue i) := by
    have e3 : single.near (x - Spec.halfValue i : K) = x - Spec.halfValue i := by
      rw [d]
      exact Fmt.near_multiple single k _ (by rw [single_mant]; exact k1) (by rw [single_mant, single_bias]; push_cast; omega)
    rw [single_fin hdiff, e3]
  have hone : (1 : K) ≤ 2 ^ 125 := one_le_pow₀ one_le_two
  have d23 : ieee half (.fin (Spec.halfValue j - Spec.halfValue i)) = .fin (Spec.halfValue j - Spec.halfValue i : K) ∧
      ((Spec.halfValue j - Spec.halfValue i : K) ≠ 0 → ieee single (.fin w) = .fin w) := by
    rcases half_gap (K := K) hn with he | ⟨r, s, s1, r1, r2, r3, r4⟩
    · rw [he, sub_self]
      exact ⟨Fmt.round_zero half (by decide), fun hne => absurd rfl hne⟩
    · have hb15 : half.bias = 15 := rfl
      have hm10 : half.mant = 10 := rfl
      refine ⟨?_, fun hne => ?_⟩
      · have e3 : half.near ((s : K) * 2 ^ r) = s * 2 ^ r := Fmt.near_multiple half s r
          (by rcases s1 with rfl | rfl <;> rw [hm10] <;> norm_num) (by rw [hb15, hm10]; push_cast; omega)
        have := Fmt.round_eq half ((s : K) * 2 ^ r) (by
          rw [← Fmt.abs_near, e3, Fmt.magVal_infCode half (by decide), hb15, abs_mul, abs_of_pos (two_zpow_pos (K := K) r)]
          have : |(s : K)| = 1 := by rcases s1 with rfl | rfl <;> simp
          rw [this, one_mul]
          exact zpow_lt_zpow_right₀ one_lt_two (by omega))
        rw [r3]
        rw [e3] at this
        exact this
      · rw [if_neg hne, r3, d] at hw
        have hw' : w = ((k * s : ℤ) : K) * 2 ^ (E - 23 - r) := by
          rw [← hw, zpow_sub₀ two_ne_zero (E - 23) r]
          have hp := (two_zpow_pos (K := K) r).ne'
          rcases s1 with rfl | rfl
          · push_cast
            field_simp
          · push_cast
            field_simp
        have e3 : single.near w = w := by
          rw [hw']
          refine Fmt.near_multiple single (k * s) _ ?_ ?_
          · rw [single_mant, abs_mul]
            rcases s1 with rfl | rfl <;> simpa using k1
          · rw [single_mant, single_bias]
            push_cast
            rcases lt_or_ge E (-121) with hE | hE
            · have := r4 (dz hE)
              omega
            · omega
        rw [single_fin (by rw [abs_of_nonneg h0]; linarith), e3]
  have hW := wider_single ht
  rw [halfR_fin ieee t h x ch i j hn.1 hn.2.1 e1 e2 w hw d1 d23.1 d23.2]
  have s1 := hV i hn.1 (Spec.column c ch)
  have s2 := hV j hn.2.1 (Spec.column c ch)
  generalize V i (Spec.column c ch) = v1 at s1
  generalize V j (Spec.column c ch) = v2 at s2
  have b1 := s1.lt
  have b2 := s2.lt
  have hs1 := near_unit (show 0 ≤ 1 - w by linarith) (show 1 - w ≤ 1 by linarith)
  have p1 : ieee double (.fin 1 - .fin w) = .fin (double.near (1 - w)) := by
    rw [Flt.fin_sub]
    refine double_fin ?_
    rw [abs_of_nonneg (show 0 ≤ 1 - w by linarith)]
    exact (show 1 - w ≤ 1 by linarith).trans (one_le_pow₀ one_le_two)
  have m1 : |double.near (1 - w) * v1| ≤ 2 ^ 128 := by
    rw [abs_mul, abs_of_nonneg hs1.1]
    exact (mul_le_of_le_one_left (abs_nonneg _) hs1.2).trans b1.le
  have p2 : ieee double (.fin (double.near (1 - w) * v1)) = .fin (double.near (double.near (1 - w) * v1)) :=
    double_fin (m1.trans (pow_le_pow_right₀ one_le_two (by norm_num)))
  have m2 : |w * v2| ≤ |v2| := by
    rw [abs_mul, abs_of_nonneg h0]
    exact mul_le_of_le_one_left (abs_nonneg _) (by linarith)
  have m3 : |(t.wider single).near (w * v2)| ≤ |v2| := by
    rw [Fmt.abs_near]
    refine (Fmt.near_mono _ m2).trans (le_of_eq ?_)
    rw [← Fmt.abs_near]
    rcases hW with h' | h' <;> rw [h']
    · rw [s2.near]
    · rw [s2.double]
  have p3 : ieee (t.wider single) (.fin (w * v2)) = .fin ((t.wider single).near (w * v2)) := by
    rcases hW with h' | h'
    · rw [h'] at m3 ⊢
      refine Fmt.round_eq single _ ?_
      rw [← Fmt.abs_near]
      exact m3.trans_lt (Fmt.round_finite single s2).2
    · rw [h']
      exact double_fin ((m2.trans b2.le).trans (pow_le_pow_right₀ one_le_two (by norm_num)))
  have m4 : |double.near (double.near (1 - w) * v1) + (t.wider single).near (w * v2)| ≤ 2 ^ 300 := by
    have a1 := abs_add_le (double.near (double.near (1 - w) * v1)) ((t.wider single).near (w * v2))
    have a2 := double_abs (double.near (1 - w) * v1)
    have a3 : (8 : K) * 2 ^ 128 ≤ 2 ^ 300 := by
      rw [show (8 : K) = 2 ^ 3 by norm_num, ← pow_add]
      exact pow_le_pow_right₀ one_le_two (by norm_num)
    have a4 : (1 : K) ≤ 2 ^ 128 := one_le_pow₀ one_le_two
    generalize (2 : K) ^ 300 = b at *
    generalize (2 : K) ^ 128 = e at *
    linarith
  have e4 : (Flt.fin (double.near (double.near (1 - w) * v1)) : Flt K) + .fin ((t.wider single).near (w * v2))
      = .fin (double.near (double.near (1 - w) * v1) + (t.wider single).near (w * v2)) := Flt.fin_add _ _
  rw [p1, Flt.fin_mul, p2, Flt.fin_mul, p3, e4, double_fin m4]
  rfl

end CLF
