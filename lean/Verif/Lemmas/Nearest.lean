import Verif.Lemmas.SingleScale

set_option linter.unusedSectionVars false

/-!
# Rounding as a function on numbers

`Fmt.near f` is rounding to format `f` as if there were no largest number.
-/

namespace CLF

variable {K : Type} [Field K] [LinearOrder K] [IsStrictOrderedRing K] [FloorRing K]

namespace Fmt

/-- Rounding to nearest without overflow. -/
def near (f : Fmt) (x : K) : K := if x < 0 then -f.magVal (f.preCode (-x)) else f.magVal (f.preCode x)

theorem near_of_nonneg (f : Fmt) {x : K} (hx : 0 ≤ x) : f.near x = f.magVal (f.preCode x) :=
  if_neg (not_lt.mpr hx)

theorem near_zero (f : Fmt) : f.near (0 : K) = 0 := by
  have h := preCode_magVal (K := K) f 0
  rw [magVal_zero] at h
  rw [near_of_nonneg f le_rfl, h, magVal_zero]

theorem near_neg (f : Fmt) (x : K) : f.near (-x) = -f.near x := by
  rcases lt_trichotomy x 0 with h | rfl | h
  · rw [near_of_nonneg f (by linarith)]
    unfold near
    rw [if_pos h, neg_neg]
  · simp [near_zero]
  · rw [near_of_nonneg f h.le]
    unfold near
    rw [if_pos (by linarith), neg_neg]

theorem near_nonneg (f : Fmt) {x : K} (hx : 0 ≤ x) : 0 ≤ f.near x := by
  rw [near_of_nonneg f hx]
  exact magVal_nonneg f _

theorem near_mono (f : Fmt) {x y : K} (h : x ≤ y) : f.near x ≤ f.near y := by
  rcases le_or_gt 0 x with hx | hx
  · rw [near_of_nonneg f hx, near_of_nonneg f (hx.trans h)]
    exact (magVal_strictMono f).monotone (preCode_mono f hx h)
  · rcases le_or_gt 0 y with hy | hy
    · have h1 := near_nonneg f (show 0 ≤ -x by linarith)
      have h2 := near_nonneg f hy
      rw [near_neg] at h1
      linarith
    · unfold near
      rw [if_pos hx, if_pos hy, neg_le_neg_iff]
      exact (magVal_strictMono f).monotone (preCode_mono f (by linarith) (by linarith))

theorem abs_near (f : Fmt) (x : K) : |f.near x| = f.near |x| := by
  rcases le_or_gt 0 x with hx | hx
  · rw [abs_of_nonneg hx, abs_of_nonneg (near_nonneg f hx)]
  · rw [abs_of_neg hx, near_neg, abs_of_nonpos]
    have := near_nonneg f (show 0 ≤ -x by linarith)
    rw [near_neg] at this
    linarith

/-- Rounding is `near` unless it overflows. -/
theorem round_eq (f : Fmt) (x : K) (h : f.near |x| < f.magVal f.infCode) : f.round (.fin x) = .fin (f.near x) := by
  have hp : f.preCode |x| < f.infCode := by
    rw [near_of_nonneg f (abs_nonneg x)] at h
    exact (magVal_strictMono f).lt_iff_lt.mp h
  have hs := infCode_lt_signBit f
  have he : f.encodeMag |x| = f.preCode |x| := by
    rw [encodeMag_eq]
    omega
  unfold round encode decode near
  rcases lt_or_ge x 0 with hx | hx
  · simp only [if_pos hx, he]
    rw [abs_of_neg hx] at hp ⊢
    rw [Nat.add_mod_left, Nat.mod_eq_of_lt (by omega), if_pos hp]
    simp
  · simp only [if_neg (not_lt.mpr hx), he, Nat.zero_add]
    rw [abs_of_nonneg hx] at hp ⊢
    rw [Nat.mod_eq_of_lt (by omega), if_pos hp, if_neg (by simp; omega)]

/-- A number that is its own rounding is one of the format. -/
theorem round_finite (f : Fmt) {x y : K} (h : f.round (.fin x) = .fin y) :
    f.near x = y ∧ |y| < f.magVal f.infCode := by
  by_cases hlt : f.near |x| < f.magVal f.infCode
  · rw [round_eq f x hlt] at h
    have := Flt.fin.inj h
    refine ⟨this, ?_⟩
    rw [← this, abs_near]
    exact hlt
  · exfalso
    have hp : f.infCode ≤ f.preCode |x| := by
      rw [near_of_nonneg f (abs_nonneg x)] at hlt
      exact (magVal_strictMono f).le_iff_le.mp (not_lt.mp hlt)
    have hs := infCode_lt_signBit f
    have he : f.encodeMag |x| = f.infCode := by
      rw [encodeMag_eq]
      omega
    unfold round encode decode at h
    rcases lt_or_ge x 0 with hx | hx
    · simp only [if_pos hx, he, Nat.add_mod_left, Nat.mod_eq_of_lt hs, lt_irrefl, if_false, if_true] at h
      cases h
    · simp only [if_neg (not_lt.mpr hx), he, Nat.zero_add, Nat.mod_eq_of_lt hs, lt_irrefl, if_false, if_true] at h
      cases h

theorem magVal_infCode (f : Fmt) (hb : 2 ≤ f.ebits) : (f.magVal f.infCode : K) = 2 ^ (f.bias + 1) := by
  have h2 : (2 : ℕ) ^ 2 ≤ 2 ^ f.ebits := Nat.pow_le_pow_right (by norm_num) hb
  obtain ⟨e, he⟩ : ∃ e, 2 ^ f.ebits - 1 = e + 1 := ⟨2 ^ f.ebits - 2, by omega⟩
  have hi : f.infCode = e * 2 ^ f.mant + 2 ^ f.mant := by
    unfold infCode
    rw [he]
    ring
  rw [hi, magVal_split f e _ (Nat.pow_le_pow_right (by norm_num) (by omega)) (.inr le_rfl)]
  push_cast
  rw [← zpow_natCast (2 : K) f.mant, ← zpow_add₀ two_ne_zero]
  congr 1
  have hbias : f.bias = 2 ^ (f.ebits - 1) - 1 := rfl
  have h3 : (2 : ℤ) ^ f.ebits = 2 * 2 ^ (f.ebits - 1) := by
    rw [← pow_succ']
    congr 1
    omega
  have h4 : ((2 ^ f.ebits : ℕ) : ℤ) = e + 2 := by omega
  push_cast at h4
  linarith

/-- The value of the nearest code. -/
theorem near_value (f : Fmt) {x : K} (hx : 0 ≤ x) :
    f.near x = (rne (x / 2 ^ (f.binExp x - f.mant)) : K) * 2 ^ (f.binExp x - f.mant) := by
  rw [near_of_nonneg f hx]
  obtain ⟨E, hE⟩ : ∃ E, f.binExp x = E := ⟨_, rfl⟩
  have hEge : 1 - f.bias ≤ E := by
    rw [← hE]; unfold binExp; split_ifs <;> omega
  obtain ⟨e, he⟩ : ∃ e : ℕ, (E - (1 - f.bias)) = e := ⟨(E - (1 - f.bias)).toNat, by omega⟩
  have hEe : E - f.mant = (e : ℤ) + 1 - f.bias - f.mant := by omega
  rw [hE]
  have hu : (0 : K) < 2 ^ (E - f.mant) := two_zpow_pos _
  have hpow : (2 : K) ^ (E + 1) = ((2 ^ (f.mant + 1) : ℕ) : K) * 2 ^ (E - (f.mant : ℤ)) := by
    push_cast
    rw [← zpow_natCast, ← zpow_add₀ two_ne_zero]; congr 1; push_cast; ring
  have hpow' : (2 : K) ^ E = ((2 ^ f.mant : ℕ) : K) * 2 ^ (E - (f.mant : ℤ)) := by
    push_cast
    rw [← zpow_natCast, ← zpow_add₀ two_ne_zero]; congr 1; ring
  have hqlt : x / 2 ^ (E - (f.mant : ℤ)) < ((2 ^ (f.mant + 1) : ℕ) : K) := by
    rw [div_lt_iff₀ hu, ← hpow, ← hE]
    unfold binExp
    split_ifs with h0
    · exact h0.trans_lt (two_zpow_pos _)
    · have h1 := Int.lt_zpow_succ_log_self (b := 2) (by norm_num) x
      have h2 : (2 : K) ^ (Int.log 2 x + 1) ≤ 2 ^ (max (Int.log 2 x) (1 - f.bias) + 1) :=
        zpow_le_zpow_right₀ one_le_two (by omega)
      push_cast at h1
      exact h1.trans_le h2
  have hqge : e = 0 ∨ ((2 ^ f.mant : ℕ) : K) ≤ x / 2 ^ (E - (f.mant : ℤ)) := by
    rcases Nat.eq_zero_or_pos e with h | h
    · exact .inl h
    · right
      have hlog : 0 < x ∧ Int.log 2 x = E := by
        unfold binExp at hE
        split_ifs at hE with h0
        · omega
        · exact ⟨lt_of_not_ge h0, by omega⟩
      have h1 := Int.zpow_log_le_self (b := 2) (by norm_num) hlog.1
      rw [hlog.2] at h1
      push_cast at h1
      rw [le_div_iff₀ hu, ← hpow']
      exact h1
  obtain ⟨k, hk⟩ : ∃ k : ℕ, rne (x / 2 ^ (E - (f.mant : ℤ))) = k := by
    have : 0 ≤ rne (x / 2 ^ (E - (f.mant : ℤ))) := le_rne (by simpa using div_nonneg hx hu.le)
    exact ⟨_, (Int.toNat_of_nonneg this).symm⟩
  have hkle : k ≤ 2 ^ (f.mant + 1) := by
    have : rne (x / 2 ^ (E - (f.mant : ℤ))) ≤ ((2 ^ (f.mant + 1) : ℕ) : ℤ) := rne_le (by
      have := hqlt.le
      push_cast at this ⊢; exact this)
    rw [hk] at this; exact_mod_cast this
  have hkge : e = 0 ∨ 2 ^ f.mant ≤ k := by
    rcases hqge with h | h
    · exact .inl h
    · right
      have : ((2 ^ f.mant : ℕ) : ℤ) ≤ rne (x / 2 ^ (E - (f.mant : ℤ))) := le_rne (by push_cast at h ⊢; exact h)
      rw [hk] at this; exact_mod_cast this
  have hc : f.preCode x = e * 2 ^ f.mant + k := by
    unfold preCode
    rw [hE, he, hk]
    simp
  rw [hc, magVal_split f e k hkle hkge, ← hEe, hk]
  push_cast
  rfl

/-- Rounding changes a number by half a unit in the last place at most. -/
theorem near_error (f : Fmt) (x : K) :
    |f.near x - x| ≤ |x| / 2 ^ (f.mant + 1) + 2 ^ (-f.bias - f.mant) := by
  wlog hx : 0 ≤ x generalizing x with H
  · have := H (-x) (by linarith)
    rw [near_neg, abs_neg, ← abs_neg] at this
    rwa [show -(-f.near x - -x) = f.near x - x by ring] at this
  rw [near_value f hx]
  have hu : (0 : K) < 2 ^ (f.binExp x - f.mant) := two_zpow_pos _
  have h1 : |(rne (x / 2 ^ (f.binExp x - f.mant)) : K) * 2 ^ (f.binExp x - f.mant) - x|
      ≤ 2 ^ (f.binExp x - f.mant) / 2 := by
    have h3 := rne_near (x / 2 ^ (f.binExp x - f.mant))
    calc _ = |(rne (x / 2 ^ (f.binExp x - f.mant)) : K) - x / 2 ^ (f.binExp x - f.mant)| * 2 ^ (f.binExp x - f.mant) := by
          rw [← abs_of_pos hu, ← abs_mul, abs_of_pos hu]
          congr 1
          field_simp
      _ ≤ 1 / 2 * 2 ^ (f.binExp x - f.mant) := mul_le_mul_of_nonneg_right h3 hu.le
      _ = _ := by ring
  refine h1.trans ?_
  have hsub : (2 : K) ^ (1 - f.bias - (f.mant : ℤ)) / 2 = 2 ^ (-f.bias - (f.mant : ℤ)) := by
    rw [show (1 - f.bias - (f.mant : ℤ)) = (-f.bias - f.mant) + 1 by ring, zpow_add_one₀ two_ne_zero]
    field_simp
  have hp : (0 : K) < 2 ^ (f.mant + 1) := by positivity
  unfold binExp
  split_ifs with h0
  · rw [hsub]
    have : (0 : K) ≤ |x| / 2 ^ (f.mant + 1) := by positivity
    linarith
  · rcases le_total (Int.log 2 x) (1 - f.bias) with hl | hl
    · rw [max_eq_right hl, hsub]
      have : (0 : K) ≤ |x| / 2 ^ (f.mant + 1) := by positivity
      linarith
    · rw [max_eq_left hl]
      have hx0 : 0 < x := lt_of_not_ge h0
      have e1 : (2 : K) ^ Int.log 2 x ≤ x := by exact_mod_cast Int.zpow_log_le_self (b := 2) (by norm_num) hx0
      rw [zpow_sub₀ two_ne_zero, zpow_natCast, div_div, ← pow_succ, abs_of_nonneg hx]
      have : (2 : K) ^ Int.log 2 x / 2 ^ (f.mant + 1) ≤ x / 2 ^ (f.mant + 1) := div_le_div_of_nonneg_right e1 hp.le
      have h4 : (0 : K) < 2 ^ (-f.bias - (f.mant : ℤ)) := two_zpow_pos _
      linarith

/-- How far apart neighbouring numbers are. -/
theorem magVal_gap (f : Fmt) (c : ℕ) :
    (f.magVal (c + 1) : K) / 2 ^ (f.mant + 1) ≤ f.magVal (c + 1) - f.magVal c := by
  obtain ⟨e, k, rfl, hk, h⟩ := exists_split f c
  rw [Nat.add_assoc, magVal_split f e (k + 1) hk (by omega), magVal_split f e k hk.le h]
  have hu := two_zpow_pos (K := K) ((e : ℤ) + 1 - f.bias - f.mant)
  have hp : (0 : K) < 2 ^ (f.mant + 1) := by positivity
  have hk' : ((k + 1 : ℕ) : K) ≤ 2 ^ (f.mant + 1) := by exact_mod_cast hk
  rw [div_le_iff₀ hp]
  have := mul_le_mul_of_nonneg_right hk' hu.le
  push_cast at this ⊢
  linarith

/-- What is little above a number of the format is not rounded above it. -/
theorem near_le_of (f : Fmt) {r y : K} (hy : f.near y = y) (h : r ≤ y + |y| / 2 ^ (f.mant + 3)) : f.near r ≤ y := by
  have hp : (0 : K) < 2 ^ (f.mant + 1) := by positivity
  have h4 : ∀ z : K, z / 2 ^ (f.mant + 3) = z / 2 ^ (f.mant + 1) / 4 := by
    intro z
    rw [show f.mant + 3 = f.mant + 1 + 2 by ring, pow_add]
    norm_num [div_div]
  rcases lt_or_ge y 0 with h0 | h0
  · -- a negative number: not rounded above from below means magnitude at least
    rw [abs_of_neg h0] at h
    have hm : f.magVal (f.preCode (-y)) = -y := by
      have := f.near_of_nonneg (show 0 ≤ -y by linarith)
      rw [near_neg, hy] at this
      exact this.symm
    obtain ⟨c, hc⟩ : ∃ c, f.preCode (-y) = c + 1 := by
      refine ⟨f.preCode (-y) - 1, ?_⟩
      have : f.preCode (-y) ≠ 0 := by
        intro hz
        rw [hz, magVal_zero] at hm
        linarith
      omega
    have hg := magVal_gap (K := K) f c
    rw [hc] at hm
    rw [hm] at hg
    rw [h4] at h
    have hq : 0 < -y / 2 ^ (f.mant + 1) := div_pos (by linarith) hp
    have hr : (f.magVal c + f.magVal (c + 1)) / 2 < -r := by
      rw [hm]
      linarith
    have hr0 : 0 ≤ -r := by
      have := magVal_nonneg (K := K) f c
      have := magVal_nonneg (K := K) f (c + 1)
      linarith
    have := le_preCode f (-r) hr0 c hr
    have hv := (magVal_strictMono (K := K) f).monotone this
    have hn := f.near_of_nonneg hr0
    rw [near_neg] at hn
    linarith
  · rw [abs_of_nonneg h0, h4] at h
    rcases le_or_gt r y with hr | hr
    · exact (near_mono f hr).trans hy.le
    · have hm : f.magVal (f.preCode y) = y := by
        rw [← f.near_of_nonneg h0, hy]
      have hg := magVal_gap (K := K) f (f.preCode y)
      have hs := magVal_succ (K := K) f (f.preCode y)
      rw [hm] at hg hs
      have hq : y / 2 ^ (f.mant + 1) ≤ f.magVal (f.preCode y + 1) / 2 ^ (f.mant + 1) :=
        div_le_div_of_nonneg_right hs.le hp.le
      have := preCode_le f r (h0.trans hr.le) (f.preCode y) (by
        rw [hm]
        linarith)
      rw [near_of_nonneg f (h0.trans hr.le), ← hm]
      exact (magVal_strictMono (K := K) f).monotone this

theorem le_near_of (f : Fmt) {r y : K} (hy : f.near y = y) (h : y - |y| / 2 ^ (f.mant + 3) ≤ r) : y ≤ f.near r := by
  have := near_le_of f (r := -r) (y := -y) (by rw [near_neg, hy]) (by rw [abs_neg]; linarith)
  rw [near_neg] at this
  linarith

/-- What is near a number of the format is rounded to it. -/
theorem near_absorb (f : Fmt) {r y : K} (hy : f.near y = y) (h : |r - y| ≤ |y| / 2 ^ (f.mant + 3)) : f.near r = y := by
  have := abs_le.mp h
  exact le_antisymm (near_le_of f hy (by linarith)) (le_near_of f hy (by linarith))

end Fmt

end CLF
