import Verif.Lemmas.SingleText

set_option linter.unusedSectionVars false

/-!
# Integers scaled to the unit interval and back in `float32`
-/

namespace CLF

variable {K : Type} [Field K] [LinearOrder K] [IsStrictOrderedRing K] [FloorRing K]

theorem single_bias : single.bias = 127 := by decide

theorem single_mant : single.mant = 23 := rfl

/-- The code of an integer of at most 24 bits, `v = m * 2 ^ (e - 23)`. -/
theorem single_code (e m : ℕ) (hm1 : 2 ^ 23 ≤ m) (hm2 : m ≤ 2 ^ 24) :
    (single.magVal ((e + 126) * 2 ^ 23 + m) : K) = m * 2 ^ ((e : ℤ) - 23) := by
  have := Fmt.magVal_split (K := K) single (e + 126) m
    (by rw [single_mant]; norm_num at hm2 ⊢; exact hm2)
    (.inr (by rw [single_mant]; exact hm1))
  rw [single_mant, single_bias] at this
  rw [this, show (((e + 126 : ℕ) : ℤ) + 1 - 127 - ((23 : ℕ) : ℤ)) = (e : ℤ) - 23 by push_cast; ring]

/-- What rounds to `m * 2 ^ (e - 23)`. -/
theorem single_round_near (e m : ℕ) (he : e ≤ 100) (hm1 : 2 ^ 23 ≤ m) (hm2 : m < 2 ^ 24) (y : K)
    (h1 : y < m * 2 ^ ((e : ℤ) - 23) + 2 ^ ((e : ℤ) - 24))
    (h2 : m * 2 ^ ((e : ℤ) - 23) - 2 ^ ((e : ℤ) - 24) < y)
    (h3 : m = 2 ^ 23 → m * 2 ^ ((e : ℤ) - 23) - 2 ^ ((e : ℤ) - 25) < y) :
    single.round (.fin y) = .fin (m * 2 ^ ((e : ℤ) - 23)) := by
  have p25 : (0 : K) < 2 ^ ((e : ℤ) - 25) := two_zpow_pos _
  have e24 : (2 : K) ^ ((e : ℤ) - 24) = 2 * 2 ^ ((e : ℤ) - 25) := by
    rw [show (e : ℤ) - 24 = ((e : ℤ) - 25) + 1 by ring, zpow_add_one₀ two_ne_zero, mul_comm]
  have e23 : (2 : K) ^ ((e : ℤ) - 23) = 4 * 2 ^ ((e : ℤ) - 25) := by
    rw [show (e : ℤ) - 23 = ((e : ℤ) - 25) + 2 by ring, zpow_add₀ two_ne_zero]
    norm_num
    ring
  have hmK : (8388608 : K) ≤ m := by exact_mod_cast hm1
  have hy : 0 < y := by
    rw [e23, e24] at h2
    nlinarith
  have hlo : single.preCode y ≤ (e + 126) * 2 ^ 23 + m := by
    refine Fmt.preCode_le single y hy.le _ ?_
    rw [Nat.add_assoc, single_code e m hm1 hm2.le, single_code e (m + 1) (by omega) hm2]
    push_cast
    rw [e23, e24] at h1
    rw [e23]
    linarith
  have hhi : (e + 126) * 2 ^ 23 + m ≤ single.preCode y := by
    by_cases hm : m = 2 ^ 23
    · have := Fmt.le_preCode single y hy.le ((e + 125) * 2 ^ 23 + (2 ^ 24 - 1)) (by
        rw [show (e + 125) * 2 ^ 23 + (2 ^ 24 - 1) + 1 = (e + 126) * 2 ^ 23 + m by omega,
          single_code e m hm1 hm2.le]
        have hs := Fmt.magVal_split (K := K) single (e + 125) (2 ^ 24 - 1)
          (by rw [single_mant]; norm_num) (.inr (by rw [single_mant]; norm_num))
        rw [single_mant, single_bias] at hs
        rw [hs]
        have h3 := h3 hm
        rw [show (((e + 125 : ℕ) : ℤ) + 1 - 127 - ((23 : ℕ) : ℤ)) = (e : ℤ) - 24 by push_cast; ring, e24]
        rw [e23, hm] at h3
        rw [e23, hm]
        push_cast
        norm_num at h3 ⊢
        linarith)
      refine le_trans ?_ this
      clear this
      omega
    · have := Fmt.le_preCode single y hy.le ((e + 126) * 2 ^ 23 + (m - 1)) (by
        rw [show (e + 126) * 2 ^ 23 + (m - 1) + 1 = (e + 126) * 2 ^ 23 + m by omega,
          single_code e m hm1 hm2.le, single_code e (m - 1) (by omega) (by omega)]
        rw [Nat.cast_sub (by omega)]
        rw [e23, e24] at h2
        rw [e23]
        push_cast
        linarith)
      refine le_trans ?_ this
      clear this
      omega
  have hc : single.preCode y = (e + 126) * 2 ^ 23 + m := le_antisymm hlo hhi
  have hinf : single.infCode = 255 * 2 ^ 23 := rfl
  have hsb : single.signBit = 256 * 2 ^ 23 := rfl
  have henc : single.encodeMag y = (e + 126) * 2 ^ 23 + m := by
    rw [Fmt.encodeMag_eq, hc, hinf]
    omega
  unfold Fmt.round Fmt.encode Fmt.decode
  simp only [abs_of_pos hy, henc, if_neg (not_lt.mpr hy.le), hinf, hsb]
  simp only [Nat.zero_add]
  rw [Nat.mod_eq_of_lt (by omega), if_pos (by omega), single_code e m hm1 hm2.le]
  rw [if_neg (by simp; omega)]

/-- Integers of at most 24 bits are `float32` values. -/
theorem single_nat (v : ℕ) (hv : v < 2 ^ 24) : single.round (.fin (v : K)) = .fin (v : K) := by
  rcases Nat.eq_zero_or_pos v with rfl | hpos
  · have : single.encodeMag (0 : K) = 0 := by
      have := Fmt.encodeMag_magVal (K := K) single 0 (by decide)
      rwa [Fmt.magVal_zero] at this
    have hinf : 0 < single.infCode := by decide
    have hsb : ¬single.signBit ≤ 0 := by decide
    simp [Fmt.round, Fmt.encode, Fmt.decode, this, Fmt.magVal_zero, hinf, hsb]
  · have hlog1 := Nat.pow_log_le_self 2 hpos.ne'
    have hlog2 := Nat.lt_pow_succ_log_self (b := 2) (by norm_num) v
    set e := Nat.log 2 v with he
    have he23 : e ≤ 23 := by
      by_contra hc
      have := Nat.pow_le_pow_right (n := 2) (by norm_num) (show 24 ≤ e by omega)
      omega
    have hvm : (v : K) = ((v * 2 ^ (23 - e) : ℕ) : K) * 2 ^ ((e : ℤ) - 23) := by
      push_cast
      rw [mul_assoc, ← zpow_natCast, ← zpow_add₀ two_ne_zero, Nat.cast_sub he23]
      push_cast
      rw [show ((23 : ℤ) - e + (e - 23)) = 0 by ring, zpow_zero, mul_one]
    have hm1 : 2 ^ 23 ≤ v * 2 ^ (23 - e) := by
      calc 2 ^ 23 = 2 ^ e * 2 ^ (23 - e) := by rw [← pow_add]; congr 1; omega
        _ ≤ _ := Nat.mul_le_mul_right _ hlog1
    have hm2 : v * 2 ^ (23 - e) < 2 ^ 24 := by
      calc v * 2 ^ (23 - e) < 2 ^ (e + 1) * 2 ^ (23 - e) := Nat.mul_lt_mul_of_pos_right hlog2 (by positivity)
        _ = 2 ^ 24 := by rw [← pow_add]; congr 1; omega
    have p24 := two_zpow_pos (K := K) ((e : ℤ) - 24)
    have p25 := two_zpow_pos (K := K) ((e : ℤ) - 25)
    have := single_round_near (K := K) e (v * 2 ^ (23 - e)) (by omega) hm1 hm2 v
      (by rw [← hvm]; linarith) (by rw [← hvm]; linarith) (fun _ => by rw [← hvm]; linarith)
    rwa [← hvm] at this

/-- The rounding of a normal value. -/
theorem Fmt.round_binade (f : Fmt) (hb2 : 2 ≤ f.ebits) (E : ℤ) (h1 : 1 - f.bias ≤ E) (h2 : E < f.bias) (x : K)
    (hx1 : 2 ^ E ≤ x) (hx2 : x < 2 ^ (E + 1)) :
    f.round (.fin x) = .fin ((Fmt.rne (x / 2 ^ (E - f.mant)) : K) * 2 ^ (E - f.mant)) := by
  have hx : 0 < x := lt_of_lt_of_le (two_zpow_pos E) hx1
  have hlog : Int.log 2 x = E := by
    refine le_antisymm ?_ ?_
    · have h := (Int.lt_zpow_iff_log_lt (b := 2) (by norm_num) hx (x := E + 1)).mp (by exact_mod_cast hx2)
      omega
    · exact (Int.zpow_le_iff_le_log (b := 2) (by norm_num) hx).mp (by exact_mod_cast hx1)
  have hb : f.binExp x = E := by
    unfold Fmt.binExp
    rw [if_neg (not_le.mpr hx), hlog]
    omega
  have p23 := two_zpow_pos (K := K) (E - f.mant)
  have hq1 : (((2 ^ f.mant : ℕ) : ℤ) : K) ≤ x / 2 ^ (E - f.mant) := by
    rw [le_div_iff₀ p23]
    refine le_trans (le_of_eq ?_) hx1
    push_cast
    rw [← zpow_natCast (2 : K) f.mant, ← zpow_add₀ two_ne_zero]
    congr 1
    ring
  have hq2 : x / 2 ^ (E - f.mant) ≤ (((2 ^ (f.mant + 1) : ℕ) : ℤ) : K) := by
    rw [div_le_iff₀ p23]
    refine le_trans hx2.le (le_of_eq ?_)
    push_cast
    rw [← zpow_natCast (2 : K) (f.mant + 1), ← zpow_add₀ two_ne_zero]
    congr 1
    push_cast
    ring
  have hk1 := Fmt.le_rne hq1
  have hk2 := Fmt.rne_le hq2
  obtain ⟨k, hk⟩ := Int.eq_ofNat_of_zero_le (show (0 : ℤ) ≤ Fmt.rne (x / 2 ^ (E - f.mant)) by omega)
  obtain ⟨e, he⟩ := Int.eq_ofNat_of_zero_le (show (0 : ℤ) ≤ E - (1 - f.bias) by omega)
  rw [hk] at hk1 hk2 ⊢
  have hk1' : 2 ^ f.mant ≤ k := by exact_mod_cast hk1
  have hk2' : k ≤ 2 ^ (f.mant + 1) := by exact_mod_cast hk2
  have hpre : f.preCode x = e * 2 ^ f.mant + k := by
    unfold Fmt.preCode
    rw [hb, hk, he]
    simp
  have hval : (f.magVal (e * 2 ^ f.mant + k) : K) = k * 2 ^ (E - f.mant) := by
    have hs := Fmt.magVal_split (K := K) f e k hk2' (.inr hk1')
    rw [hs, show ((e : ℤ) + 1 - f.bias - f.mant) = E - f.mant by omega]
  have hbias : f.bias = 2 ^ (f.ebits - 1) - 1 := rfl
  have he2 : e + 3 ≤ 2 ^ f.ebits - 1 := by
    obtain ⟨m, hm⟩ := Nat.exists_eq_add_of_le hb2
    rw [hm] at hbias ⊢
    have h3 : ((2 : ℤ) ^ (2 + m - 1)) = ((2 ^ (m + 1) : ℕ) : ℤ) := by
      rw [show 2 + m - 1 = m + 1 by omega]
      push_cast
      rfl
    rw [h3] at hbias
    have h4 : 2 ^ (2 + m) = 2 * 2 ^ (m + 1) := by ring
    omega
  have hlt : e * 2 ^ f.mant + k < f.infCode := by
    unfold Fmt.infCode
    have h5 : 2 ^ (f.mant + 1) = 2 * 2 ^ f.mant := by ring
    have h6 := Nat.mul_le_mul_right (2 ^ f.mant) he2
    have h7 : 0 < 2 ^ f.mant := by positivity
    have h8 : (e + 3) * 2 ^ f.mant = e * 2 ^ f.mant + 3 * 2 ^ f.mant := by ring
    omega
  have hsb := infCode_lt_signBit f
  have henc : f.encodeMag x = e * 2 ^ f.mant + k := by
    rw [Fmt.encodeMag_eq, hpre]
    omega
  unfold Fmt.round Fmt.encode Fmt.decode
  simp only [abs_of_pos hx, henc, if_neg (not_lt.mpr hx.le)]
  simp only [Nat.zero_add]
  rw [Nat.mod_eq_of_lt (by omega), if_pos (by omega), hval]
  rw [if_neg (by simp; omega)]
  simp

theorem rne_int (k : ℤ) : Fmt.rne (k : K) = k := rne_of_lt (by simp)

theorem Fmt.round_zero (f : Fmt) (hb2 : 1 ≤ f.ebits) : f.round (.fin (0 : K)) = .fin 0 := by
  have h := Fmt.encodeMag_magVal (K := K) f 0 (Nat.zero_le _)
  rw [Fmt.magVal_zero] at h
  have hinf : 0 < f.infCode := by
    unfold Fmt.infCode
    have h1 : 2 ^ 1 ≤ 2 ^ f.ebits := Nat.pow_le_pow_right (by norm_num) hb2
    have h2 : 0 < 2 ^ f.mant := by positivity
    exact Nat.mul_pos (by omega) h2
  have hsb : ¬f.signBit ≤ 0 := by
    have := infCode_lt_signBit f
    omega
  simp [Fmt.round, Fmt.encode, Fmt.decode, h, Fmt.magVal_zero, hinf, hsb]

/-- Short multiples of powers of two are kept. -/
theorem Fmt.round_short (f : Fmt) (hb2 : 2 ≤ f.ebits) (N : ℕ) (hN : N < 2 ^ (f.mant + 1)) (g : ℤ)
    (h1 : 1 - f.bias ≤ g) (h2 : g + f.mant < f.bias) :
    f.round (.fin ((N : K) * 2 ^ g)) = .fin ((N : K) * 2 ^ g) := by
  rcases Nat.eq_zero_or_pos N with rfl | hpos
  · simpa using Fmt.round_zero (K := K) f (by omega)
  have hlog1 := Nat.pow_log_le_self 2 hpos.ne'
  have hlog2 := Nat.lt_pow_succ_log_self (b := 2) (by norm_num) N
  generalize Nat.log 2 N = e at hlog1 hlog2
  have he : e ≤ f.mant := by
    by_contra hc
    have := Nat.pow_le_pow_right (n := 2) (by norm_num) (show f.mant + 1 ≤ e by omega)
    omega
  have pg := two_zpow_pos (K := K) g
  have h1K : (2 : K) ^ ((e : ℤ) + g) ≤ N * 2 ^ g := by
    rw [zpow_add₀ two_ne_zero, zpow_natCast]
    exact mul_le_mul_of_nonneg_right (by exact_mod_cast hlog1) pg.le
  have h2K : (N : K) * 2 ^ g < 2 ^ ((e : ℤ) + g + 1) := by
    rw [show (e : ℤ) + g + 1 = ((e + 1 : ℕ) : ℤ) + g by push_cast; ring, zpow_add₀ two_ne_zero, zpow_natCast]
    exact mul_lt_mul_of_pos_right (by exact_mod_cast hlog2) pg
  rw [Fmt.round_binade f hb2 _ (by omega) (by omega) _ h1K h2K]
  have hq : (N : K) * 2 ^ g / 2 ^ ((e : ℤ) + g - f.mant) = (((N * 2 ^ (f.mant - e) : ℕ) : ℤ) : K) := by
    rw [div_eq_iff (two_zpow_pos _).ne']
    push_cast
    rw [mul_assoc, ← zpow_natCast (2 : K) (f.mant - e), ← zpow_add₀ two_ne_zero, Nat.cast_sub he]
    congr 2
    ring
  rw [hq, rne_int, ← hq, div_mul_cancel₀ _ (two_zpow_pos _).ne']

theorem Fmt.round_near (f : Fmt) (hb2 : 2 ≤ f.ebits) (E : ℤ) (h1 : 1 - f.bias ≤ E) (h2 : E < f.bias) (x : K)
    (hx1 : 2 ^ E ≤ x) (hx2 : x < 2 ^ (E + 1)) :
    ∃ x', f.round (.fin x) = .fin x' ∧ 2 ^ E ≤ x' ∧ |x' - x| ≤ 2 ^ (E - f.mant) / 2 := by
  have p := two_zpow_pos (K := K) (E - f.mant)
  refine ⟨_, Fmt.round_binade f hb2 E h1 h2 x hx1 hx2, ?_, ?_⟩
  · have hq1 : (((2 ^ f.mant : ℕ) : ℤ) : K) ≤ x / 2 ^ (E - f.mant) := by
      rw [le_div_iff₀ p]
      refine le_trans (le_of_eq ?_) hx1
      push_cast
      rw [← zpow_natCast (2 : K) f.mant, ← zpow_add₀ two_ne_zero]
      congr 1
      ring
    have h3 : (((2 ^ f.mant : ℕ) : ℤ) : K) ≤ (Fmt.rne (x / 2 ^ (E - f.mant)) : K) := by
      exact_mod_cast Fmt.le_rne hq1
    calc (2 : K) ^ E = (((2 ^ f.mant : ℕ) : ℤ) : K) * 2 ^ (E - f.mant) := by
          push_cast
          rw [← zpow_natCast (2 : K) f.mant, ← zpow_add₀ two_ne_zero]
          congr 1
          ring
      _ ≤ _ := mul_le_mul_of_nonneg_right h3 p.le
  · have h3 := Fmt.rne_near (x / 2 ^ (E - f.mant))
    calc |(Fmt.rne (x / 2 ^ (E - f.mant)) : K) * 2 ^ (E - f.mant) - x|
        = |((Fmt.rne (x / 2 ^ (E - f.mant)) : K) - x / 2 ^ (E - f.mant)) * 2 ^ (E - f.mant)| := by
          congr 1
          field_simp
      _ = |(Fmt.rne (x / 2 ^ (E - f.mant)) : K) - x / 2 ^ (E - f.mant)| * 2 ^ (E - f.mant) := by
          rw [abs_mul, abs_of_pos p]
      _ ≤ 1 / 2 * 2 ^ (E - f.mant) := mul_le_mul_of_nonneg_right h3 p.le
      _ = _ := by ring

/-- What a rounding step may do to an intermediate result before it is stored: nothing, or
rounding to `float64`. -/
def Spec.Wide (w : Flt K → Flt K) : Prop := (∀ x, w x = x) ∨ (∀ x, w x = double.round x)

theorem double_bias : double.bias = 1023 := by decide

theorem double_mant : double.mant = 52 := rfl

theorem wide_short {w : Flt K → Flt K} (hw : Spec.Wide w) (N : ℕ) (hN : N < 2 ^ 53) (g : ℤ)
    (h1 : -1000 ≤ g) (h2 : g ≤ 900) : w (.fin ((N : K) * 2 ^ g)) = .fin ((N : K) * 2 ^ g) := by
  rcases hw with h | h
  · rw [h]
  · rw [h]
    exact Fmt.round_short double (by decide) N (by rw [double_mant]; norm_num at hN ⊢; exact hN) g
      (by rw [double_bias]; omega) (by rw [double_bias, double_mant]; omega)

theorem wide_near {w : Flt K → Flt K} (hw : Spec.Wide w) (E : ℤ) (h1 : -1000 ≤ E) (h2 : E ≤ 900) (x : K)
    (hx1 : 2 ^ E ≤ x) (hx2 : x < 2 ^ (E + 1)) :
    ∃ x', w (.fin x) = .fin x' ∧ 2 ^ E ≤ x' ∧ |x' - x| ≤ 2 ^ (E - 53) := by
  rcases hw with h | h
  · exact ⟨x, h _, hx1, by simp [(two_zpow_pos _).le]⟩
  · obtain ⟨x', e1, e2, e3⟩ := Fmt.round_near double (by decide) E (by rw [double_bias]; omega)
      (by rw [double_bias]; omega) x hx1 hx2
    refine ⟨x', by rw [h]; exact e1, e2, le_trans e3 (le_of_eq ?_)⟩
    rw [double_mant, show E - 53 = (E - (52 : ℕ)) - 1 by push_cast; ring, zpow_sub_one₀ two_ne_zero, div_eq_mul_inv]

theorem wide_nat {w : Flt K → Flt K} (hw : Spec.Wide w) (v : ℕ) (hv : v < 2 ^ 24) :
    single.round (w (.fin (v : K))) = .fin (v : K) := by
  have := wide_short hw v (by omega) 0 (by norm_num) (by norm_num)
  rw [zpow_zero, mul_one] at this
  rw [this, single_nat v hv]

/-- An integer of 8, 10, 12 or 16 bits divided by the largest one and multiplied back, each result
stored as `float32`, is unchanged. -/
theorem single_scale {w : Flt K → Flt K} (hw : Spec.Wide w) (n : ℕ) (hn : n = 8 ∨ n = 10 ∨ n = 12 ∨ n = 16)
    (v : ℕ) (hv : v < 2 ^ n) :
    ∃ q : K, single.round (w (.fin ((v : K) / (2 ^ n - 1)))) = .fin q ∧
      single.round (w (.fin q)) = .fin q ∧
      single.round (w (.fin (q * (2 ^ n - 1)))) = .fin (v : K) := by
  have hn16 : n ≤ 16 := by omega
  have hn8 : 8 ≤ n := by omega
  have hpow : 2 ^ n ≤ 2 ^ 16 := Nat.pow_le_pow_right (by norm_num) hn16
  have hpow8 : 2 ^ 8 ≤ 2 ^ n := Nat.pow_le_pow_right (by norm_num) hn8
  have hM1 : (2 : K) ^ n ≤ 65536 := by
    have : ((2 ^ n : ℕ) : K) ≤ ((2 ^ 16 : ℕ) : K) := by exact_mod_cast hpow
    push_cast at this
    norm_num at this
    exact this
  have hM0 : (0 : K) < 2 ^ n - 1 := by
    have : ((2 ^ 8 : ℕ) : K) ≤ ((2 ^ n : ℕ) : K) := by exact_mod_cast hpow8
    push_cast at this
    norm_num at this
    linarith
  have z0 : single.round (w (.fin (0 : K))) = .fin 0 := by simpa using wide_nat hw 0 (by norm_num)
  have z1 : single.round (w (.fin (1 : K))) = .fin 1 := by simpa using wide_nat hw 1 (by norm_num)
  rcases Nat.eq_zero_or_pos v with rfl | hpos
  · exact ⟨0, by simpa using z0, z0, by simpa using z0⟩
  by_cases hvM : v = 2 ^ n - 1
  · have hvK : (v : K) = 2 ^ n - 1 := by
      rw [hvM, Nat.cast_sub (by omega)]
      simp
    refine ⟨1, ?_, z1, ?_⟩
    · rw [hvK, div_self hM0.ne']
      exact z1
    · rw [one_mul, ← hvK]
      exact wide_nat hw v (by omega)
  have hlog1 := Nat.pow_log_le_self 2 hpos.ne'
  have hlog2 := Nat.lt_pow_succ_log_self (b := 2) (by norm_num) v
  generalize Nat.log 2 v = e at hlog1 hlog2
  have hen : e < n := by
    by_contra hc
    have := Nat.pow_le_pow_right (n := 2) (by norm_num) (show n ≤ e by omega)
    omega
  have h1K : (2 : K) ^ (e : ℤ) ≤ v := by
    rw [zpow_natCast]
    exact_mod_cast hlog1
  have hv1 : (v : K) + 1 ≤ 2 ^ n - 1 := by
    have : ((v + 1 + 1 : ℕ) : K) ≤ ((2 ^ n : ℕ) : K) := by
      exact_mod_cast (show v + 1 + 1 ≤ 2 ^ n by omega)
    push_cast at this
    linarith
  have hpe : (2 : K) ^ ((e : ℤ) - n) * 2 ^ n = 2 ^ (e : ℤ) := by
    rw [← zpow_natCast (2 : K) n, ← zpow_add₀ two_ne_zero]
    congr 1
    ring
  have pen := two_zpow_pos (K := K) ((e : ℤ) - n)
  -- the binade of the quotient
  have hx1 : (2 : K) ^ ((e : ℤ) - n) ≤ (v : K) / (2 ^ n - 1) := by
    rw [le_div_iff₀ hM0]
    nlinarith
  have hx3 : (v : K) / (2 ^ n - 1) ≤ 2 ^ ((e : ℤ) - n + 1) - 1 / 131072 := by
    rw [div_le_iff₀ hM0, zpow_add_one₀ two_ne_zero]
    rcases Nat.lt_or_ge (e + 1) n with h | h
    · have hlt : (2 : K) ^ ((e : ℤ) - n) * 2 ≤ 1 / 2 := by
        rw [← zpow_add_one₀ two_ne_zero]
        calc (2 : K) ^ ((e : ℤ) - n + 1) ≤ 2 ^ (-1 : ℤ) := zpow_le_zpow_right₀ (by norm_num) (by omega)
          _ = 1 / 2 := by norm_num
      have hv2 : (v : K) + 1 ≤ 2 ^ (e : ℤ) * 2 := by
        rw [zpow_natCast, ← pow_succ]
        exact_mod_cast hlog2
      nlinarith
    · have : (e : ℤ) - n = -1 := by omega
      rw [this]
      norm_num
      nlinarith
  have pe1 : (2 : K) ^ ((e : ℤ) - n) ≤ 1 / 2 := by
    calc (2 : K) ^ ((e : ℤ) - n) ≤ 2 ^ (-1 : ℤ) := zpow_le_zpow_right₀ (by norm_num) (by omega)
      _ = 1 / 2 := by norm_num
  have p53 : (2 : K) ^ ((e : ℤ) - n - 53) = 2 ^ ((e : ℤ) - n) / 9007199254740992 := by
    rw [zpow_sub₀ two_ne_zero]
    norm_num
  have p23e : (2 : K) ^ ((e : ℤ) - n - 23) = 2 ^ ((e : ℤ) - n) / 8388608 := by
    rw [zpow_sub₀ two_ne_zero]
    norm_num
  obtain ⟨x', hw1, hx1', hnear'⟩ := wide_near hw ((e : ℤ) - n) (by omega) (by omega) _ hx1 (by linarith)
  have hn' := abs_le.mp hnear'
  rw [p53] at hn'
  have hx2' : x' < 2 ^ ((e : ℤ) - n + 1) := by linarith
  have hr := Fmt.round_binade single (by decide) ((e : ℤ) - n) (by rw [single_bias]; omega)
    (by rw [single_bias]; omega) x' hx1' hx2'
  rw [single_mant] at hr
  push_cast at hr
  have p23 := two_zpow_pos (K := K) ((e : ℤ) - n - 23)
  set t' : K := x' / 2 ^ ((e : ℤ) - n - 23) with ht'
  set t : K := (v : K) / (2 ^ n - 1) / 2 ^ ((e : ℤ) - n - 23) with ht
  have htt : |t' - t| ≤ 1 / 1073741824 := by
    rw [ht', ht, ← sub_div, abs_div, abs_of_pos p23, div_le_iff₀ p23, p23e]
    refine le_trans hnear' (le_of_eq ?_)
    rw [p53]
    ring
  have htt := abs_le.mp htt
  have hk1 : (8388608 : ℤ) ≤ Fmt.rne t' := Fmt.le_rne (by
    rw [ht', le_div_iff₀ p23, p23e]
    push_cast
    linarith)
  have hk2 : Fmt.rne t' ≤ (16777216 : ℤ) := Fmt.rne_le (by
    rw [ht', div_le_iff₀ p23, p23e]
    push_cast
    rw [zpow_add_one₀ two_ne_zero] at hx2'
    linarith)
  have hnear := abs_le.mp (Fmt.rne_near t')
  generalize hkk : Fmt.rne t' = kz at hk1 hk2 hnear hr
  obtain ⟨k, rfl⟩ := Int.eq_ofNat_of_zero_le (show (0 : ℤ) ≤ kz by omega)
  simp only [Int.cast_natCast] at hr hnear
  have hk24 : k ≤ 16777216 := by omega
  have hq := hr
  rw [← hw1] at hr
  refine ⟨_, hr, ?_, ?_⟩
  · rw [wide_short hw k (by omega) _ (by omega) (by omega)]
    rcases Nat.lt_or_ge k (2 ^ 24) with h | h
    · exact Fmt.round_short single (by decide) k (by rw [single_mant]; norm_num; omega) _
        (by rw [single_bias]; omega) (by rw [single_bias, single_mant]; omega)
    · have hk : (k : K) * 2 ^ ((e : ℤ) - n - 23) = ((1 : ℕ) : K) * 2 ^ ((e : ℤ) - n + 1) := by
        rw [show k = 2 ^ 24 by omega, show (e : ℤ) - n + 1 = 24 + (e - n - 23) by ring, zpow_add₀ two_ne_zero]
        norm_num
      rw [hk]
      exact Fmt.round_short single (by decide) 1 (by rw [single_mant]; norm_num) _
        (by rw [single_bias]; omega) (by rw [single_bias, single_mant]; omega)
  have hprod : (k : K) * 2 ^ ((e : ℤ) - n - 23) * (2 ^ n - 1)
      = ((k * (2 ^ n - 1) : ℕ) : K) * 2 ^ ((e : ℤ) - n - 23) := by
    push_cast [Nat.cast_sub (show 1 ≤ 2 ^ n by omega)]
    ring
  have hkM : k * (2 ^ n - 1) < 2 ^ 53 := by
    calc k * (2 ^ n - 1) ≤ 16777216 * 65536 := Nat.mul_le_mul hk24 (by omega)
      _ < 2 ^ 53 := by norm_num
  rw [hprod, wide_short hw _ hkM _ (by omega) (by omega), ← hprod]
  have hvt : (v : K) = t * (2 ^ n - 1) * 2 ^ ((e : ℤ) - n - 23) := by
    rw [ht]
    field_simp
  have hs24 : (2 : K) ^ ((e : ℤ) - 24) = 2 ^ n * 2 ^ ((e : ℤ) - n - 23) / 2 := by
    rw [← zpow_natCast (2 : K) n, ← zpow_add₀ two_ne_zero, show (e : ℤ) - 24 = (n : ℤ) + (e - n - 23) - 1 by ring,
      zpow_sub_one₀ two_ne_zero, div_eq_mul_inv]
  have hs25 : (2 : K) ^ ((e : ℤ) - 25) = 2 ^ n * 2 ^ ((e : ℤ) - n - 23) / 4 := by
    rw [show (e : ℤ) - 25 = ((e : ℤ) - 24) - 1 by ring, zpow_sub_one₀ two_ne_zero, hs24]
    field_simp
    norm_num
  have he23 : e ≤ 23 := by omega
  have hvm : (v : K) = ((v * 2 ^ (23 - e) : ℕ) : K) * 2 ^ ((e : ℤ) - 23) := by
    push_cast
    rw [mul_assoc, ← zpow_natCast, ← zpow_add₀ two_ne_zero, Nat.cast_sub he23]
    push_cast
    rw [show ((23 : ℤ) - e + (e - 23)) = 0 by ring, zpow_zero, mul_one]
  have hm1 : 2 ^ 23 ≤ v * 2 ^ (23 - e) := by
    calc 2 ^ 23 = 2 ^ e * 2 ^ (23 - e) := by rw [← pow_add]; congr 1; omega
      _ ≤ _ := Nat.mul_le_mul_right _ hlog1
  have hm2 : v * 2 ^ (23 - e) < 2 ^ 24 := by
    calc v * 2 ^ (23 - e) < 2 ^ (e + 1) * 2 ^ (23 - e) := Nat.mul_lt_mul_of_pos_right hlog2 (by positivity)
      _ = 2 ^ 24 := by rw [← pow_add]; congr 1; omega
  have hgoal := single_round_near (K := K) e (v * 2 ^ (23 - e)) (by omega) hm1 hm2
    ((k : K) * 2 ^ ((e : ℤ) - n - 23) * (2 ^ n - 1))
  rw [← hvm, hs24, hs25] at hgoal
  -- how far the product is from `v`
  have hd1 : ((k : K) - t) * (2 ^ n - 1) < 2 ^ n / 2 := by
    have h := mul_le_mul_of_nonneg_right (show (k : K) - t ≤ 1 / 2 + 1 / 1073741824 by linarith) hM0.le
    linarith
  have hd2 : -(2 ^ n / 2) < ((k : K) - t) * (2 ^ n - 1) := by
    have h := mul_le_mul_of_nonneg_right (show -(1 / 2 + 1 / 1073741824) ≤ (k : K) - t by linarith) hM0.le
    linarith
  refine hgoal ?_ ?_ ?_
  · have h := mul_lt_mul_of_pos_right hd1 p23
    rw [hvt]
    linarith
  · have h := mul_lt_mul_of_pos_right hd2 p23
    rw [hvt]
    linarith
  · intro hm
    have hv2 : v = 2 ^ e := by
      have h : v * 2 ^ (23 - e) = 2 ^ e * 2 ^ (23 - e) := by
        rw [hm, ← pow_add]
        congr 1
        omega
      exact Nat.eq_of_mul_eq_mul_right (by positivity) h
    have htv : t * (2 ^ n - 1) = 2 ^ n * 8388608 := by
      have h : t * (2 ^ n - 1) * 2 ^ ((e : ℤ) - n - 23) = 2 ^ n * 8388608 * 2 ^ ((e : ℤ) - n - 23) := by
        rw [← hvt, hv2]
        push_cast
        rw [← zpow_natCast (2 : K) n, ← zpow_natCast (2 : K) e,
          show (8388608 : K) = 2 ^ (23 : ℤ) by norm_num, ← zpow_add₀ two_ne_zero, ← zpow_add₀ two_ne_zero]
        congr 1
        ring
      exact mul_right_cancel₀ p23.ne' h
    have hte := eq_div_of_mul_eq hM0.ne' htv
    have key : 2 ^ n * 8388608 - 2 ^ n / 4 < (k : K) * (2 ^ n - 1) := by
      have hfin : ∀ z : ℤ, |t - z| < 1 / 2 - 1 / 1073741824 → (k : K) = z := by
        intro z hz
        have hz := abs_lt.mp hz
        have : Fmt.rne t' = z := rne_of_lt (by
          rw [abs_lt]
          constructor <;> linarith)
        rw [hkk] at this
        exact_mod_cast congrArg (Int.cast (R := K)) this
      rcases hn with rfl | rfl | rfl | rfl
      · rw [hfin 8421505 (by rw [hte, abs_lt]; norm_num)]; norm_num
      · rw [hfin 8396808 (by rw [hte, abs_lt]; norm_num)]; norm_num
      · rw [hfin 8390657 (by rw [hte, abs_lt]; norm_num)]; norm_num
      · rw [hfin 8388736 (by rw [hte, abs_lt]; norm_num)]; norm_num
    have h := mul_lt_mul_of_pos_right key p23
    rw [hvt, htv]
    linarith

end CLF
