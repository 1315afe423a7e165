import Verif.Lemmas.Flt
import Mathlib.Tactic.NormNum
import Mathlib.Tactic.Positivity

/-! Lemmas about binary formats: monotonicity of the decoder, and nearness of the
encoder. -/

set_option linter.unusedSectionVars false

namespace CLF

variable {K : Type} [Field K] [LinearOrder K] [IsStrictOrderedRing K] [FloorRing K]

theorem two_zpow_pos (e : ℤ) : (0 : K) < 2 ^ e := zpow_pos two_pos e

namespace Fmt

/-! ### Rounding to integers -/

theorem rne_floor_or (q : K) : rne q = ⌊q⌋ ∧ q - ⌊q⌋ ≤ 1 / 2 ∨
    rne q = ⌊q⌋ + 1 ∧ 1 / 2 ≤ q - ⌊q⌋ := by
  unfold rne
  simp only
  split_ifs with h1 h2 h3
  · exact .inl ⟨rfl, h1.le⟩
  · exact .inr ⟨rfl, h2.le⟩
  · exact .inl ⟨rfl, le_of_not_gt h2⟩
  · exact .inr ⟨rfl, le_of_not_gt h1⟩

theorem rne_near (q : K) : |(rne q : K) - q| ≤ 1 / 2 := by
  rw [abs_le]
  rcases rne_floor_or q with ⟨e, h⟩ | ⟨e, h⟩
  · rw [e]
    have := Int.floor_le q
    constructor <;> linarith
  · rw [e]
    have := Int.lt_floor_add_one q
    push_cast
    constructor <;> linarith

theorem le_rne {q : K} {n : ℤ} (h : (n : K) ≤ q) : n ≤ rne q := by
  have := Int.le_floor.mpr h
  rcases rne_floor_or q with ⟨e, _⟩ | ⟨e, _⟩ <;> omega

theorem rne_le {q : K} {n : ℤ} (h : q ≤ n) : rne q ≤ n := by
  rcases rne_floor_or q with ⟨e, _⟩ | ⟨e, h'⟩
  · rw [e]
    have : (⌊q⌋ : K) ≤ n := (Int.floor_le q).trans h
    exact_mod_cast this
  · rw [e]
    have : (⌊q⌋ : K) < n := by linarith
    have : ⌊q⌋ < n := by exact_mod_cast this
    omega

/-! ### Values of codes -/

/-- A code split as exponent step and significand (hidden bit included). -/
theorem magVal_split (f : Fmt) (e k : ℕ) (hk : k ≤ 2 ^ (f.mant + 1))
    (h : e = 0 ∨ 2 ^ f.mant ≤ k) :
    (f.magVal (e * 2 ^ f.mant + k) : K) = k * 2 ^ ((e : ℤ) + 1 - f.bias - f.mant) := by
  have hM : 0 < 2 ^ f.mant := by positivity
  have h2 : 2 ^ (f.mant + 1) = 2 * 2 ^ f.mant := by ring
  rw [h2] at hk
  unfold magVal
  generalize hMM : 2 ^ f.mant = M at *
  rcases Nat.lt_or_ge k M with hlt | hge
  · have he : e = 0 := by rcases h with h | h <;> omega
    subst he
    have e1 : (0 * M + k) / M = 0 := by rw [Nat.zero_mul, Nat.zero_add]; exact Nat.div_eq_of_lt hlt
    have e2 : (0 * M + k) % M = k := by rw [Nat.zero_mul, Nat.zero_add]; exact Nat.mod_eq_of_lt hlt
    simp only [e1, e2, if_true]
    congr 2
  · rcases Nat.lt_or_ge k (2 * M) with hlt | hge2
    · have hr : e * M + k = (k - M) + (e + 1) * M := by
        rw [Nat.add_mul]; omega
      have e1 : (e * M + k) / M = e + 1 := by
        rw [hr, Nat.add_mul_div_right _ _ hM, Nat.div_eq_of_lt (by omega)]; omega
      have e2 : (e * M + k) % M = k - M := by
        rw [hr, Nat.add_mul_mod_self_right]; exact Nat.mod_eq_of_lt (by omega)
      simp only [e1, e2, Nat.succ_ne_zero, if_false]
      have : M + (k - M) = k := by omega
      rw [this]
      congr 2
    · have hk2 : k = 2 * M := by omega
      subst hk2
      have hr : e * M + 2 * M = 0 + (e + 2) * M := by rw [Nat.add_mul]; omega
      have e1 : (e * M + 2 * M) / M = e + 2 := by
        rw [hr, Nat.add_mul_div_right _ _ hM]; simp
      have e2 : (e * M + 2 * M) % M = 0 := by rw [hr]; simp
      simp only [e1, e2, Nat.add_eq_zero_iff, OfNat.ofNat_ne_zero, and_false, if_false, Nat.add_zero]
      have : (((e + 2 : ℕ) : ℤ) - f.bias - f.mant) = ((e : ℤ) + 1 - f.bias - f.mant) + 1 := by
        push_cast; ring
      rw [this, zpow_add_one₀ two_ne_zero]
      push_cast; ring

/-- Every code splits that way, strictly below the top. -/
theorem exists_split (f : Fmt) (c : ℕ) : ∃ e k : ℕ, c = e * 2 ^ f.mant + k ∧
    k < 2 ^ (f.mant + 1) ∧ (e = 0 ∨ 2 ^ f.mant ≤ k) := by
  have hM : 0 < 2 ^ f.mant := by positivity
  have h2 : 2 ^ (f.mant + 1) = 2 * 2 ^ f.mant := by ring
  rw [h2]
  generalize 2 ^ f.mant = M at *
  have hdm := Nat.div_add_mod c M
  have hlt := Nat.mod_lt c hM
  rcases Nat.eq_zero_or_pos (c / M) with h | h
  · refine ⟨0, c % M, ?_, by omega, .inl rfl⟩
    rw [h] at hdm; omega
  · obtain ⟨d, hd⟩ : ∃ d, c / M = d + 1 := ⟨c / M - 1, by omega⟩
    refine ⟨d, M + c % M, ?_, by omega, .inr (by omega)⟩
    rw [hd, Nat.mul_add, Nat.mul_comm M d] at hdm
    omega

theorem magVal_succ (f : Fmt) (c : ℕ) : (f.magVal c : K) < f.magVal (c + 1) := by
  obtain ⟨e, k, rfl, hk, h⟩ := exists_split f c
  rw [magVal_split f e k hk.le h, Nat.add_assoc, magVal_split f e (k + 1) hk (by omega)]
  have := two_zpow_pos (K := K) ((e : ℤ) + 1 - f.bias - f.mant)
  push_cast
  linarith

theorem magVal_strictMono (f : Fmt) : StrictMono (f.magVal : ℕ → K) :=
  strictMono_nat_of_lt_succ (magVal_succ f)

theorem magVal_zero (f : Fmt) : (f.magVal 0 : K) = 0 := by
  have := magVal_split (K := K) f 0 0 (by positivity) (.inl rfl)
  simpa using this

theorem magVal_nonneg (f : Fmt) (c : ℕ) : (0 : K) ≤ f.magVal c := by
  rw [← magVal_zero f]; exact (magVal_strictMono f).monotone (Nat.zero_le c)

/-! ### The nearest code -/

/-- The nearest code before overflow is cut off. -/
def preCode (f : Fmt) (x : K) : ℕ :=
  (f.binExp x - (1 - f.bias)).toNat * 2 ^ f.mant + (rne (x / 2 ^ (f.binExp x - f.mant))).toNat

theorem encodeMag_eq (f : Fmt) (x : K) : f.encodeMag x = min f.infCode (f.preCode x) := rfl

/-- The rounding step: the code's value and how far `x` can be from it. -/
theorem preCode_near (f : Fmt) (x : K) (hx : 0 ≤ x) :
    (f.magVal (f.preCode x) ≤ x → x ≤ (f.magVal (f.preCode x) + f.magVal (f.preCode x + 1)) / 2) ∧
    (x < f.magVal (f.preCode x) → 1 ≤ f.preCode x ∧
      (f.magVal (f.preCode x) + f.magVal (f.preCode x - 1)) / 2 ≤ x) := by
  have hM : 0 < 2 ^ f.mant := by positivity
  have h2M : 2 ^ (f.mant + 1) = 2 * 2 ^ f.mant := by ring
  -- the exponent
  obtain ⟨E, hE⟩ : ∃ E, f.binExp x = E := ⟨_, rfl⟩
  have hEge : 1 - f.bias ≤ E := by
    rw [← hE]; unfold binExp; split_ifs <;> omega
  obtain ⟨e, he⟩ : ∃ e : ℕ, (E - (1 - f.bias)) = e := ⟨(E - (1 - f.bias)).toNat, by omega⟩
  have hEe : E - f.mant = (e : ℤ) + 1 - f.bias - f.mant := by omega
  have hu : (0 : K) < 2 ^ (E - f.mant) := two_zpow_pos _
  set u : K := 2 ^ (E - (f.mant : ℤ)) with hudef
  -- the quotient
  set q : K := x / u with hq
  have hxq : x = q * u := by rw [hq, div_mul_cancel₀ _ hu.ne']
  have hq0 : 0 ≤ q := div_nonneg hx hu.le
  have hpow : (2 : K) ^ (E + 1) = ((2 ^ (f.mant + 1) : ℕ) : K) * u := by
    rw [hudef]; push_cast
    rw [← zpow_natCast, ← zpow_add₀ two_ne_zero]; congr 1; push_cast; ring
  have hpow' : (2 : K) ^ E = ((2 ^ f.mant : ℕ) : K) * u := by
    rw [hudef]; push_cast
    rw [← zpow_natCast, ← zpow_add₀ two_ne_zero]; congr 1; ring
  have hqlt : q < ((2 ^ (f.mant + 1) : ℕ) : K) := by
    have hlt : x < 2 ^ (E + 1) := by
      rw [← hE]; unfold binExp
      split_ifs with h0
      · exact h0.trans_lt (two_zpow_pos _)
      · have h1 := Int.lt_zpow_succ_log_self (b := 2) (by norm_num) x
        have h2 : (2 : K) ^ (Int.log 2 x + 1) ≤ 2 ^ (max (Int.log 2 x) (1 - f.bias) + 1) :=
          zpow_le_zpow_right₀ one_le_two (by omega)
        push_cast at h1
        exact h1.trans_le h2
    rw [hxq, hpow] at hlt
    exact lt_of_mul_lt_mul_right hlt hu.le
  have hqge : e = 0 ∨ ((2 ^ f.mant : ℕ) : K) ≤ q := by
    rcases Nat.eq_zero_or_pos e with h | h
    · exact .inl h
    · right
      have hlog : 0 < x ∧ Int.log 2 x = E := by
        unfold binExp at hE
        split_ifs at hE with h0
        · omega
        · exact ⟨lt_of_not_ge h0, by omega⟩
      have h1 := Int.zpow_log_le_self (b := 2) (by norm_num) hlog.1
      rw [hlog.2] at h1
      push_cast at h1
      rw [hpow', hxq] at h1
      exact le_of_mul_le_mul_right h1 hu
  -- the rounded quotient
  obtain ⟨k, hk⟩ : ∃ k : ℕ, rne q = k := by
    have : 0 ≤ rne q := le_rne (by simpa using hq0)
    exact ⟨(rne q).toNat, by omega⟩
  have hkle : k ≤ 2 ^ (f.mant + 1) := by
    have : rne q ≤ ((2 ^ (f.mant + 1) : ℕ) : ℤ) := rne_le (by
      have := hqlt.le
      push_cast at this ⊢; exact this)
    rw [hk] at this; exact_mod_cast this
  have hkge : e = 0 ∨ 2 ^ f.mant ≤ k := by
    rcases hqge with h | h
    · exact .inl h
    · right
      have : ((2 ^ f.mant : ℕ) : ℤ) ≤ rne q := le_rne (by push_cast at h ⊢; exact h)
      rw [hk] at this; exact_mod_cast this
  have hnear := rne_near q
  rw [hk] at hnear
  push_cast at hnear
  rw [abs_le] at hnear
  have hc : f.preCode x = e * 2 ^ f.mant + k := by
    unfold preCode
    rw [hE, he]
    have : x / 2 ^ (E - (f.mant : ℤ)) = q := rfl
    rw [this, hk]
    simp
  have hv : (f.magVal (f.preCode x) : K) = k * u := by
    rw [hc, magVal_split f e k hkle hkge, ← hEe]
  constructor
  · intro hle
    have hkq : (k : K) ≤ q := by
      rw [hv, hxq] at hle; exact le_of_mul_le_mul_right hle hu
    have hklt : k < 2 ^ (f.mant + 1) := by
      have := hkq.trans_lt hqlt
      exact_mod_cast this
    have hv1 : (f.magVal (f.preCode x + 1) : K) = (k + 1 : ℕ) * u := by
      rw [hc, Nat.add_assoc, magVal_split f e (k + 1) hklt (by omega), ← hEe]
    rw [hv, hv1]
    conv_lhs => rw [hxq]
    push_cast
    have := mul_le_mul_of_nonneg_right (show q ≤ k + 1 / 2 by linarith) hu.le
    linarith
  · intro hlt
    have hqk : q < k := by
      rw [hv] at hlt
      have h3 : q * u < k * u := by rw [← hxq]; exact hlt
      exact lt_of_mul_lt_mul_right h3 hu.le
    have hk1 : 1 ≤ k := by
      have : (0 : K) < k := hq0.trans_lt hqk
      exact_mod_cast this
    have hkge' : e = 0 ∨ 2 ^ f.mant ≤ k - 1 := by
      rcases hqge with h | h
      · exact .inl h
      · right
        have := h.trans_lt hqk
        have : 2 ^ f.mant < k := by exact_mod_cast this
        omega
    have hv1 : (f.magVal (f.preCode x - 1) : K) = (k - 1 : ℕ) * u := by
      rw [hc, show e * 2 ^ f.mant + k - 1 = e * 2 ^ f.mant + (k - 1) by omega,
        magVal_split f e (k - 1) (by omega) hkge', ← hEe]
    refine ⟨by rw [hc]; omega, ?_⟩
    rw [hv, hv1]
    conv_rhs => rw [hxq]
    push_cast [Nat.cast_sub hk1]
    have := mul_le_mul_of_nonneg_right (show (k : K) - 1 / 2 ≤ q by linarith) hu.le
    linarith

/-- Below a midpoint the code is at most the lower neighbour. -/
theorem preCode_le (f : Fmt) (x : K) (hx : 0 ≤ x) (C : ℕ)
    (h : x < (f.magVal C + f.magVal (C + 1)) / 2) : f.preCode x ≤ C := by
  by_contra hc
  have hge : C + 1 ≤ f.preCode x := by omega
  have h1 : (f.magVal (C + 1) : K) ≤ f.magVal (f.preCode x) := (magVal_strictMono f).monotone hge
  have h2 : (f.magVal C : K) ≤ f.magVal (f.preCode x - 1) :=
    (magVal_strictMono f).monotone (by omega)
  have h3 := magVal_succ (K := K) f C
  have h4 := ((preCode_near f x hx).2 (by linarith)).2
  linarith

/-- Above a midpoint the code is at least the upper neighbour. -/
theorem le_preCode (f : Fmt) (x : K) (hx : 0 ≤ x) (C : ℕ)
    (h : (f.magVal C + f.magVal (C + 1)) / 2 < x) : C + 1 ≤ f.preCode x := by
  by_contra hc
  have hge : f.preCode x ≤ C := by omega
  have h1 : (f.magVal (f.preCode x) : K) ≤ f.magVal C := (magVal_strictMono f).monotone hge
  have h2 : (f.magVal (f.preCode x + 1) : K) ≤ f.magVal (C + 1) :=
    (magVal_strictMono f).monotone (by omega)
  have h3 := magVal_succ (K := K) f C
  have h4 := (preCode_near f x hx).1 (by linarith)
  linarith

/-- The nearest code of a code's value is the code. -/
theorem preCode_magVal (f : Fmt) (c : ℕ) : f.preCode (f.magVal c : K) = c := by
  apply le_antisymm
  · apply preCode_le f _ (magVal_nonneg f c)
    have := magVal_succ (K := K) f c
    linarith
  · rcases c with _ | c
    · exact Nat.zero_le _
    · apply le_preCode f _ (magVal_nonneg f _)
      have := magVal_succ (K := K) f c
      linarith

theorem encodeMag_magVal (f : Fmt) (c : ℕ) (h : c ≤ f.infCode) : f.encodeMag (f.magVal c : K) = c := by
  rw [encodeMag_eq, preCode_magVal]; omega

theorem preCode_mono (f : Fmt) {x y : K} (hx : 0 ≤ x) (hxy : x ≤ y) :
    f.preCode x ≤ f.preCode y := by
  by_contra hc
  have hlt : f.preCode y + 1 ≤ f.preCode x := by omega
  have hy := hx.trans hxy
  obtain ⟨C, hC⟩ : ∃ C, f.preCode x = C + 1 := ⟨f.preCode x - 1, by omega⟩
  have h1 : (f.magVal C + f.magVal (C + 1) : K) / 2 ≤ x := by
    by_contra h
    have := preCode_le f x hx C (lt_of_not_ge h)
    omega
  have h2 : y ≤ (f.magVal (f.preCode y) + f.magVal (f.preCode y + 1) : K) / 2 := by
    by_contra h
    have := le_preCode f y hy _ (lt_of_not_ge h)
    omega
  have h3 : (f.magVal (f.preCode y) : K) ≤ f.magVal C := (magVal_strictMono f).monotone (by omega)
  have h4 : (f.magVal (f.preCode y + 1) : K) ≤ f.magVal (C + 1) :=
    (magVal_strictMono f).monotone (by omega)
  -- both are the same midpoint, so `x = y`
  have hxy' : x = y := by linarith
  subst hxy'
  omega

theorem infCode_lt_signBit (f : Fmt) : f.infCode < f.signBit := by
  unfold infCode signBit
  rw [pow_add]
  have h1 : 0 < 2 ^ f.mant := by positivity
  have h2 : 0 < 2 ^ f.ebits := by positivity
  exact Nat.mul_lt_mul_of_pos_right (by omega) h1

theorem encodeMag_le (f : Fmt) (x : K) : f.encodeMag x ≤ f.infCode := by
  rw [encodeMag_eq]; omega

end Fmt

end CLF
