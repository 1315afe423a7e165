import Verif.Lemmas.ArrayText
import Verif.Spec.Bits
import Verif.Spec.Text

/-! The model's formats are the specified ones. -/

set_option linter.unusedSectionVars false

namespace CLF

variable {K : Type} [Field K] [LinearOrder K] [IsStrictOrderedRing K] [FloorRing K]

theorem fieldsMag_eq (f : Fmt) (e m : ℕ) (hm : m < 2 ^ f.mant) :
    (f.magVal (e * 2 ^ f.mant + m) : K) = Spec.fieldsMag f.mant f.ebits e m := by
  have hp : 0 < 2 ^ f.mant := by positivity
  unfold Fmt.magVal Spec.fieldsMag
  have h1 : (e * 2 ^ f.mant + m) / 2 ^ f.mant = e := by
    rw [Nat.add_comm, Nat.add_mul_div_right _ _ hp, Nat.div_eq_of_lt hm, Nat.zero_add]
  have h2 : (e * 2 ^ f.mant + m) % 2 ^ f.mant = m := by
    rw [Nat.add_comm, Nat.add_mul_mod_self_right, Nat.mod_eq_of_lt hm]
  simp only [h1, h2]
  by_cases h0 : e = 0
  · simp only [h0, if_true, Fmt.bias]
    congr 2; ring
  · simp only [h0, if_false, Fmt.bias]
    push_cast
    congr 2; ring

/-- `decode` means what the pattern says. -/
theorem ofBits_eq (f : Fmt) (n : ℕ) (hn : n < 2 ^ f.width) :
    SFlt.ofBits (K := K) f n = Spec.patternFloat f.mant f.ebits n := by
  have hp : 0 < 2 ^ f.mant := by positivity
  have hw : 0 < 2 ^ f.ebits := by positivity
  have hsb : f.signBit = 2 ^ f.mant * 2 ^ f.ebits := by
    unfold Fmt.signBit; rw [pow_add, Nat.mul_comm]
  have hs0 : 0 < f.signBit := by rw [hsb]; positivity
  rw [signBit_width] at hn
  set c := n % f.signBit with hc
  have hce : c / 2 ^ f.mant = n / 2 ^ f.mant % 2 ^ f.ebits := by
    rw [hc, hsb, Nat.mod_mul_right_div_self]
  have hcm : c % 2 ^ f.mant = n % 2 ^ f.mant := by
    rw [hc, hsb, Nat.mod_mul_right_mod]
  have hsign : decide (f.signBit ≤ n) = decide (n / 2 ^ (f.ebits + f.mant) % 2 = 1) := by
    rw [decide_eq_decide]
    change f.signBit ≤ n ↔ n / f.signBit % 2 = 1
    constructor
    · intro h
      have : n / f.signBit = 1 := by
        apply Nat.div_eq_of_lt_le <;> omega
      rw [this]
    · intro h
      by_contra hlt
      rw [Nat.div_eq_of_lt (by omega)] at h
      omega
  have hsplit : c = c / 2 ^ f.mant * 2 ^ f.mant + c % 2 ^ f.mant := by
    rw [Nat.mul_comm]; exact (Nat.div_add_mod c _).symm
  have hclt : c / 2 ^ f.mant < 2 ^ f.ebits := by rw [hce]; exact Nat.mod_lt _ hw
  have hmlt : c % 2 ^ f.mant < 2 ^ f.mant := Nat.mod_lt _ hp
  unfold SFlt.ofBits Spec.patternFloat
  simp only [← hc, hsign, ← hce, ← hcm]
  unfold Fmt.infCode
  by_cases h1 : c / 2 ^ f.mant = 2 ^ f.ebits - 1
  · have hge : ¬ c < (2 ^ f.ebits - 1) * 2 ^ f.mant := by
      rw [hsplit, h1]; omega
    rw [if_neg hge, if_pos h1]
    by_cases h2 : c % 2 ^ f.mant = 0
    · rw [if_pos h2, if_pos (by rw [hsplit, h1, h2]; omega)]
    · rw [if_neg h2, if_neg (by intro h; rw [hsplit, h1] at h; omega)]
  · have hlt : c < (2 ^ f.ebits - 1) * 2 ^ f.mant := by
      rw [← Nat.div_lt_iff_lt_mul hp]; omega
    rw [if_pos hlt, if_neg h1]
    congr 1
    conv_lhs => rw [hsplit]
    exact fieldsMag_eq f _ _ hmlt

theorem width_eq (f : Fmt) : f.width = 1 + f.ebits + f.mant := rfl

theorem patternNaN_iff (f : Fmt) (n : ℕ) :
    Spec.patternNaN f.mant f.ebits n ↔ f.infCode < n % f.signBit := by
  have hp : 0 < 2 ^ f.mant := by positivity
  have hw : 0 < 2 ^ f.ebits := by positivity
  have hsb : f.signBit = 2 ^ f.mant * 2 ^ f.ebits := by
    unfold Fmt.signBit; rw [pow_add, Nat.mul_comm]
  set c := n % f.signBit with hc
  have hce : c / 2 ^ f.mant = n / 2 ^ f.mant % 2 ^ f.ebits := by
    rw [hc, hsb, Nat.mod_mul_right_div_self]
  have hcm : c % 2 ^ f.mant = n % 2 ^ f.mant := by
    rw [hc, hsb, Nat.mod_mul_right_mod]
  have hsplit : c = c / 2 ^ f.mant * 2 ^ f.mant + c % 2 ^ f.mant := by
    rw [Nat.mul_comm]; exact (Nat.div_add_mod c _).symm
  have hclt : c / 2 ^ f.mant < 2 ^ f.ebits := by rw [hce]; exact Nat.mod_lt _ hw
  unfold Spec.patternNaN Fmt.infCode
  rw [← hce, ← hcm]
  constructor
  · rintro ⟨h1, h2⟩
    rw [hsplit, h1]; omega
  · intro h
    have h1 : 2 ^ f.ebits - 1 ≤ c / 2 ^ f.mant := by
      rw [Nat.le_div_iff_mul_le hp]; omega
    have h2 : c / 2 ^ f.mant = 2 ^ f.ebits - 1 := by omega
    refine ⟨h2, fun h0 => ?_⟩
    rw [hsplit, h2, h0] at h
    omega

/-- Floats of the format survive the way to bits and back, NaN included. -/
theorem ofBits_bits (f : Fmt) (hf : 1 ≤ f.mant) (x : SFlt K) (hx : Spec.IsFloat f.mant f.ebits x) :
    SFlt.ofBits f (x.bits f) = x := by
  obtain ⟨n, hn, rfl⟩ := hx
  rw [← width_eq] at hn
  rw [← ofBits_eq f n hn]
  by_cases h : n % f.signBit ≤ f.infCode
  · rw [SFlt.bits_ofBits f n hn h]
  · have : SFlt.ofBits (K := K) f n = .nan := by
      unfold SFlt.ofBits
      rw [if_neg (by omega), if_neg (by omega)]
    rw [this, SFlt.ofBits_nan f hf]

theorem isFloat_ofBits (f : Fmt) (n : ℕ) (hn : n < 2 ^ f.width) :
    Spec.IsFloat f.mant f.ebits (SFlt.ofBits (K := K) f n) :=
  ⟨n, hn, ofBits_eq f n hn⟩

/-- Finite floats are code values. -/
theorem isFloat_fin (f : Fmt) (s : Bool) (v : K) (h : Spec.IsFloat f.mant f.ebits (.fin s v)) :
    ∃ c < f.infCode, v = f.magVal c := by
  obtain ⟨n, hn, h⟩ := h
  rw [← width_eq] at hn
  rw [← ofBits_eq f n hn] at h
  unfold SFlt.ofBits at h
  simp only at h
  split at h
  · next hlt => exact ⟨_, hlt, (SFlt.fin.inj h).2⟩
  · split at h <;> cases h

theorem isFloat_mag (f : Fmt) (s : Bool) (c : ℕ) (hc : c < f.infCode) :
    Spec.IsFloat f.mant f.ebits (.fin s (f.magVal c : K)) := by
  have h1 := Fmt.infCode_lt_signBit f
  refine ⟨(if s then f.signBit else 0) + c, ?_, ?_⟩
  · rw [← width_eq, signBit_width]; split <;> omega
  · rw [← ofBits_eq f _ (by rw [signBit_width]; split <;> omega)]
    have hm : ((if s then f.signBit else 0) + c) % f.signBit = c := by
      cases s
      · simp only [Bool.false_eq_true, if_false, Nat.zero_add]
        exact Nat.mod_eq_of_lt (by omega)
      · simp only [if_true]
        rw [Nat.add_mod_left]; exact Nat.mod_eq_of_lt (by omega)
    have hg : decide (f.signBit ≤ (if s then f.signBit else 0) + c) = s := by
      cases s <;> simp; omega
    unfold SFlt.ofBits
    simp only [hm, hg, if_pos hc]

/-- The nearest code beats every other code. -/
theorem preCode_best (f : Fmt) (m : K) (hm : 0 ≤ m) (c : ℕ) :
    |(f.magVal (f.preCode m) : K) - m| ≤ |f.magVal c - m| := by
  obtain ⟨h1, h2⟩ := Fmt.preCode_near f m hm
  set p := f.preCode m with hp
  rcases le_or_gt (f.magVal p : K) m with h | h
  · have h1 := h1 h
    rw [abs_of_nonpos (by linarith)]
    rcases le_or_gt c p with hc | hc
    · have := (Fmt.magVal_strictMono (K := K) f).monotone hc
      rw [abs_of_nonpos (by linarith)]; linarith
    · have := (Fmt.magVal_strictMono (K := K) f).monotone (show p + 1 ≤ c by omega)
      rw [abs_of_nonneg (by linarith)]; linarith
  · obtain ⟨h2, h3⟩ := h2 h
    rw [abs_of_nonneg (by linarith)]
    rcases le_or_gt p c with hc | hc
    · have := (Fmt.magVal_strictMono (K := K) f).monotone hc
      rw [abs_of_nonneg (by linarith)]; linarith
    · have := (Fmt.magVal_strictMono (K := K) f).monotone (show c ≤ p - 1 by omega)
      rw [abs_of_nonpos (by linarith)]; linarith

theorem overflowLimit_eq (f : Fmt) (hf : 1 ≤ f.ebits) :
    (Spec.overflowLimit f.mant f.ebits : K)
      = (f.magVal (f.infCode - 1) + f.magVal (f.infCode - 1 + 1)) / 2 := by
  have hp : 0 < 2 ^ f.mant := by positivity
  have hw : 2 ≤ 2 ^ f.ebits := by
    calc 2 = 2 ^ 1 := rfl
      _ ≤ 2 ^ f.ebits := Nat.pow_le_pow_right (by norm_num) hf
  unfold Spec.overflowLimit
  obtain ⟨k, hk⟩ : ∃ k, 2 ^ f.ebits = k + 2 := ⟨2 ^ f.ebits - 2, by omega⟩
  have hi : f.infCode = (k + 1) * 2 ^ f.mant := by unfold Fmt.infCode; rw [hk]; rfl
  have e1 : f.infCode - 1 = k * 2 ^ f.mant + (2 ^ f.mant - 1) := by
    rw [hi, Nat.add_mul]; omega
  have e2 : f.infCode - 1 + 1 = (k + 1) * 2 ^ f.mant + 0 := by
    rw [hi, Nat.add_mul]; omega
  rw [e2, e1, fieldsMag_eq f k _ (by omega), fieldsMag_eq f (k + 1) 0 hp, hk]
  rfl

/-- `round` is rounding to nearest. -/
theorem rounded_round (f : Fmt) (hf : 1 ≤ f.mant) (hf2 : 1 ≤ f.ebits) (x : SFlt K) (hx : Spec.Proper x) :
    Spec.Rounded f.mant f.ebits x (SFlt.round f x) := by
  have hpos : 0 < f.infCode := by
    unfold Fmt.infCode
    have hw : 2 ≤ 2 ^ f.ebits := by
      calc 2 = 2 ^ 1 := rfl
        _ ≤ 2 ^ f.ebits := Nat.pow_le_pow_right (by norm_num) hf2
    have hp : 0 < 2 ^ f.mant := by positivity
    exact Nat.mul_pos (by omega) hp
  cases x with
  | nan => exact SFlt.round_nan f hf
  | inf s => exact SFlt.round_inf f s
  | fin s m =>
    have hm : 0 ≤ m := hx
    show _ ∨ _
    rw [SFlt.round_fin]
    by_cases h : f.encodeMag m < f.infCode
    · left
      rw [if_pos h]
      have he : f.encodeMag m = f.preCode m := by
        rw [Fmt.encodeMag_eq] at h ⊢; omega
      refine ⟨?_, _, rfl, isFloat_mag f s _ h, ?_⟩
      · rw [overflowLimit_eq f hf2]
        by_contra hc
        have := Fmt.le_preCode f m hm _ (not_le.mp hc)
        omega
      · intro s' v' hv
        obtain ⟨c, hc, rfl⟩ := isFloat_fin f s' v' hv
        rw [he]
        exact preCode_best f m hm c
    · right
      rw [if_neg h]
      refine ⟨?_, rfl⟩
      rw [overflowLimit_eq f hf2]
      by_contra hc
      have := Fmt.preCode_le f m hm _ (not_le.mp hc)
      rw [Fmt.encodeMag_eq] at h
      omega

/-- Floats of the format are not changed by rounding. -/
theorem round_isFloat (f : Fmt) (hf : 1 ≤ f.mant) (x : SFlt K) (hx : Spec.IsFloat f.mant f.ebits x) :
    SFlt.round f x = x := ofBits_bits f hf x hx

end CLF
