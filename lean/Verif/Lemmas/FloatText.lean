import Verif.Lemmas.Text
import Verif.Lemmas.Loops
import Verif.Model.ArrayText
import Mathlib.Tactic.Linarith

/-! Lemmas about float texts and bit patterns. -/

set_option linter.unusedSectionVars false

namespace CLF

variable {K : Type} [Field K] [LinearOrder K] [IsStrictOrderedRing K] [FloorRing K]

/-! ### Reading a signed text -/

/-- A text that begins with a digit. -/
def DigHead (t : Txt) : Prop := ∃ c r, t = c :: r ∧ (decVal c).isSome

theorem DigHead.append {s : Txt} (h : DigHead s) (t : Txt) : DigHead (s ++ t) := by
  obtain ⟨c, r, rfl, hc⟩ := h
  exact ⟨c, r ++ t, rfl, hc⟩

theorem IsDig.head {t : Txt} (h : IsDig t) (hne : t ≠ []) : DigHead t := by
  cases t with
  | nil => exact absurd rfl hne
  | cons c r => exact ⟨c, r, rfl, h c (by simp)⟩

theorem DigHead.takeSign {t : Txt} (h : DigHead t) (neg : Bool) :
    takeSign (signTxt neg ++ t) = (neg, t) := by
  obtain ⟨c, r, rfl, hc⟩ := h
  cases neg with
  | true => rfl
  | false =>
    have h1 : c ≠ '-' := by rintro rfl; cases hc
    have h2 : c ≠ '+' := by rintro rfl; cases hc
    show CLF.takeSign (c :: r) = _
    unfold CLF.takeSign
    split
    · next h => exact absurd (List.cons.inj h).1 h1
    · next h => exact absurd (List.cons.inj h).1 h2
    · rfl

theorem DigHead.lower {t : Txt} (h : DigHead t) (c : Char) (hc : decVal c = none) (r : Txt) :
    lower t ≠ c :: r := by
  obtain ⟨c', r', rfl, hc'⟩ := h
  obtain ⟨d, hd, rfl⟩ := decVal_some hc'
  intro h
  have h := (List.cons.inj h).1
  have : ∀ d < 10, (Nat.digitChar d).toLower = Nat.digitChar d := by decide
  rw [this d hd] at h
  rw [← h, decVal_digitChar d hd] at hc
  cases hc

theorem signTxt_noSpace (neg : Bool) : NoSpace (signTxt neg) := by
  cases neg
  · intro c hc; cases hc
  · intro c hc; rw [List.mem_singleton.mp hc]; decide

/-- Reading `[-]digits…`. -/
theorem parseFloat_dec (neg : Bool) (t : Txt) (n : ℕ) (e : ℤ) (hs : NoSpace t) (hd : DigHead t)
    (hp : parseDecimal t = some (n, e)) :
    parseFloat (K := K) (signTxt neg ++ t) = .ok (.fin neg ((n : K) * 10 ^ e)) := by
  unfold parseFloat
  rw [strip_word _ ((signTxt_noSpace neg).append hs), hd.takeSign neg]
  have h1 : ¬(lower t = "inf".toList ∨ lower t = "infinity".toList) := by
    rintro (h | h)
    · exact hd.lower 'i' (by decide) ['n', 'f'] h
    · exact hd.lower 'i' (by decide) ['n', 'f', 'i', 'n', 'i', 't', 'y'] h
  have h2 : ¬ lower t = "nan".toList := fun h => hd.lower 'n' (by decide) ['a', 'n'] h
  simp only [h1, h2, if_false, hp]

theorem parseFloat_inf (neg : Bool) :
    parseFloat (K := K) (signTxt neg ++ "inf".toList) = .ok (.inf neg) := by
  cases neg <;> rfl

theorem parseFloat_nan : parseFloat (K := K) "nan".toList = .ok .nan := rfl

/-! ### Nine decimals -/

/-- Value printed by `"%6.9f"`. -/
def dec9 : SFlt K → SFlt K
  | .fin neg m => .fin neg (((Fmt.rne (m * 10 ^ 9)).toNat : K) / 10 ^ 9)
  | x => x

/-- The text before padding. -/
def core9 : SFlt K → Txt
  | .nan => "nan".toList
  | .inf neg => signTxt neg ++ "inf".toList
  | .fin neg m =>
    let q := (Fmt.rne (m * 10 ^ 9)).toNat
    signTxt neg ++ (showNat (q / 10 ^ 9) ++ '.' :: showFixed 10 9 (q % 10 ^ 9))

theorem show9_eq (x : SFlt K) : show9 x = padLeft 6 (core9 x) := by
  cases x <;> simp [show9, core9]

theorem core9_fin (neg : Bool) (m : K) : core9 (.fin neg m) = signTxt neg ++
    (showNat ((Fmt.rne (m * 10 ^ 9)).toNat / 10 ^ 9) ++
      '.' :: showFixed 10 9 ((Fmt.rne (m * 10 ^ 9)).toNat % 10 ^ 9)) := rfl

theorem core9_noSpace (x : SFlt K) : NoSpace (core9 x) := by
  cases x with
  | nan => show NoSpace "nan".toList; intro c hc; revert c; decide
  | inf neg =>
    refine (signTxt_noSpace neg).append ?_
    intro c hc; revert c; decide
  | fin neg m =>
    rw [core9_fin]
    exact (signTxt_noSpace neg).append ((isDig_showNat _).noSpace.append
      (NoSpace.cons (by decide) (isDig_showFixed _ _).noSpace))

theorem core9_ne (x : SFlt K) : core9 x ≠ [] := by
  cases x with
  | nan => simp [core9]
  | inf neg => simp [core9]
  | fin neg m => simp [core9_fin]

theorem parseFloat_core9 (x : SFlt K) : parseFloat (core9 x) = .ok (dec9 x) := by
  cases x with
  | nan => exact parseFloat_nan
  | inf neg => exact parseFloat_inf neg
  | fin neg m =>
    rw [core9_fin, parseFloat_dec neg _ _ _
      ((isDig_showNat _).noSpace.append (NoSpace.cons (by decide) (isDig_showFixed _ _).noSpace))
      (((isDig_showNat _).head (showNat_ne _)).append _)
      (parseDecimal_point _ _ (isDig_showNat _) (isDig_showFixed _ _) (showNat_ne _))]
    rw [numT_append, numT_showNat, numT_showFixed, showFixed_length, Nat.mod_mod, dec9]
    have : (Fmt.rne (m * 10 ^ 9)).toNat / 10 ^ 9 * 10 ^ 9 + (Fmt.rne (m * 10 ^ 9)).toNat % 10 ^ 9
        = (Fmt.rne (m * 10 ^ 9)).toNat := by
      rw [Nat.mul_comm]; exact Nat.div_add_mod _ _
    rw [this]
    congr 2
    rw [div_eq_mul_inv, zpow_neg, zpow_natCast]

theorem rne_intCast (n : ℤ) : Fmt.rne (n : K) = n := by
  unfold Fmt.rne
  simp

theorem core9_dec9 (x : SFlt K) : core9 (dec9 x) = core9 x := by
  cases x with
  | nan => rfl
  | inf neg => rfl
  | fin neg m =>
    rw [dec9, core9_fin, core9_fin]
    have h : (((Fmt.rne (m * 10 ^ 9)).toNat : K) / 10 ^ 9 * 10 ^ 9)
        = (((Fmt.rne (m * 10 ^ 9)).toNat : ℤ) : K) := by
      rw [div_mul_cancel₀ _ (by positivity), Int.cast_natCast]
    rw [h, rne_intCast, Int.toNat_natCast]

theorem dec9_near (neg : Bool) (m : K) (hm : 0 ≤ m) :
    ∃ m', dec9 (.fin neg m) = .fin neg m' ∧ 0 ≤ m' ∧ |m' - m| ≤ 1 / 2 / 10 ^ 9 := by
  refine ⟨_, rfl, by positivity, ?_⟩
  have h0 : (0 : K) ≤ m * 10 ^ 9 := by positivity
  have hr : 0 ≤ Fmt.rne (m * 10 ^ 9) := Fmt.le_rne (by simpa using h0)
  have hc : ((Fmt.rne (m * 10 ^ 9)).toNat : K) = (Fmt.rne (m * 10 ^ 9) : K) := by
    have := Int.toNat_of_nonneg hr
    exact_mod_cast congrArg (Int.cast (R := K)) this
  have hp : (0 : K) < 10 ^ 9 := by positivity
  rw [hc]
  have hn := Fmt.rne_near (m * 10 ^ 9)
  have e : (Fmt.rne (m * 10 ^ 9) : K) / 10 ^ 9 - m = (Fmt.rne (m * 10 ^ 9) - m * 10 ^ 9) / 10 ^ 9 := by
    field_simp
  rw [e, abs_div, abs_of_pos hp]
  exact div_le_div_of_nonneg_right hn hp.le

/-! ### Bit patterns -/

theorem signBit_width (f : Fmt) : 2 ^ f.width = f.signBit + f.signBit := by
  unfold Fmt.width Fmt.signBit
  rw [show 1 + f.ebits + f.mant = (f.ebits + f.mant) + 1 by omega, pow_succ]; omega

theorem infCode_add (f : Fmt) : f.infCode + 2 ^ f.mant = f.signBit := by
  unfold Fmt.infCode Fmt.signBit
  have h2 : 0 < 2 ^ f.ebits := by positivity
  rw [pow_add]
  obtain ⟨k, hk⟩ : ∃ k, 2 ^ f.ebits = k + 1 := ⟨2 ^ f.ebits - 1, by omega⟩
  rw [hk]
  simp only [Nat.add_sub_cancel]
  ring

theorem nanCode_lt (f : Fmt) (h : 1 ≤ f.mant) : f.infCode + 2 ^ (f.mant - 1) < f.signBit := by
  rw [← infCode_add f]
  have : 2 ^ (f.mant - 1) < 2 ^ f.mant := Nat.pow_lt_pow_right (by norm_num) (by omega)
  omega

namespace SFlt

theorem bits_lt (f : Fmt) (h : 1 ≤ f.mant) (x : SFlt K) : x.bits f < 2 ^ f.width := by
  rw [signBit_width]
  have h1 := Fmt.infCode_lt_signBit f
  have h2 := nanCode_lt f h
  cases x with
  | nan => show f.infCode + 2 ^ (f.mant - 1) < _; omega
  | inf neg =>
    show (if neg then f.signBit else 0) + f.infCode < _
    split <;> omega
  | fin neg m =>
    show (if neg then f.signBit else 0) + f.encodeMag m < _
    have := Fmt.encodeMag_le f m
    split <;> omega

/-- Patterns that are not NaN survive the way to a float and back. -/
theorem bits_ofBits (f : Fmt) (n : ℕ) (hn : n < 2 ^ f.width) (hnan : n % f.signBit ≤ f.infCode) :
    (ofBits (K := K) f n).bits f = n := by
  rw [signBit_width] at hn
  have hs : (if decide (f.signBit ≤ n) then f.signBit else 0) + n % f.signBit = n := by
    by_cases h : f.signBit ≤ n
    · simp only [h, decide_true, if_true]
      rw [Nat.mod_eq_sub_mod h, Nat.mod_eq_of_lt (by omega)]; omega
    · simp only [h, decide_false, Bool.false_eq_true, if_false]
      rw [Nat.mod_eq_of_lt (by omega)]; omega
  unfold ofBits
  by_cases h1 : n % f.signBit < f.infCode
  · simp only [h1, if_true]
    rw [bits, Fmt.encodeMag_magVal f _ hnan, hs]
  · have h2 : n % f.signBit = f.infCode := by omega
    simp only [h2, lt_irrefl, if_false, if_true]
    rw [bits]
    rw [h2] at hs; exact hs

theorem bits_not_nan (f : Fmt) (x : SFlt K) (hx : x ≠ .nan) : x.bits f % f.signBit ≤ f.infCode := by
  have h1 := Fmt.infCode_lt_signBit f
  have key : ∀ (neg : Bool) (c : ℕ), c ≤ f.infCode →
      ((if neg then f.signBit else 0) + c) % f.signBit ≤ f.infCode := by
    intro neg c hc
    cases neg
    · simp only [Bool.false_eq_true, if_false, Nat.zero_add]
      rw [Nat.mod_eq_of_lt (by omega)]; exact hc
    · simp only [if_true]
      rw [Nat.add_mod_left, Nat.mod_eq_of_lt (by omega)]; exact hc
  cases x with
  | nan => exact absurd rfl hx
  | inf neg => exact key neg _ le_rfl
  | fin neg m => exact key neg _ (Fmt.encodeMag_le f m)

theorem ofBits_nan (f : Fmt) (h : 1 ≤ f.mant) :
    ofBits (K := K) f ((nan : SFlt K).bits f) = .nan := by
  have h2 := nanCode_lt f h
  have h3 : 0 < 2 ^ (f.mant - 1) := by positivity
  show ofBits f (f.infCode + 2 ^ (f.mant - 1)) = _
  unfold ofBits
  rw [Nat.mod_eq_of_lt h2, if_neg (by omega), if_neg (by omega)]

/-- The rounding of a finite magnitude. -/
theorem round_fin (f : Fmt) (neg : Bool) (m : K) : round f (.fin neg m) =
    if f.encodeMag m < f.infCode then .fin neg (f.magVal (f.encodeMag m)) else .inf neg := by
  have h1 := Fmt.infCode_lt_signBit f
  have h2 := Fmt.encodeMag_le f m
  have hm : ((if neg then f.signBit else 0) + f.encodeMag m) % f.signBit = f.encodeMag m := by
    cases neg
    · simp only [Bool.false_eq_true, if_false, Nat.zero_add]
      exact Nat.mod_eq_of_lt (by omega)
    · simp only [if_true]
      rw [Nat.add_mod_left]; exact Nat.mod_eq_of_lt (by omega)
  have hg : decide (f.signBit ≤ (if neg then f.signBit else 0) + f.encodeMag m) = neg := by
    cases neg <;> simp <;> omega
  rw [round, bits, ofBits]
  simp only [hm, hg]
  split
  · rfl
  · rw [if_pos (by omega)]

theorem round_inf (f : Fmt) (neg : Bool) : round (K := K) f (.inf neg) = .inf neg := by
  have h1 := Fmt.infCode_lt_signBit f
  have hm : ((if neg then f.signBit else 0) + f.infCode) % f.signBit = f.infCode := by
    cases neg
    · simp only [Bool.false_eq_true, if_false, Nat.zero_add]
      exact Nat.mod_eq_of_lt (by omega)
    · simp only [if_true]
      rw [Nat.add_mod_left]; exact Nat.mod_eq_of_lt (by omega)
  have hg : decide (f.signBit ≤ (if neg then f.signBit else 0) + f.infCode) = neg := by
    cases neg <;> simp <;> omega
  rw [round, bits, ofBits]
  simp only [hm, hg, lt_irrefl, if_false, if_true]

theorem round_nan (f : Fmt) (h : 1 ≤ f.mant) : round (K := K) f .nan = .nan := ofBits_nan f h

theorem toFlt_ofFlt (x : Flt K) : (ofFlt x).toFlt = x := by
  cases x with
  | nan => rfl
  | inf neg => rfl
  | fin v =>
    simp only [ofFlt, toFlt, decide_eq_true_eq]
    split
    · next h => rw [abs_of_neg h, neg_neg]
    · next h => rw [abs_of_nonneg (not_lt.mp h)]

end SFlt

end CLF
