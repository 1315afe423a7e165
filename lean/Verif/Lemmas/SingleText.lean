import Verif.Lemmas.Bits

/-! float32 values through nine decimals. -/

set_option linter.unusedSectionVars false

namespace CLF

variable {K : Type} [Field K] [LinearOrder K] [IsStrictOrderedRing K] [FloorRing K]

theorem rne_of_lt {q : K} {n : ℤ} (h : |q - n| < 1 / 2) : Fmt.rne q = n := by
  have h1 := Fmt.rne_near q
  have h2 : |((Fmt.rne q - n : ℤ) : K)| < 1 := by
    push_cast
    have e : (Fmt.rne q : K) - n = (Fmt.rne q - q) + (q - n) := by ring
    rw [e]
    have := abs_add_le ((Fmt.rne q : K) - q) (q - n)
    linarith
  rw [← Int.cast_abs] at h2
  have h3 : |Fmt.rne q - n| < 1 := by exact_mod_cast h2
  have := Int.abs_lt_one_iff.mp h3
  omega

/-- Magnitudes are multiples of the smallest one. -/
theorem magVal_multiple (f : Fmt) (c : ℕ) : ∃ N : ℕ, (f.magVal c : K) = N * 2 ^ (1 - f.bias - f.mant) := by
  unfold Fmt.magVal
  by_cases h : c / 2 ^ f.mant = 0
  · exact ⟨c % 2 ^ f.mant, by simp only [h, if_true]⟩
  · obtain ⟨e, he⟩ : ∃ e, c / 2 ^ f.mant = e + 1 := ⟨c / 2 ^ f.mant - 1, (Nat.succ_pred h).symm⟩
    refine ⟨(2 ^ f.mant + c % 2 ^ f.mant) * 2 ^ e, ?_⟩
    simp only [he, Nat.succ_ne_zero, if_false]
    rw [show ((e + 1 : ℕ) : ℤ) - f.bias - f.mant = e + (1 - f.bias - f.mant) by push_cast; ring,
      zpow_add₀ (by norm_num : (2 : K) ≠ 0), zpow_natCast]
    push_cast; ring

theorem single_gap : (1 : K) < single.magVal single.infCode - single.magVal (single.infCode - 1) := by
  have h1 : (single.magVal single.infCode : K) = 2 ^ 128 := by
    rw [show single.infCode = 255 * 2 ^ single.mant + 0 by decide, fieldsMag_eq single 255 0 (by decide)]
    simp [Spec.fieldsMag, single]
    norm_num
  have h2 : (single.magVal (single.infCode - 1) : K) = 2 ^ 128 - 2 ^ 104 := by
    rw [show single.infCode - 1 = 254 * 2 ^ single.mant + (2 ^ 23 - 1) by decide,
      fieldsMag_eq single 254 _ (by decide)]
    simp [Spec.fieldsMag, single]
    norm_num
  rw [h1, h2]; norm_num

/-- A float32 written with nine decimals and read back into a float32 has the same
text, and differs by at most `1e-9`. -/
theorem single_back (s : Bool) (c : ℕ) (hc : c < single.infCode) :
    ∃ p < single.infCode, SFlt.round single (dec9 (.fin s (single.magVal c : K)))
        = .fin s (single.magVal p) ∧
      core9 (.fin s (single.magVal p : K)) = core9 (.fin s (single.magVal c : K)) ∧
      |(single.magVal p : K) - single.magVal c| ≤ 1 / 10 ^ 9 := by
  set x : K := single.magVal c with hx
  have hx0 : 0 ≤ x := Fmt.magVal_nonneg _ _
  obtain ⟨v, hv, hv0, hvx⟩ := dec9_near s x hx0
  have hvq : v = ((Fmt.rne (x * 10 ^ 9)).toNat : K) / 10 ^ 9 := ((SFlt.fin.inj hv).2).symm
  set p := single.preCode v with hp
  set y : K := single.magVal p with hy
  have hbest : |y - v| ≤ |x - v| := preCode_best single v hv0 c
  have hxv : |x - v| ≤ 1 / 2 / 10 ^ 9 := by rw [abs_sub_comm]; exact hvx
  have hyx : |y - x| ≤ 1 / 10 ^ 9 := by
    have := abs_sub_le y v x
    rw [abs_sub_comm v x] at this
    have e : (1 : K) / 10 ^ 9 = 1 / 2 / 10 ^ 9 + 1 / 2 / 10 ^ 9 := by ring
    rw [e]; linarith
  have hpinf : p < single.infCode := by
    by_contra hge
    have h1 := (Fmt.magVal_strictMono (K := K) single).monotone (not_lt.mp hge)
    have h2 := (Fmt.magVal_strictMono (K := K) single).monotone (show c ≤ single.infCode - 1 by omega)
    have h3 := single_gap (K := K)
    have h4 := le_abs_self (y - x)
    have h5 : (1 : K) / 10 ^ 9 ≤ 1 := by norm_num
    rw [← hy] at h1
    rw [← hx] at h2
    linarith
  refine ⟨p, hpinf, ?_, ?_, hyx⟩
  · rw [hv, SFlt.round_fin]
    have he : single.encodeMag v = p := by
      rw [Fmt.encodeMag_eq, ← hp]; omega
    rw [he, if_pos hpinf]
  · have hr : Fmt.rne (y * 10 ^ 9) = Fmt.rne (x * 10 ^ 9) := by
      have hT : (0 : K) < 10 ^ 9 := by positivity
      have hr0 : 0 ≤ Fmt.rne (x * 10 ^ 9) := Fmt.le_rne (by push_cast; positivity)
      set q := Fmt.rne (x * 10 ^ 9) with hq
      have hvq' : v * 10 ^ 9 = (q : K) := by
        rw [hvq, div_mul_cancel₀ _ hT.ne']
        have := Int.toNat_of_nonneg hr0
        exact_mod_cast congrArg (Int.cast (R := K)) this
      have sc : ∀ z : K, |z * 10 ^ 9 - q| = |z - v| * 10 ^ 9 := by
        intro z; rw [← hvq', ← sub_mul, abs_mul, abs_of_pos hT]
      have hX : |x * 10 ^ 9 - q| ≤ 1 / 2 := by
        rw [abs_sub_comm]; exact Fmt.rne_near _
      have hY : |y * 10 ^ 9 - q| ≤ |x * 10 ^ 9 - q| := by
        rw [sc, sc]; exact mul_le_mul_of_nonneg_right hbest hT.le
      rcases lt_or_eq_of_le (hY.trans hX) with hlt | heq
      · exact rne_of_lt hlt
      · have hXe : |x * 10 ^ 9 - q| = 1 / 2 := le_antisymm hX (heq ▸ hY)
        by_cases hxy : y = x
        · rw [hxy]
        · exfalso
          obtain ⟨N1, h1⟩ := magVal_multiple (K := K) single p
          obtain ⟨N2, h2⟩ := magVal_multiple (K := K) single c
          rw [← hy] at h1
          rw [← hx] at h2
          have h12 : |y * 10 ^ 9 - x * 10 ^ 9| = 1 := by
            rcases abs_eq (by norm_num : (0 : K) ≤ 1 / 2) |>.mp heq with a | a <;>
            rcases abs_eq (by norm_num : (0 : K) ≤ 1 / 2) |>.mp hXe with b | b
            · exact absurd (mul_right_cancel₀ hT.ne' (by linarith : y * 10 ^ 9 = x * 10 ^ 9)) hxy
            · rw [show y * 10 ^ 9 - x * 10 ^ 9 = 1 by linarith]; norm_num
            · rw [show y * 10 ^ 9 - x * 10 ^ 9 = -1 by linarith]; norm_num
            · exact absurd (mul_right_cancel₀ hT.ne' (by linarith : y * 10 ^ 9 = x * 10 ^ 9)) hxy
          have hexp : (1 - single.bias - single.mant : ℤ) = -(149 : ℕ) := by decide
          rw [hexp] at h1 h2
          rw [h1, h2, ← sub_mul, ← sub_mul, abs_mul, abs_of_pos hT, abs_mul,
            abs_of_pos (zpow_pos (by norm_num : (0 : K) < 2) _), zpow_neg, zpow_natCast] at h12
          have h13 : |(N1 : K) - N2| * 10 ^ 9 = 2 ^ 149 := by
            field_simp at h12
            linarith
          have h14 : |(N1 : ℤ) - N2| * 10 ^ 9 = 2 ^ 149 := by exact_mod_cast h13
          have h15 : (10 ^ 9 : ℤ) ∣ 2 ^ 149 := ⟨|(N1 : ℤ) - N2|, by rw [← h14]; ring⟩
          revert h15; decide
    rw [core9_fin, core9_fin, hr]

end CLF
