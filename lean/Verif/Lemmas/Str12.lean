import Verif.Lemmas.FloatText

/-! `str(float)` and reading it back. -/

set_option linter.unusedSectionVars false

namespace CLF

variable {K : Type} [Field K] [LinearOrder K] [IsStrictOrderedRing K] [FloorRing K]

/-- Value of `ip.fp`. -/
def decv (K : Type) [Field K] (ip fp : Txt) : K := (numT (ip ++ fp) : K) * 10 ^ (-(fp.length : ℤ))

theorem ten_zpow_pos (e : ℤ) : (0 : K) < 10 ^ e := zpow_pos (by norm_num) e

theorem decv_zeros (ip fp : Txt) (k : ℕ) :
    decv K ip (fp ++ List.replicate k '0') = decv K ip fp := by
  unfold decv
  rw [← List.append_assoc, numT_append, numT_zeros, List.length_append, List.length_replicate,
    Nat.add_zero]
  push_cast
  rw [neg_add, zpow_add₀ (by norm_num : (10 : K) ≠ 0), zpow_neg _ (k : ℤ), zpow_natCast]
  have : (10 : K) ^ k ≠ 0 := by positivity
  field_simp

theorem dropZeros_eq (t : Txt) : ∃ k, t = dropZeros t ++ List.replicate k '0' := by
  unfold dropZeros
  have h := List.takeWhile_append_dropWhile (p := fun c : Char => decide (c = '0')) (l := t.reverse)
  refine ⟨(t.reverse.takeWhile fun c => decide (c = '0')).length, ?_⟩
  have h2 : t.reverse.takeWhile (fun c => decide (c = '0'))
      = List.replicate (t.reverse.takeWhile fun c => decide (c = '0')).length '0' := by
    apply List.eq_replicate_of_mem
    intro c hc
    have := (List.all_eq_true.mp (List.all_takeWhile (p := fun c : Char => decide (c = '0')) (l := t.reverse))) c hc
    simpa using this
  conv_lhs => rw [← List.reverse_reverse t, ← h, List.reverse_append]
  rw [h2, List.reverse_replicate, List.length_replicate]

theorem decv_dropZeros (ip fp : Txt) : decv K ip (dropZeros fp) = decv K ip fp := by
  obtain ⟨k, hk⟩ := dropZeros_eq fp
  conv_rhs => rw [hk]
  rw [decv_zeros]

theorem isDig_dropZeros {t : Txt} (h : IsDig t) : IsDig (dropZeros t) := by
  obtain ⟨k, hk⟩ := dropZeros_eq t
  intro c hc
  apply h c
  rw [hk]; exact List.mem_append_left _ hc

theorem decv_orZero (ip fp : Txt) : decv K ip (if fp = [] then ['0'] else fp) = decv K ip fp := by
  split
  · next h => rw [h]; exact decv_zeros ip [] 1
  · rfl

theorem IsDig.take {t : Txt} (h : IsDig t) (n : ℕ) : IsDig (t.take n) :=
  fun c hc => h c (List.mem_of_mem_take hc)

theorem IsDig.drop {t : Txt} (h : IsDig t) (n : ℕ) : IsDig (t.drop n) :=
  fun c hc => h c (List.mem_of_mem_drop hc)

/-! ### Twelve digits -/

theorem sig12_facts (m : K) (hm : 0 < m) :
    10 ^ 11 ≤ (sig12 m).2 ∧ (sig12 m).2 < 10 ^ 12 ∧
    |((sig12 m).2 : K) * 10 ^ ((sig12 m).1 - 11) - m| ≤ 1 / 2 * 10 ^ (Int.log 10 m - 11) := by
  have hu : (0 : K) < 10 ^ (Int.log 10 m - 11) := ten_zpow_pos _
  have h1 : (10 : K) ^ Int.log 10 m ≤ m := by
    have := Int.zpow_log_le_self (R := K) (b := 10) (by norm_num) hm
    exact_mod_cast this
  have h2 : m < (10 : K) ^ (Int.log 10 m + 1) := by
    have := Int.lt_zpow_succ_log_self (R := K) (b := 10) (by norm_num) m
    exact_mod_cast this
  have e1 : (10 : K) ^ Int.log 10 m = 10 ^ 11 * 10 ^ (Int.log 10 m - 11) := by
    rw [← zpow_natCast, ← zpow_add₀ (by norm_num)]; congr 1; push_cast; ring
  have e2 : (10 : K) ^ (Int.log 10 m + 1) = 10 ^ 12 * 10 ^ (Int.log 10 m - 11) := by
    rw [← zpow_natCast, ← zpow_add₀ (by norm_num)]; congr 1; push_cast; ring
  set u : K := 10 ^ (Int.log 10 m - 11) with hudef
  have hq1 : (10 : K) ^ 11 ≤ m / u := by rw [le_div_iff₀ hu, ← e1]; exact h1
  have hq2 : m / u ≤ (10 : K) ^ 12 := by rw [div_le_iff₀ hu, ← e2]; exact h2.le
  have hr1 : (10 : ℤ) ^ 11 ≤ Fmt.rne (m / u) := Fmt.le_rne (by exact_mod_cast hq1)
  have hr2 : Fmt.rne (m / u) ≤ (10 : ℤ) ^ 12 := Fmt.rne_le (by exact_mod_cast hq2)
  have hn := Fmt.rne_near (m / u)
  have hc : ((Fmt.rne (m / u)).toNat : K) = (Fmt.rne (m / u) : K) := by
    have : ((Fmt.rne (m / u)).toNat : ℤ) = Fmt.rne (m / u) := Int.toNat_of_nonneg (by omega)
    exact_mod_cast congrArg (Int.cast (R := K)) this
  have hval : |((Fmt.rne (m / u)).toNat : K) * u - m| ≤ 1 / 2 * u := by
    have e : ((Fmt.rne (m / u)).toNat : K) * u - m = ((Fmt.rne (m / u) : K) - m / u) * u := by
      rw [hc]; field_simp
    rw [e, abs_mul, abs_of_pos hu]
    exact mul_le_mul_of_nonneg_right hn hu.le
  unfold sig12
  simp only [← hudef]
  split
  · next hq =>
    refine ⟨le_rfl, by norm_num, ?_⟩
    have e : (((10 ^ 11 : ℕ)) : K) * 10 ^ (Int.log 10 m + 1 - 11)
        = ((Fmt.rne (m / u)).toNat : K) * u := by
      rw [hq, hudef]
      push_cast
      rw [show Int.log 10 m + 1 - 11 = (Int.log 10 m - 11) + 1 by ring,
        zpow_add₀ (by norm_num : (10 : K) ≠ 0), zpow_one]
      ring
    simp only [e]; exact hval
  · next hq =>
    refine ⟨?_, ?_, hval⟩
    · show 10 ^ 11 ≤ (Fmt.rne (m / u)).toNat
      omega
    · show (Fmt.rne (m / u)).toNat < 10 ^ 12
      omega

/-- A value of at most twelve significant digits is printed exactly. -/
theorem sig12_exact (n : ℕ) (k : ℤ) (hn : n < 10 ^ 12) (hn0 : 0 < n) :
    ((sig12 ((n : K) * 10 ^ k)).2 : K) * 10 ^ ((sig12 ((n : K) * 10 ^ k)).1 - 11)
      = (n : K) * 10 ^ k := by
  set m : K := (n : K) * 10 ^ k with hm
  have hk : (0 : K) < 10 ^ k := ten_zpow_pos k
  have hm0 : 0 < m := by rw [hm]; exact mul_pos (by exact_mod_cast hn0) hk
  have hu : (0 : K) < 10 ^ (Int.log 10 m - 11) := ten_zpow_pos _
  have h1 : (10 : K) ^ Int.log 10 m ≤ m := by
    have := Int.zpow_log_le_self (R := K) (b := 10) (by norm_num) hm0
    exact_mod_cast this
  have h2 : m < (10 : K) ^ (Int.log 10 m + 1) := by
    have := Int.lt_zpow_succ_log_self (R := K) (b := 10) (by norm_num) m
    exact_mod_cast this
  have hke : Int.log 10 m - 11 ≤ k := by
    by_contra hc
    have hn' : (n : K) < 10 ^ (12 : ℤ) := by exact_mod_cast hn
    have h3 : m < (10 : K) ^ (12 + k) := by
      rw [zpow_add₀ (by norm_num : (10 : K) ≠ 0), hm]
      exact mul_lt_mul_of_pos_right hn' hk
    have h4 : (10 : K) ^ Int.log 10 m < 10 ^ (12 + k) := lt_of_le_of_lt h1 h3
    have := (zpow_lt_zpow_iff_right₀ (by norm_num : (1 : K) < 10)).mp h4
    omega
  obtain ⟨j, hj⟩ : ∃ j : ℕ, k = Int.log 10 m - 11 + j := ⟨(k - (Int.log 10 m - 11)).toNat, by omega⟩
  have hq : m / 10 ^ (Int.log 10 m - 11) = ((n * 10 ^ j : ℕ) : ℤ) := by
    rw [div_eq_iff hu.ne']
    conv_lhs => rw [hm, hj, zpow_add₀ (by norm_num : (10 : K) ≠ 0), zpow_natCast]
    push_cast; ring
  have hlt : n * 10 ^ j < 10 ^ 12 := by
    have h3 : m / 10 ^ (Int.log 10 m - 11) < (10 : K) ^ 12 := by
      rw [div_lt_iff₀ hu]
      have e2 : (10 : K) ^ (Int.log 10 m + 1) = 10 ^ 12 * 10 ^ (Int.log 10 m - 11) := by
        rw [← zpow_natCast, ← zpow_add₀ (by norm_num)]; congr 1; push_cast; ring
      rw [← e2]; exact h2
    rw [hq] at h3
    exact_mod_cast h3
  unfold sig12
  simp only [hq, rne_intCast, Int.toNat_natCast]
  rw [if_neg (by omega)]
  simp only
  rw [eq_comm, ← div_eq_iff hu.ne', hq, Int.cast_natCast]

/-- Value printed by `str`. -/
def dec12 : SFlt K → SFlt K
  | .fin neg m => if m = 0 then .fin neg 0
    else .fin neg (((sig12 m).2 : K) * 10 ^ ((sig12 m).1 - 11))
  | x => x

theorem showFixed_take_ne (q n : ℕ) : (showFixed 10 12 q).take (n + 1) ≠ [] := by
  intro h
  have := congrArg List.length h
  rw [List.length_take, showFixed_length] at this
  simp at this

/-- The pieces of a printed finite value other than zero. -/
theorem str12_form (neg : Bool) (m : K) (hm : 0 < m) : ∃ t n e, str12 (.fin neg m) = signTxt neg ++ t ∧
    NoSpace t ∧ DigHead t ∧ '@' ∉ t ∧ parseDecimal t = some (n, e) ∧
    (n : K) * 10 ^ e = ((sig12 m).2 : K) * 10 ^ ((sig12 m).1 - 11) := by
  obtain ⟨h1, h2, -⟩ := sig12_facts m hm
  set e := (sig12 m).1 with he
  set q := (sig12 m).2 with hq
  set ds := showFixed 10 12 q with hds
  have hlen : ds.length = 12 := showFixed_length _ _ _
  have hdig : IsDig ds := isDig_showFixed _ _
  have hnum : numT ds = q := by rw [hds, numT_showFixed, Nat.mod_eq_of_lt h2]
  have hat : ∀ t : Txt, IsDig t → '@' ∉ t := fun t ht h => by have := ht _ h; revert this; decide
  have hstr : str12 (.fin neg m) = if -4 ≤ e ∧ e < 12 then
      signTxt neg ++ (if 0 ≤ e then ds.take (e.toNat + 1) else ['0']) ++ ['.'] ++
        (if dropZeros (if 0 ≤ e then ds.drop (e.toNat + 1)
            else List.replicate ((-e).toNat - 1) '0' ++ ds) = [] then ['0']
          else dropZeros (if 0 ≤ e then ds.drop (e.toNat + 1)
            else List.replicate ((-e).toNat - 1) '0' ++ ds))
      else signTxt neg ++ ds.take 1 ++ (if dropZeros (ds.drop 1) = [] then []
        else '.' :: dropZeros (ds.drop 1)) ++ showExp e := by
    rw [str12, if_neg hm.ne']
    simp only [← he, ← hq, ← hds]
    by_cases c1 : -4 ≤ e ∧ e < 12
    · simp only [if_pos c1]
      by_cases c2 : 0 ≤ e
      · simp only [if_pos c2]
      · simp only [if_neg c2]
    · simp only [if_neg c1]
  by_cases c1 : -4 ≤ e ∧ e < 12
  · rw [if_pos c1] at hstr
    have key : ∀ ip fp : Txt, IsDig ip → IsDig fp → ip ≠ [] →
        decv K ip fp = (q : K) * 10 ^ (e - 11) →
        str12 (.fin neg m) = signTxt neg ++ ip ++ ['.'] ++
          (if dropZeros fp = [] then ['0'] else dropZeros fp) →
        ∃ t n e', str12 (.fin neg m) = signTxt neg ++ t ∧
          NoSpace t ∧ DigHead t ∧ '@' ∉ t ∧ parseDecimal t = some (n, e') ∧
          (n : K) * 10 ^ e' = (q : K) * 10 ^ (e - 11) := by
      intro ip fp hip hfp hne hv hs
      set fp' := (if dropZeros fp = [] then ['0'] else dropZeros fp) with hfp'
      have hd : IsDig fp' := by
        rw [hfp']; split
        · exact isDig_zeros 1
        · exact isDig_dropZeros hfp
      refine ⟨ip ++ '.' :: fp', _, _, by rw [hs]; simp, ?_, (hip.head hne).append _, ?_,
        parseDecimal_point ip fp' hip hd hne, ?_⟩
      · exact hip.noSpace.append (NoSpace.cons (by decide) hd.noSpace)
      · rw [List.mem_append, List.mem_cons]
        rintro (h | h | h)
        · exact hat _ hip h
        · revert h; decide
        · exact hat _ hd h
      · rw [← hv, ← decv_dropZeros, ← decv_orZero ip (dropZeros fp)]; rfl
    by_cases c2 : 0 ≤ e
    · simp only [if_pos c2] at hstr
      refine key _ _ (hdig.take _) (hdig.drop _) (showFixed_take_ne _ _) ?_ hstr
      rw [decv, List.take_append_drop, hnum, List.length_drop, hlen]
      congr 2; omega
    · simp only [if_neg c2] at hstr
      refine key _ _ (isDig_zeros 1) ((isDig_zeros _).append hdig) (by simp) ?_ hstr
      rw [decv, ← List.append_assoc, numT_append, List.length_append, List.length_replicate, hlen,
        hnum]
      rw [List.replicate_append_replicate, numT_zeros, Nat.zero_mul, Nat.zero_add]
      congr 2; omega
  · rw [if_neg c1] at hstr
    have hd := isDig_dropZeros (hdig.drop 1)
    have hne : ds.take 1 ≠ [] := showFixed_take_ne q 0
    refine ⟨ds.take 1 ++ (if dropZeros (ds.drop 1) = [] then [] else '.' :: dropZeros (ds.drop 1))
      ++ showExp e, _, _, by rw [hstr]; simp only [List.append_assoc], ?_,
      ((((hdig.take 1).head hne).append _).append _), ?_,
      parseDecimal_exp (ds.take 1) (dropZeros (ds.drop 1)) (hdig.take 1) hd hne e, ?_⟩
    · refine ((hdig.take 1).noSpace.append ?_).append ?_
      · split
        · intro c hc; cases hc
        · exact NoSpace.cons (by decide) hd.noSpace
      · obtain ⟨es, d1, _, _, d4⟩ := showExp_eq e
        rw [d4]
        refine NoSpace.cons (by decide) (NoSpace.cons (by split <;> decide) d1.noSpace)
    · obtain ⟨es, d1, _, _, d4⟩ := showExp_eq e
      rw [d4, List.mem_append, List.mem_append]
      rintro ((h | h) | h)
      · exact hat _ (hdig.take 1) h
      · split at h
        · cases h
        · rcases List.mem_cons.mp h with h | h
          · revert h; decide
          · exact hat _ hd h
      · rcases List.mem_cons.mp h with h | h
        · revert h; decide
        · rcases List.mem_cons.mp h with h | h
          · split at h <;> revert h <;> decide
          · exact hat _ d1 h
    · have hv := decv_dropZeros (K := K) (ds.take 1) (ds.drop 1)
      unfold decv at hv
      rw [List.take_append_drop, hnum, List.length_drop, hlen] at hv
      have ha : ∀ a b : ℤ, (10 : K) ^ (a - b) = 10 ^ (-b) * 10 ^ a := by
        intro a b; rw [← zpow_add₀ (by norm_num : (10 : K) ≠ 0)]; congr 1; ring
      rw [ha, ← mul_assoc, hv, ha e 11, ← mul_assoc]
      norm_num

/-- Magnitudes are not negative. -/
def SFlt.Valid : SFlt K → Prop
  | .fin _ m => 0 ≤ m
  | _ => True

theorem SFlt.valid_ofFlt (x : Flt K) : (SFlt.ofFlt x).Valid := by
  cases x with
  | fin v => exact abs_nonneg v
  | inf _ => trivial
  | nan => trivial

theorem str12_word (x : SFlt K) (hx : x.Valid) : NoSpace (str12 x) ∧ str12 x ≠ [] ∧ '@' ∉ str12 x := by
  have hsign : ∀ neg, '@' ∉ signTxt neg := by decide
  cases x with
  | nan =>
    refine ⟨?_, by simp [str12], by simp [str12]⟩
    show NoSpace "nan".toList
    intro c hc; revert c; decide
  | inf neg =>
    refine ⟨(signTxt_noSpace neg).append ?_, by simp [str12], ?_⟩
    · intro c hc; revert c; decide
    · rw [str12, List.mem_append]
      rintro (h | h)
      · exact hsign neg h
      · revert h; decide
  | fin neg m =>
    rcases (show (0 : K) ≤ m from hx).eq_or_lt with h | h
    · rw [str12, if_pos h.symm]
      refine ⟨(signTxt_noSpace neg).append ?_, by simp, ?_⟩
      · intro c hc; revert c; decide
      · rw [List.mem_append]
        rintro (h | h)
        · exact hsign neg h
        · revert h; decide
    · obtain ⟨t, n, e, h1, h2, h3, h4, -⟩ := str12_form neg m h
      rw [h1]
      refine ⟨(signTxt_noSpace neg).append h2, ?_, ?_⟩
      · obtain ⟨c, r, rfl, -⟩ := h3; simp
      · rw [List.mem_append]
        rintro (h | h)
        · exact hsign neg h
        · exact h4 h

theorem parseFloat_str12 (x : SFlt K) (hx : x.Valid) : parseFloat (str12 x) = .ok (dec12 x) := by
  cases x with
  | nan => rfl
  | inf neg => exact parseFloat_inf neg
  | fin neg m =>
    rcases (show (0 : K) ≤ m from hx).eq_or_lt with h | h
    · rw [str12, if_pos h.symm, dec12, if_pos h.symm,
        parseFloat_dec neg "0.0".toList 0 (-1) (by intro c hc; revert c; decide)
          ⟨'0', ['.', '0'], rfl, rfl⟩ rfl]
      simp
    · obtain ⟨t, n, e, h1, h2, h3, -, h5, h6⟩ := str12_form neg m h
      rw [h1, parseFloat_dec neg t n e h2 h3 h5, h6, dec12, if_neg h.ne']

/-! ### Integers -/

theorem parseDecimal_nat (t : Txt) (h : IsDig t) (hne : t ≠ []) :
    parseDecimal t = some (numT t, 0) := by
  have := parseDecimal_eq t [] [] [] 0 h (by intro c hc; cases hc) hne (by intro c r h; cases h) rfl rfl
  simpa using this

theorem showInt_eq (n : ℤ) : showInt n = signTxt (decide (n < 0)) ++ showNat n.natAbs := by
  unfold showInt signTxt
  by_cases h : n < 0 <;> simp [h]

theorem parseFloat_showInt (n : ℤ) :
    parseFloat (K := K) (showInt n) = .ok (.fin (decide (n < 0)) (n.natAbs : K)) := by
  rw [showInt_eq, parseFloat_dec _ _ _ _ (isDig_showNat _).noSpace
    ((isDig_showNat _).head (showNat_ne _)) (parseDecimal_nat _ (isDig_showNat _) (showNat_ne _)),
    numT_showNat]
  simp

theorem showInt_word (n : ℤ) : NoSpace (showInt n) ∧ '@' ∉ showInt n := by
  rw [showInt_eq]
  refine ⟨(signTxt_noSpace _).append (isDig_showNat _).noSpace, ?_⟩
  rw [List.mem_append]
  rintro (h | h)
  · have : ∀ neg, '@' ∉ signTxt neg := by decide
    exact this _ h
  · have := isDig_showNat _ _ h
    revert this; decide

end CLF
