import Verif.Lemmas.Ieee
import Verif.Lemmas.Lut1d
import Verif.Spec.Half

/-! Lemmas about half-domain lookups. -/

set_option linter.unusedSectionVars false

namespace CLF

variable {K : Type} [Field K] [LinearOrder K] [IsStrictOrderedRing K] [FloorRing K]

theorem half_infCode : half.infCode = 31744 := rfl
theorem half_signBit : half.signBit = 32768 := rfl

theorem halfFinite_iff (n : ℕ) : Spec.halfFinite n ↔ n < 31744 ∨ 32768 ≤ n ∧ n < 64512 := by
  unfold Spec.halfFinite; omega

theorem half_magVal (n : ℕ) (h : n < 31744) : (half.magVal n : K) = Spec.halfValue n := by
  have e1 : n / 32768 % 2 = 0 := by omega
  have e2 : n / 1024 % 32 = n / 1024 := by omega
  unfold Fmt.magVal Spec.halfValue
  simp only [half, Fmt.bias, e1, e2]
  norm_num
  split_ifs with h0
  · ring
  · have : (2 : K) ^ (((n / 1024 : ℕ) : ℤ) - 15 - 10) = 2 ^ (n / 1024) / 2 ^ 25 := by
      rw [show ((n / 1024 : ℕ) : ℤ) - 15 - 10 = ((n / 1024 : ℕ) : ℤ) - (25 : ℕ) by push_cast; ring,
        zpow_sub₀ two_ne_zero, zpow_natCast, zpow_natCast]
    push_cast at this
    rw [this]
    norm_num
    ring

theorem halfValue_neg (n : ℕ) (h : n < 32768) :
    (Spec.halfValue (32768 + n) : K) = - Spec.halfValue n := by
  unfold Spec.halfValue
  rw [show (32768 + n) / 32768 % 2 = 1 by omega, show n / 32768 % 2 = 0 by omega,
    show (32768 + n) / 1024 % 32 = n / 1024 % 32 by omega,
    show (32768 + n) % 1024 = n % 1024 by omega]
  norm_num
  split_ifs <;> rfl

theorem half_decode (n : ℕ) (h : Spec.halfFinite n) :
    (half.decode n : Flt K) = .fin (Spec.halfValue n) := by
  rw [halfFinite_iff] at h
  unfold Fmt.decode
  rw [half_infCode, half_signBit]
  rcases h with h | ⟨h1, h2⟩
  · simp only [show n % 32768 = n by omega, show n < 31744 from h, if_true]
    rw [if_neg (by simp; omega), half_magVal n h]
  · obtain ⟨c, rfl⟩ := Nat.exists_eq_add_of_le h1
    simp only [show (32768 + c) % 32768 = c by omega, show c < 31744 by omega, if_true]
    rw [if_pos (by simp), half_magVal c (by omega), halfValue_neg c (by omega)]

theorem half_top : (half.magVal 31743 : K) = 65504 := by
  rw [half_magVal _ (by omega)]
  norm_num [Spec.halfValue]

theorem half_over : (half.magVal 31744 : K) = 65536 := by
  have := Fmt.magVal_split (K := K) half 30 1024 (by decide) (.inr (by decide))
  have e : 30 * 2 ^ half.mant + 1024 = 31744 := rfl
  rw [e] at this
  rw [this]
  norm_num [half, Fmt.bias]

/-- Where the magnitude of an input falls between two neighbouring codes. -/
theorem half_blend (y : K) (hy : 0 ≤ y) (hlt : y < 65520) (c c2 : ℕ) (hcc : half.preCode y = c)
    (h : half.magVal c ≤ y ∧ c2 = min 31743 (c + 1) ∨
      y ≤ half.magVal c ∧ 1 ≤ c ∧ c2 = c - 1) :
    c ≤ 31743 ∧ c2 ≤ 31743 ∧ (c ≤ c2 + 1 ∧ c2 ≤ c + 1) ∧
    ∃ w : K, (if (half.magVal c2 - half.magVal c : K) = 0 then 0
        else (y - half.magVal c) / (half.magVal c2 - half.magVal c)) = w ∧
      0 ≤ w ∧ w ≤ 1 / 2 ∧
      (y ≤ 65504 → y = (1 - w) * half.magVal c + w * half.magVal c2) := by
  have hc : c ≤ 31743 := hcc ▸ Fmt.preCode_le half y hy 31743 (by
    rw [half_top, half_over]; linarith)
  obtain ⟨n1, n2⟩ := Fmt.preCode_near half y hy
  rw [hcc] at n1 n2
  clear hcc
  rcases h with ⟨hle, e⟩ | ⟨hle, h1, e⟩
  · rcases Nat.lt_or_ge c 31743 with h3 | h3
    · have e : c2 = c + 1 := by omega
      subst e
      have hs := Fmt.magVal_succ (K := K) half c
      have hpos : (0 : K) < half.magVal (c + 1) - half.magVal c := sub_pos.mpr hs
      have hne := hpos.ne'
      refine ⟨hc, by omega, ⟨by omega, by omega⟩, _, rfl, ?_, ?_, ?_⟩
      · rw [if_neg hne]; exact div_nonneg (by linarith) hpos.le
      · rw [if_neg hne, div_le_iff₀ hpos]
        have := n1 hle
        linarith
      · intro _
        rw [if_neg hne]
        field_simp
        ring
    · have e1 : c = 31743 := by omega
      have e : c2 = c := by omega
      subst e
      refine ⟨hc, hc, ⟨by omega, by omega⟩, 0, ?_, le_rfl, by norm_num, ?_⟩
      · rw [if_pos (sub_self _)]
      · intro hy'
        have : (half.magVal c2 : K) = 65504 := by rw [e1, half_top]
        rw [this] at hle ⊢
        linarith
  · subst e
    have hs := Fmt.magVal_succ (K := K) half (c - 1)
    rw [show c - 1 + 1 = c by omega] at hs
    have hneg : (half.magVal (c - 1) : K) - half.magVal c < 0 := sub_neg.mpr hs
    have hne := hneg.ne
    refine ⟨hc, by omega, ⟨by omega, by omega⟩, _, rfl, ?_, ?_, ?_⟩
    · rw [if_neg hne]; exact div_nonneg_of_nonpos (by linarith) hneg.le
    · rw [if_neg hne, div_le_iff_of_neg hneg]
      rcases eq_or_lt_of_le hle with h | h
      · rw [h]; linarith
      · have := (n2 h).2
        linarith
    · intro _
      rw [if_neg hne]
      field_simp
      ring

/-- A half-domain table: 65536 rows of one or three columns, whose rows at finite
patterns hold the numbers `V`.  (Rows at infinities and NaNs may hold anything.) -/
structure HalfTable {c : ℕ} (a : Arr K) (T : Fin 65536 → Fin (c + 1) → Flt K)
    (V : ℕ → Fin (c + 1) → K) : Prop where
  dims : ∃ rest, a.dims = 65536 :: (c + 1) :: rest
  values : a.values = Spec.rowMajor T
  columns : c = 0 ∨ c = 2
  finite : ∀ n : Fin 65536, Spec.halfFinite n → ∀ j, T n j = .fin (V n j)

theorem HalfTable.lookup {c : ℕ} {a : Arr K} {T : Fin 65536 → Fin (c + 1) → Flt K}
    {V : ℕ → Fin (c + 1) → K} (h : HalfTable a T V) (n : ℕ) (hn : n < 65536) (ch : ℕ) :
    a.lookup1D n ch = .ok (T ⟨n, hn⟩ (Spec.column c ch)) := by
  obtain ⟨rest, hd⟩ := h.dims
  rw [lookup1D_table (m := 65535) a T rest hd h.values h.columns, clampRow_of (by omega)]

theorem HalfTable.lookupFin {c : ℕ} {a : Arr K} {T : Fin 65536 → Fin (c + 1) → Flt K}
    {V : ℕ → Fin (c + 1) → K} (h : HalfTable a T V) (n : ℕ) (hn : Spec.halfFinite n) (ch : ℕ) :
    a.lookup1D n ch = .ok (.fin (V n (Spec.column c ch))) := by
  rw [h.lookup n hn.1, h.finite ⟨n, hn.1⟩ hn]

/-- The finite branch of the lookup, once both codes are known. -/
theorem halfLookup_fin {c : ℕ} {a : Arr K} {T : Fin 65536 → Fin (c + 1) → Flt K}
    {V : ℕ → Fin (c + 1) → K} (h : HalfTable a T V) (x : K) (ch : ℕ) (n1 n2 : ℕ)
    (f1 : Spec.halfFinite n1) (f2 : Spec.halfFinite n2) (e1 : half.encode (.fin x) = n1)
    (e2 : (if 0 ≤ x - Spec.halfValue n1 then
        Arr.clampCode (if x < 0 then 32768 else 0) (if x < 0 then 64511 else 31743)
          ((n1 : ℤ) + if x < 0 then -1 else 1)
      else Arr.clampCode (if x < 0 then 32768 else 0) (if x < 0 then 64511 else 31743)
          ((n1 : ℤ) - if x < 0 then -1 else 1)) = n2) (w : K)
    (hw : (if (Spec.halfValue n2 - Spec.halfValue n1 : K) = 0 then 0
      else (x - Spec.halfValue n1) / (Spec.halfValue n2 - Spec.halfValue n1)) = w) :
    a.lookup1DHalfDomain (.fin x) ch
      = .ok (.fin ((1 - w) * V n1 (Spec.column c ch) + w * V n2 (Spec.column c ch))) := by
  simp only [Arr.lookup1DHalfDomain, if_true]
  unfold Arr.lookup1DHalfDomainInterpolated
  simp only [e1, half_decode n1 f1, Flt.fin_sub, Flt.lt_fin, Flt.le_fin, decide_eq_true_eq]
  rw [e2]
  simp only [half_decode n2 f2, Flt.fin_sub, h.lookupFin n1 f1, h.lookupFin n2 f2, py_ok_bind,
    Flt.fin.injEq]
  have : (if (Spec.halfValue n2 - Spec.halfValue n1 : K) = 0 then Flt.fin 0
      else Flt.fin (x - Spec.halfValue n1) / Flt.fin (Spec.halfValue n2 - Spec.halfValue n1))
      = Flt.fin w := by
    rw [← hw]
    split_ifs with h0
    · rfl
    · rw [Flt.fin_div h0]
  rw [this]
  simp only [Flt.fin_sub, Flt.fin_mul, Flt.fin_add, py_pure]

/-- The two codes and the weight of a finite input below the overflow threshold. -/
theorem half_codes (x : K) (hx : |x| < 65520) :
    ∃ (i j : ℕ) (w : K), Spec.halfNeighbours i j ∧ half.encode (.fin x) = i ∧ 0 ≤ w ∧ w ≤ 1 / 2 ∧
      (i < 32768 ↔ 0 ≤ x) ∧
      (x = Spec.halfValue i → w = 0) ∧
      ((if 0 ≤ x - Spec.halfValue i then
        Arr.clampCode (if x < 0 then 32768 else 0) (if x < 0 then 64511 else 31743)
          ((i : ℤ) + if x < 0 then -1 else 1)
      else Arr.clampCode (if x < 0 then 32768 else 0) (if x < 0 then 64511 else 31743)
          ((i : ℤ) - if x < 0 then -1 else 1)) = j) ∧
      ((if (Spec.halfValue j - Spec.halfValue i : K) = 0 then 0
        else (x - Spec.halfValue i) / (Spec.halfValue j - Spec.halfValue i)) = w) ∧
      (|x| ≤ 65504 → x = (1 - w) * Spec.halfValue i + w * Spec.halfValue j) ∧
      (65504 ≤ |x| → |(Spec.halfValue i : K)| = 65504 ∧ w = 0) := by
  have hy0 : 0 ≤ |x| := abs_nonneg x
  obtain ⟨p, hp⟩ : ∃ p, half.preCode |x| = p := ⟨_, rfl⟩
  have n2 := (Fmt.preCode_near half |x| hy0).2
  have hc0 : half.preCode |x| ≤ 31743 := Fmt.preCode_le half |x| hy0 31743 (by
    rw [half_top, half_over]; linarith)
  have hbig : 65504 ≤ |x| → half.preCode |x| = 31743 := by
    intro hb
    have := Fmt.preCode_mono half (K := K) (x := 65504) (y := |x|) (by norm_num) hb
    rw [← half_top, Fmt.preCode_magVal] at this
    omega
  rw [hp] at n2 hc0 hbig
  have gp : (half.magVal p : K) = Spec.halfValue p := half_magVal _ (by omega)
  have hb := fun c2 h => half_blend |x| hy0 hx p c2 hp h
  have hz := Fmt.magVal_zero (K := K) half
  rw [half_magVal 0 (by omega)] at hz
  have h31 : (Spec.halfValue 31743 : K) = 65504 := by rw [← half_magVal _ (by omega), half_top]
  rw [gp] at n2 hb
  rcases le_or_gt 0 x with hpos | hneg
  · -- non-negative
    have ex : |x| = x := abs_of_nonneg hpos
    rw [ex] at n2 hb hbig hx hp ⊢
    obtain ⟨c2, hc2⟩ : ∃ c2 : ℕ, c2 = if Spec.halfValue p ≤ x then
      min 31743 (p + 1) else p - 1 := ⟨_, rfl⟩
    obtain ⟨_, h2, ⟨h3, h4⟩, w, hw, hw0, hw1, hwx⟩ := hb c2 (by
      rcases le_or_gt (Spec.halfValue p) x with h' | h'
      · rw [if_pos h'] at hc2; exact .inl ⟨h', hc2⟩
      · rw [if_neg (not_le.mpr h')] at hc2; exact .inr ⟨h'.le, (n2 h').1, hc2⟩)
    have f1 : Spec.halfFinite p := (halfFinite_iff _).mpr (by omega)
    have f2 : Spec.halfFinite c2 := (halfFinite_iff _).mpr (by omega)
    have e1 : half.encode (.fin x) = p := by
      simp only [Fmt.encode, if_neg (not_lt.mpr hpos), ex, Fmt.encodeMag_eq,
        half_infCode, hp]
      omega
    rw [half_magVal _ (by omega : c2 < 31744)] at hw hwx
    refine ⟨p, c2, w, ⟨f1, f2, by omega, h3, h4⟩, e1, hw0, hw1, ⟨fun _ => hpos, fun _ => by omega⟩,
      ?_, ?_, hw, hwx, ?_⟩
    · intro hxe
      rw [← hw]
      split_ifs with h0
      · rfl
      · rw [← hxe, sub_self, zero_div]
    · simp only [if_neg (not_lt.mpr hpos), sub_nonneg]
      rw [hc2]
      split_ifs with h'
      · simp only [Arr.clampCode]; omega
      · have := (n2 (lt_of_not_ge h')).1
        simp only [Arr.clampCode]; omega
    · intro hbb
      clear hb
      have e31 := hbig hbb
      subst e31
      rw [h31] at hw hc2 ⊢
      rw [if_pos hbb] at hc2
      rw [show c2 = 31743 by omega, h31] at hw
      simp at hw
      exact ⟨abs_of_nonneg (by norm_num), hw.symm⟩
  · -- negative
    have ex : |x| = -x := abs_of_neg hneg
    rw [ex] at n2 hb hbig hx hp ⊢
    have hny : 0 < -x := by linarith
    obtain ⟨c2, hc2⟩ : ∃ c2 : ℕ, c2 = if -x ≤ Spec.halfValue p then
      p - 1 else min 31743 (p + 1) := ⟨_, rfl⟩
    have h1c : -x ≤ Spec.halfValue p → 1 ≤ p := by
      intro h'
      by_contra hc
      have : p = 0 := by omega
      rw [this, hz] at h'
      linarith
    obtain ⟨_, h2, ⟨h3, h4⟩, w, hw, hw0, hw1, hwx⟩ := hb c2 (by
      rcases le_or_gt (-x) (Spec.halfValue p) with h' | h'
      · rw [if_pos h'] at hc2; exact .inr ⟨h', h1c h', hc2⟩
      · rw [if_neg (not_le.mpr h')] at hc2; exact .inl ⟨h'.le, hc2⟩)
    have f1 : Spec.halfFinite (32768 + p) := (halfFinite_iff _).mpr (by omega)
    have f2 : Spec.halfFinite (32768 + c2) := (halfFinite_iff _).mpr (by omega)
    have e1 : half.encode (.fin x) = 32768 + p := by
      simp only [Fmt.encode, if_pos hneg, ex, Fmt.encodeMag_eq, half_infCode,
        half_signBit, hp]
      omega
    rw [half_magVal _ (by omega : c2 < 31744)] at hw hwx
    have g1 := halfValue_neg (K := K) p (by omega)
    have g2 := halfValue_neg (K := K) c2 (by omega)
    have hw' : (if (Spec.halfValue (32768 + c2) - Spec.halfValue (32768 + p) : K) = 0 then 0
      else (x - Spec.halfValue (32768 + p)) /
        (Spec.halfValue (32768 + c2) - Spec.halfValue (32768 + p))) = w := by
      rw [g1, g2, ← hw]
      have e3 : (-Spec.halfValue c2 - -Spec.halfValue p : K)
          = -(Spec.halfValue c2 - Spec.halfValue p) := by ring
      have e4 : (x - -Spec.halfValue p : K) = -(-x - Spec.halfValue p) := by ring
      rw [e3, e4, neg_div_neg_eq]
      simp only [neg_eq_zero]
    refine ⟨32768 + p, 32768 + c2, w, ⟨f1, f2, by omega, by omega, by omega⟩, e1, hw0, hw1,
      ⟨fun _ => by omega, fun h' => absurd h' (not_le.mpr hneg)⟩, ?_, ?_, hw', ?_, ?_⟩
    · intro hxe
      rw [← hw']
      split_ifs with h0
      · rfl
      · rw [← hxe, sub_self, zero_div]
    · simp only [if_pos hneg, sub_nonneg, g1]
      have e5 : -Spec.halfValue p ≤ x ↔ -x ≤ Spec.halfValue p := by
        constructor <;> intro h' <;> linarith
      rw [hc2]
      simp only [e5]
      split_ifs with h'
      · have := h1c h'
        simp only [Arr.clampCode]; omega
      · simp only [Arr.clampCode]; omega
    · intro hle
      rw [g1, g2]
      have := hwx hle
      linarith
    · intro hbb
      clear hb
      have e31 := hbig hbb
      subst e31
      rw [g1, h31]
      refine ⟨by rw [abs_neg]; exact abs_of_nonneg (by norm_num), ?_⟩
      rw [h31] at hw hc2
      rcases eq_or_lt_of_le hbb with h' | h'
      · rw [← hw, ← h', sub_self]; simp
      · rw [if_neg (not_le.mpr h')] at hc2
        rw [show c2 = 31743 by omega, h31] at hw
        simp at hw
        exact hw.symm

/-- A finite input below the overflow threshold. -/
theorem halfLookup_core {c : ℕ} {a : Arr K} {T : Fin 65536 → Fin (c + 1) → Flt K}
    {V : ℕ → Fin (c + 1) → K} (h : HalfTable a T V) (x : K) (hx : |x| < 65520) :
    ∃ (i j : ℕ) (w : K), Spec.halfNeighbours i j ∧ half.encode (.fin x) = i ∧ 0 ≤ w ∧ w ≤ 1 / 2 ∧
      (i < 32768 ↔ 0 ≤ x) ∧
      (x = Spec.halfValue i → w = 0) ∧
      (∀ ch, a.lookup1DHalfDomain (.fin x) ch
        = .ok (.fin ((1 - w) * V i (Spec.column c ch) + w * V j (Spec.column c ch)))) ∧
      (|x| ≤ 65504 → x = (1 - w) * Spec.halfValue i + w * Spec.halfValue j) ∧
      (65504 ≤ |x| → |(Spec.halfValue i : K)| = 65504 ∧ w = 0) := by
  obtain ⟨i, j, w, hn, e1, h0, h1, hs, hz, e2, hw, hv, hb⟩ := half_codes x hx
  exact ⟨i, j, w, hn, e1, h0, h1, hs, hz,
    fun ch => halfLookup_fin h x ch i j hn.1 hn.2.1 e1 e2 w hw, hv, hb⟩

/-- Ties to even at the overflow threshold. -/
theorem half_preCode_threshold : half.preCode (65520 : K) = 31744 := by
  have hlog : Int.log 2 (65520 : K) = 15 := by
    have := Int.log_natCast (R := K) 2 65520
    rw [show Nat.log 2 65520 = 15 by decide +kernel] at this
    exact_mod_cast this
  have hb : half.binExp (65520 : K) = 15 := by
    unfold Fmt.binExp
    rw [if_neg (by norm_num), hlog]; rfl
  have hf : ⌊(4095 / 2 : K)⌋ = 2047 := by rw [Int.floor_eq_iff]; norm_num
  have hr : Fmt.rne (4095 / 2 : K) = 2048 := by
    unfold Fmt.rne
    simp only [hf]
    norm_num
  unfold Fmt.preCode
  rw [hb]
  have e : (65520 : K) / 2 ^ ((15 : ℤ) - (half.mant : ℤ)) = 4095 / 2 := by
    norm_num [half]
  rw [e, hr]
  rfl

theorem half_overflow (x : K) (hx : 65520 ≤ |x|) :
    half.encode (.fin x) = if x < 0 then 64512 else 31744 := by
  have := Fmt.preCode_mono half (K := K) (x := 65520) (y := |x|) (by norm_num) hx
  rw [half_preCode_threshold] at this
  simp only [Fmt.encode, Fmt.encodeMag_eq, half_infCode, half_signBit]
  split_ifs <;> omega

theorem half_decode_inf (s : Bool) :
    (half.decode (if s then 64512 else 31744) : Flt K) = .inf s := by
  cases s <;> rfl

theorem half_decode_nan : (half.decode (half.encode (.nan : Flt K)) : Flt K) = .nan := by
  unfold Fmt.decode Fmt.encode
  simp only [half_infCode, half_signBit]
  norm_num [half]

theorem half_encode_exact (n : ℕ) (hn : Spec.halfFinite n) (h0 : n ≠ 32768) :
    half.encode (.fin (Spec.halfValue n : K)) = n := by
  rw [halfFinite_iff] at hn
  rcases hn with h | ⟨h1, h2⟩
  · rw [← half_magVal n h]
    have := Fmt.magVal_nonneg (K := K) half n
    simp only [Fmt.encode, if_neg (not_lt.mpr this), abs_of_nonneg this]
    rw [Fmt.encodeMag_magVal half n (by rw [half_infCode]; omega)]; omega
  · obtain ⟨c, rfl⟩ := Nat.exists_eq_add_of_le h1
    rw [halfValue_neg c (by omega), ← half_magVal c (by omega)]
    have hpos : (0 : K) < half.magVal c := by
      rw [← Fmt.magVal_zero half]; exact Fmt.magVal_strictMono half (by omega)
    simp only [Fmt.encode, if_pos (neg_neg_of_pos hpos), abs_neg, abs_of_pos hpos]
    rw [Fmt.encodeMag_magVal half c (by rw [half_infCode]; omega), half_signBit]

end CLF
