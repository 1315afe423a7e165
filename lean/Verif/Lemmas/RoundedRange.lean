import Verif.Lemmas.RoundedMatrix
import Verif.Props.Range
import Verif.Props.ImageDepth

/-! # The Range node in IEEE arithmetic -/

set_option linter.unusedSectionVars false

namespace CLF

variable {K : Type} [Field K] [LinearOrder K] [IsStrictOrderedRing K] [FloorRing K]

/-- `v` is a number that pixels of depth `d` hold: one of the integers of the depth, or any `float32` number if the depth is
not one of integers. -/
def Spec.PixelNumber (d : AVal) (v : K) : Prop :=
  (∃ n k : ℕ, (n, d) ∈ [(8, AVal.str "8i"), (10, .str "10i"), (12, .str "12i"), (16, .str "16i")] ∧ k < 2 ^ n ∧ v = k) ∨
    (Spec.bits (some d) = none ∧ Spec.IsSingle v)

/-! ## The node, for any rounding -/

theorem rangeR_eq (R : Rounding K) (b : Base K) (din dout : AVal) (values : List (Flt K))
    (hin : b.attrs.get? "inBitDepth" = some din) (hout : b.attrs.get? "outBitDepth" = some dout)
    (cl : Bool)
    (hcl : (match b.attrs.get? "style" with
      | some s => decide (s = AVal.str "clamp") | none => true) = cl)
    (mi ma mo mx : Option (Flt K))
    (h1 : (if (b.attrs.get? "defaultRange").isSome && (rangeBoundR R b "minInValue" (some din)).isNone
      then some (.fin 0) else rangeBoundR R b "minInValue" (some din)) = mi)
    (h2 : (if (b.attrs.get? "defaultRange").isSome && (rangeBoundR R b "maxInValue" (some din)).isNone
      then some (.fin 1) else rangeBoundR R b "maxInValue" (some din)) = ma)
    (h3 : (if (b.attrs.get? "defaultRange").isSome && (rangeBoundR R b "minOutValue" (some dout)).isNone
      then some (.fin 0) else rangeBoundR R b "minOutValue" (some dout)) = mo)
    (h4 : (if (b.attrs.get? "defaultRange").isSome && (rangeBoundR R b "maxOutValue" (some dout)).isNone
      then some (.fin 1) else rangeBoundR R b "maxOutValue" (some dout)) = mx) :
    rangeProcessR R b values = (do
      let out ← values.mapM (rangeStepR R (some din) (some dout) cl mi ma mo mx)
      .ok ⟨out, out, true⟩) := by
  subst hcl h1 h2 h3 h4
  unfold rangeProcessR
  have e1 : b.attrE "inBitDepth" = .ok (some din) := by simp [Base.attrE, Dict.getE, hin]
  have e2 : b.attrE "outBitDepth" = .ok (some dout) := by simp [Base.attrE, Dict.getE, hout]
  rw [e1, e2]
  simp only [py_ok_bind]
  rw [chanLoop_const]
  rfl

/-- With four bounds. -/
theorem rangeR_full (R : Rounding K) {b : Base K} {din dout : AVal} {mi ma mo mx : K}
    (h : FullRange b din dout mi ma mo mx) (hcl : Clamps b) (values : List (Flt K)) :
    rangeProcessR R b values = (do
      let out ← values.mapM (rangeStepR R (some din) (some dout) true
        (some (R double (.fin (mi / Spec.fullScale (some din))))) (some (R double (.fin (ma / Spec.fullScale (some din)))))
        (some (R double (.fin (mo / Spec.fullScale (some dout))))) (some (R double (.fin (mx / Spec.fullScale (some dout))))))
      .ok ⟨out, out, true⟩) := by
  have hb (key : String) (d : Depth) (x : K) (hk : b.values.get? key = some (.fin x)) :
      rangeBoundR R b key d = some (R double (.fin (x / Spec.fullScale d))) := by
    simp [rangeBoundR, hk, Flt.fin_div (fullScale_ne (K := K) d), bitDepthSize_eq_fullScale]
  apply rangeR_eq R b din dout values h.inDepth h.outDepth
  · rcases hcl with hc | hc
    · simp [hc]
    · simp [hc]
  · simp [hb _ _ _ h.minIn]
  · simp [hb _ _ _ h.maxIn]
  · simp [hb _ _ _ h.minOut]
  · simp [hb _ _ _ h.maxOut]

/-- One value, clamping. -/
theorem rangeStepR_clamp (R : Rounding K) (din dout : Depth) (mi ma mo mx x sc : Flt K)
    (h : pyDivF (R double (mx - mo)) (R double (ma - mi)) = .ok sc) :
    rangeStepR R din dout true (some mi) (some ma) (some mo) (some mx) x
      = .ok (R single (fromUnitR R (R single (clamp (R single (R double (R double
          (R double (R single (toUnitR R x din) * R double sc) + mo) - R double (mi * R double sc)))) mo mx)) dout)) := by
  unfold rangeStepR clamp
  simp only [h, py_ok_bind, py_pure, if_true]

theorem fromUnitR_cases (R : Rounding K) (v : Flt K) (d : Depth) :
    (fromUnitR R v d = R double (v * .fin (Spec.fullScale d)) ∧ 255 ≤ (Spec.fullScale d : K)) ∨
      (fromUnitR R v d = v ∧ (Spec.fullScale d : K) = 1) := by
  rw [← bitDepthSize_eq_fullScale]
  unfold fromUnitR bitDepthSize
  split_ifs <;> first
    | exact .inr ⟨rfl, rfl⟩
    | exact .inl ⟨rfl, by norm_num⟩

/-! ## Sizes -/

/-- Numbers of any practical size do not overflow in `float64`. -/
theorem double_fin_big {x : K} (h : |x| ≤ 2 ^ 900) : ieee double (.fin x) = .fin (double.near x) := by
  refine Fmt.round_eq double x ?_
  rw [Fmt.magVal_infCode double (by decide), double_bias]
  have h1 := (abs_le.mp (double_rounder.err |x|)).2
  rw [abs_abs] at h1
  have h2 : |x| * (1 / 2 ^ 53) ≤ |x| := mul_le_of_le_one_right (abs_nonneg x) (by norm_num)
  have h3 : (2 : K) ^ (-1075 : ℤ) ≤ 1 := zpow_le_one_of_nonpos₀ one_le_two (by norm_num)
  have h4 : (2 : K) ^ 900 * 4 ≤ 2 ^ (1023 + 1 : ℤ) := by
    rw [show (4 : K) = 2 ^ 2 by norm_num, ← pow_add, ← zpow_natCast]
    exact zpow_le_zpow_right₀ one_le_two (by norm_num)
  have h5 : (1 : K) ≤ 2 ^ 900 := one_le_pow₀ one_le_two
  generalize (2 : K) ^ (-1075 : ℤ) = e at h1 h3
  generalize (2 : K) ^ 900 = b at h h4 h5
  generalize (2 : K) ^ (1023 + 1 : ℤ) = c at h4 ⊢
  linarith

/-- One more bit suffices for a rounded number. -/
theorem double_size {x : K} {n : ℕ} (h : |x| ≤ 2 ^ n) : |double.near x| ≤ 2 ^ (n + 2) := by
  have h1 := double_abs x
  have h2 : (1 : K) ≤ 2 ^ n := one_le_pow₀ one_le_two
  rw [pow_add]
  linarith

/-- Overflow. -/
theorem Fmt.round_cases (f : Fmt) (x : K) : f.round (.fin x) = .fin (f.near x) ∨
    (∃ s, f.round (.fin x) = .inf s ∧ (s = true → x < 0) ∧ (s = false → 0 ≤ x)) ∧ f.magVal f.infCode ≤ |f.near x| := by
  by_cases hlt : f.near |x| < f.magVal f.infCode
  · exact .inl (round_eq f x hlt)
  · right
    rw [abs_near]
    refine ⟨?_, not_lt.mp hlt⟩
    have hp : f.infCode ≤ f.preCode |x| := by
      rw [near_of_nonneg f (abs_nonneg x)] at hlt
      exact (magVal_strictMono f).le_iff_le.mp (not_lt.mp hlt)
    have hs := infCode_lt_signBit f
    have he : f.encodeMag |x| = f.infCode := by
      rw [encodeMag_eq]
      omega
    unfold round encode decode
    rcases lt_or_ge x 0 with hx | hx
    · simp only [if_pos hx, he, Nat.add_mod_left, Nat.mod_eq_of_lt hs, lt_irrefl, if_false, if_true]
      exact ⟨_, rfl, fun _ => hx, fun h => by simp at h⟩
    · simp only [if_neg (not_lt.mpr hx), he, Nat.zero_add, Nat.mod_eq_of_lt hs, lt_irrefl, if_false, if_true]
      exact ⟨_, rfl, fun h => by simp at h; omega, fun _ => hx⟩

/-- Clamping what may have overflowed. -/
theorem clamp_single {lo hi : K} (h : lo ≤ hi) (hlo : |lo| < 2 ^ 128) (hhi : |hi| < 2 ^ 128) (g : K) :
    clamp (ieee single (.fin g)) (.fin lo) (.fin hi) = .fin (min hi (max lo (single.near g))) := by
  have hinf : (single.magVal single.infCode : K) = 2 ^ 128 := by
    rw [Fmt.magVal_infCode single (by decide), single_bias]
    norm_cast
  rcases Fmt.round_cases single g with e | ⟨⟨s, e, h1, h2⟩, hbig⟩
  · rw [ieee, e, clamp_fin]
  · rw [hinf] at hbig
    rw [abs_lt] at hlo hhi
    have e' : ieee single (.fin g) = .inf s := e
    rw [e']
    cases s with
    | true =>
      rw [(C02_values h 0).2.2.2.2]
      rw [abs_of_nonpos (single_rounder.nonpos (h1 rfl).le)] at hbig
      rw [max_eq_left (by linarith), min_eq_right h]
    | false =>
      rw [(C02_values h 0).2.2.2.1]
      rw [abs_of_nonneg (single_rounder.nonneg (h2 rfl))] at hbig
      rw [max_eq_right (by linarith), min_eq_left (by linarith)]

/-! ## Numbers pixels hold -/

theorem fullScale_none {d : AVal} (h : Spec.bits (some d) = none) : (Spec.fullScale (some d) : K) = 1 := by
  simp [Spec.fullScale, h]

theorem fullScale_bits {d : AVal} {n : ℕ}
    (h : (n, d) ∈ [(8, AVal.str "8i"), (10, .str "10i"), (12, .str "12i"), (16, .str "16i")]) :
    (Spec.fullScale (some d) : K) = 2 ^ n - 1 ∧ (n = 8 ∨ n = 10 ∨ n = 12 ∨ n = 16) := by
  simp only [List.mem_cons, Prod.mk.injEq, List.not_mem_nil, or_false] at h
  rcases h with ⟨rfl, rfl⟩ | ⟨rfl, rfl⟩ | ⟨rfl, rfl⟩ | ⟨rfl, rfl⟩ <;> exact ⟨rfl, by decide⟩

/-- A pixel value on the unit scale. -/
def unitF (d : AVal) (x : K) : K := single.near (double.near (x / Spec.fullScale (some d)))

/-- A value of the unit scale as a pixel value. -/
def backF (d : AVal) (y : K) : K := single.near (double.near (y * Spec.fullScale (some d)))

theorem unitF_mono (d : AVal) {x y : K} (h : x ≤ y) : unitF d x ≤ unitF d y :=
  Fmt.near_mono _ (Fmt.near_mono _ (div_le_div_of_nonneg_right h (fullScale_pos _).le))

theorem backF_mono (d : AVal) {x y : K} (h : x ≤ y) : backF d x ≤ backF d y :=
  Fmt.near_mono _ (Fmt.near_mono _ (mul_le_mul_of_nonneg_right h (fullScale_pos _).le))

theorem isSingle_nat {k : ℕ} (h : k < 2 ^ 24) : Spec.IsSingle (k : K) := single_nat k h

theorem Spec.PixelNumber.single {d : AVal} {v : K} (h : Spec.PixelNumber d v) : Spec.IsSingle v := by
  rcases h with ⟨n, k, hd, hk, rfl⟩ | ⟨_, h⟩
  · have hn := (fullScale_bits (K := K) hd).2
    have : 2 ^ n ≤ 2 ^ 16 := Nat.pow_le_pow_right (by norm_num) (by omega)
    exact isSingle_nat (by omega)
  · exact h

/-- Such a number survives the unit scale. -/
theorem Spec.PixelNumber.back {d : AVal} {v : K} (h : Spec.PixelNumber d v) : backF d (unitF d v) = v := by
  rcases h with ⟨n, k, hd, hk, rfl⟩ | ⟨hb, h⟩
  · obtain ⟨hS, hn⟩ := fullScale_bits (K := K) hd
    obtain ⟨q, h1, h2, h3⟩ := single_scale (K := K) (w := double.round) (.inr fun _ => rfl) n hn k hk
    unfold backF unitF
    rw [hS]
    have hpow : (2 : K) ^ n ≤ 2 ^ 16 := pow_le_pow_right₀ one_le_two (by omega)
    have hpow8 : (2 : K) ^ 8 ≤ 2 ^ n := pow_le_pow_right₀ one_le_two (by omega)
    have hM0 : (0 : K) < 2 ^ n - 1 := by norm_num at hpow8; linarith
    have hkn : (k : K) ≤ 2 ^ n := by exact_mod_cast hk.le
    have b1 : |(k : K) / (2 ^ n - 1)| ≤ 2 ^ 300 := by
      rw [abs_div, abs_of_pos hM0, Nat.abs_cast, div_le_iff₀ hM0]
      have : (2 : K) ^ 16 ≤ 2 ^ 300 := pow_le_pow_right₀ one_le_two (by norm_num)
      have h255 : (1 : K) ≤ 2 ^ n - 1 := by norm_num at hpow8; linarith
      have h0 : (0 : K) ≤ 2 ^ 300 := by positivity
      have := mul_le_mul_of_nonneg_left h255 h0
      rw [mul_one] at this
      exact (hkn.trans hpow).trans (‹(2 : K) ^ 16 ≤ 2 ^ 300›.trans this)
    have e1 : double.round (.fin ((k : K) / (2 ^ n - 1))) = .fin _ := double_fin b1
    rw [e1] at h1
    have hq := (Fmt.round_finite _ h1).1
    rw [hq]
    have hqs : Spec.IsSingle q := by rw [← hq]; exact isSingle_near (by rw [hq]; exact h1)
    have b2 : |q * (2 ^ n - 1)| ≤ 2 ^ 300 := by
      rw [abs_mul, abs_of_pos hM0]
      have := mul_le_mul hqs.lt.le (show (2 : K) ^ n - 1 ≤ 2 ^ 16 by linarith) hM0.le (by positivity)
      refine this.trans ?_
      rw [← pow_add]
      exact pow_le_pow_right₀ one_le_two (by norm_num)
    have e2 : double.round (.fin (q * (2 ^ n - 1))) = .fin _ := double_fin b2
    rw [e2] at h3
    exact (Fmt.round_finite _ h3).1
  · unfold backF unitF
    rw [fullScale_none hb, div_one, mul_one, h.double, h.near, h.double, h.near]

/-- The unit scale does not enlarge. -/
theorem one_le_fullScale (d : Depth) : (1 : K) ≤ Spec.fullScale d := by
  rcases toUnitR_cases (K := K) ieee .nan d with ⟨_, h⟩ | ⟨_, h⟩ <;> linarith

theorem unit_lt (d : Depth) {x : K} (h : |x| < 2 ^ 128) : |x / Spec.fullScale d| < 2 ^ 128 := by
  rw [abs_div, abs_of_pos (fullScale_pos (K := K) d)]
  exact (div_le_self (abs_nonneg x) (one_le_fullScale d)).trans_lt h

/-- The bounds as the code has them. -/
theorem bound_fin (d : Depth) {x : K} (h : Spec.IsSingle x) :
    ieee double (.fin (x / Spec.fullScale d)) = .fin (double.near (x / Spec.fullScale d)) ∧
      |double.near (x / Spec.fullScale d)| < 2 ^ 128 := by
  have h1 := unit_lt d h.lt
  refine ⟨double_fin (h1.le.trans (pow_le_pow_right₀ one_le_two (by norm_num))), ?_⟩
  rcases toUnitR_cases (K := K) ieee .nan d with ⟨_, h255⟩ | ⟨_, hS⟩
  · have h2 : |x / Spec.fullScale d| ≤ 2 ^ 121 := by
      have hpos : (0 : K) < Spec.fullScale d := by linarith
      rw [abs_div, abs_of_pos hpos, div_le_iff₀ hpos]
      have h3 : (2 : K) ^ 128 ≤ 2 ^ 121 * 255 := by norm_num
      have h4 : (2 : K) ^ 121 * 255 ≤ 2 ^ 121 * Spec.fullScale d := mul_le_mul_of_nonneg_left h255 (by positivity)
      exact h.lt.le.trans (h3.trans h4)
    exact (double_size h2).trans_lt (pow_lt_pow_right₀ one_lt_two (by norm_num))
  · rw [hS, div_one, h.double]
    exact h.lt

theorem unitR_eq (d : AVal) {x : K} (hx : Spec.IsSingle x) :
    ieee single (toUnitR ieee (.fin x) (some d)) = .fin (unitF d x) ∧ Spec.IsSingle (unitF d x) := by
  have h : ieee single (toUnitR ieee (.fin x) (some d)) = .fin (unitF d x) := by
    obtain ⟨p, hp, -⟩ := unit_pos (some d) hx
    rcases toUnitR_cases ieee (.fin x) (some d) with ⟨e, h255⟩ | ⟨e, h1⟩
    · rw [e, Flt.fin_div (fullScale_ne _), (bound_fin (some d) hx).1] at hp ⊢
      rw [hp, unitF]
      exact congrArg Flt.fin (Fmt.round_finite _ hp).1.symm
    · have hx' : ieee single (.fin x) = .fin x := hx
      rw [e, hx', unitF, h1, div_one, hx.double, hx.near]
  refine ⟨h, ?_⟩
  obtain ⟨p, hp, hs, -⟩ := unit_pos (some d) hx
  rw [h] at hp
  rw [Flt.fin.inj hp]
  exact hs

/-- Back from the unit scale, between two numbers for which that works. -/
theorem backR_eq (d : AVal) {y lo hi : K} (hlo : Spec.PixelNumber d lo) (hhi : Spec.PixelNumber d hi)
    (hy : Spec.IsSingle y) (h1 : unitF d lo ≤ y) (h2 : y ≤ unitF d hi) :
    ieee single (fromUnitR ieee (.fin y) (some d)) = .fin (backF d y) ∧ Spec.IsSingle (backF d y) ∧
      lo ≤ backF d y ∧ backF d y ≤ hi := by
  have b1 := backF_mono d h1
  have b2 := backF_mono d h2
  rw [hlo.back] at b1
  rw [hhi.back] at b2
  have hround : ieee single (.fin (double.near (y * Spec.fullScale (some d)))) = .fin (backF d y) := by
    refine Fmt.round_eq single _ ?_
    rw [← Fmt.abs_near]
    have c1 := (Fmt.round_finite single hlo.single).2
    have c2 := (Fmt.round_finite single hhi.single).2
    rw [abs_lt] at c1 c2 ⊢
    unfold backF at b1 b2
    exact ⟨by linarith, by linarith⟩
  have hsz : |y * Spec.fullScale (some d)| ≤ 2 ^ 300 := by
    rw [abs_mul, abs_of_pos (fullScale_pos (K := K) (some d))]
    have h16 : (Spec.fullScale (some d) : K) ≤ 2 ^ 16 := by
      rw [← bitDepthSize_eq_fullScale]
      unfold bitDepthSize
      split_ifs <;> norm_num
    have := mul_le_mul hy.lt.le h16 (fullScale_pos (some d)).le (by positivity)
    refine this.trans ?_
    rw [← pow_add]
    exact pow_le_pow_right₀ one_le_two (by norm_num)
  refine ⟨?_, isSingle_near hround, b1, b2⟩
  rcases fromUnitR_cases ieee (.fin y) (some d) with ⟨e, _⟩ | ⟨e, hS⟩
  · rw [e, Flt.fin_mul, double_fin hsz, hround]
  · rw [e, backF, hS, mul_one, hy.double, hy.near]
    exact hy

/-! ## The width of the input interval -/

theorem Spec.IsSingle.mul_eta {x : K} (h : Spec.IsSingle x) : ∃ k : ℤ, x = k * 2 ^ (-149 : ℤ) := by
  have key : ∀ y : K, 0 ≤ y → CLF.single.near y = y → ∃ k : ℤ, y = k * 2 ^ (-149 : ℤ) := by
    intro y hy hn
    rw [Fmt.near_of_nonneg _ hy] at hn
    obtain ⟨e, k, hc, hk, hs⟩ := Fmt.exists_split CLF.single (CLF.single.preCode y)
    rw [hc, Fmt.magVal_split CLF.single e k hk.le hs, single_bias, single_mant] at hn
    refine ⟨k * 2 ^ e, ?_⟩
    rw [← hn]
    push_cast
    rw [mul_assoc, ← zpow_natCast, ← zpow_add₀ two_ne_zero]
    congr 2
    push_cast
    ring
  rcases le_or_gt 0 x with hx | hx
  · exact key x hx h.near
  · obtain ⟨k, hk⟩ := key (-x) (by linarith) (by rw [Fmt.near_neg, h.near])
    exact ⟨-k, by rw [← neg_neg x, hk]; push_cast; ring⟩

/-- Different bounds are different as the code has them. -/
theorem rangeWidth_pos {d : AVal} {a b : K} (ha : Spec.PixelNumber d a) (hb : Spec.PixelNumber d b) (hab : a < b) :
    (2 : K) ^ (-149 : ℤ) ≤ double.near (double.near (b / Spec.fullScale (some d)) - double.near (a / Spec.fullScale (some d))) := by
  have hnear : double.near ((2 : K) ^ (-149 : ℤ)) = 2 ^ (-149 : ℤ) := by
    have := Fmt.near_short (K := K) double 1 (-149) (by decide) (by decide)
    simpa using this
  rw [← hnear]
  refine Fmt.near_mono _ ?_
  rcases ha with ⟨n, k, hd, hk, rfl⟩ | ⟨hd, ha⟩
  · obtain ⟨hS, hn⟩ := fullScale_bits (K := K) hd
    rcases hb with ⟨n', k', hd', hk', rfl⟩ | ⟨hd', hb⟩
    · have hS' := (fullScale_bits (K := K) hd').1
      have h1 : (k : K) + 1 ≤ k' := by
        have : k < k' := by exact_mod_cast hab
        exact_mod_cast this
      have hpow : (2 : K) ^ n ≤ 2 ^ 16 := pow_le_pow_right₀ one_le_two (by omega)
      have hpow8 : (2 : K) ^ 8 ≤ 2 ^ n := pow_le_pow_right₀ one_le_two (by omega)
      have hM0 : (0 : K) < 2 ^ n - 1 := by norm_num at hpow8; linarith
      have hq : ∀ j : ℕ, j < 2 ^ n' → |(j : K) / Spec.fullScale (some d)| ≤ 1 := by
        intro j hj
        rw [abs_div, abs_of_pos (fullScale_pos (K := K) (some d)), Nat.abs_cast, hS', div_le_one (by rw [← hS', hS]; exact hM0)]
        have : ((j + 1 : ℕ) : K) ≤ ((2 ^ n' : ℕ) : K) := by exact_mod_cast hj
        push_cast at this
        linarith
      have hnn : n = n' := by
        rw [hS] at hS'
        have e : (2 : K) ^ n = 2 ^ n' := by linarith
        exact Nat.pow_right_injective le_rfl (by exact_mod_cast e)
      have e1 := double_rounder.err ((k : K) / Spec.fullScale (some d))
      have e2 := double_rounder.err ((k' : K) / Spec.fullScale (some d))
      have q1 := hq k (by rw [← hnn]; exact hk)
      have q2 := hq k' hk'
      have e3 : (k' : K) / Spec.fullScale (some d) - k / Spec.fullScale (some d) ≥ 1 / 2 ^ 16 := by
        rw [ge_iff_le, ← sub_div, hS]
        exact div_le_div₀ (by linarith) (by linarith) hM0 (by linarith)
      have e4 := eta_le (K := K)
      have e5 : (2 : K) ^ (-149 : ℤ) ≤ 1 / 2 ^ 53 := by
        rw [one_div, ← zpow_natCast, ← zpow_neg]
        exact zpow_le_zpow_right₀ one_le_two (by norm_num)
      have f1 := abs_le.mp e1
      have f2 := abs_le.mp e2
      generalize double.near ((k : K) / Spec.fullScale (some d)) = y1 at *
      generalize double.near ((k' : K) / Spec.fullScale (some d)) = y2 at *
      generalize (k : K) / Spec.fullScale (some d) = x1 at *
      generalize (k' : K) / Spec.fullScale (some d) = x2 at *
      generalize (2 : K) ^ (-1075 : ℤ) = η at *
      generalize (2 : K) ^ (-149 : ℤ) = μ at *
      norm_num at *
      linarith
    · exfalso
      have h1 := fullScale_none (K := K) hd'
      rw [hS] at h1
      rcases hn with rfl | rfl | rfl | rfl <;> norm_num at h1
  · have hb' := hb.single
    rw [fullScale_none hd, div_one, div_one, ha.double, hb'.double]
    obtain ⟨k, hk⟩ := ha.mul_eta
    obtain ⟨l, hl⟩ := hb'.mul_eta
    have hμ := two_zpow_pos (K := K) (-149)
    rw [hk, hl] at hab ⊢
    have hkl : k < l := by
      have := lt_of_mul_lt_mul_right hab hμ.le
      exact_mod_cast this
    have : (1 : K) ≤ (l : K) - k := by
      have : (k : K) + 1 ≤ l := by exact_mod_cast hkl
      linarith
    rw [← sub_mul]
    exact le_mul_of_one_le_left hμ.le this

end CLF
