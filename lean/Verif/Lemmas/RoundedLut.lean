import Verif.Lemmas.RoundedSum
import Verif.Lemmas.RoundedExact
import Verif.Lemmas.FloatText
import Verif.Props.Lut3d

set_option linter.unusedSectionVars false

/-!
# Lookups in tables of `float32` entries in IEEE arithmetic
-/

namespace CLF

variable {K : Type} [Field K] [LinearOrder K] [IsStrictOrderedRing K] [FloorRing K]

theorem Fmt.near_near (f : Fmt) (x : K) : f.near (f.near x) = f.near x := by
  have h : ∀ x : K, 0 ≤ x → f.near (f.near x) = f.near x := by
    intro x hx
    rw [Fmt.near_of_nonneg f (Fmt.near_nonneg f hx)]
    rw [Fmt.near_of_nonneg f hx, Fmt.preCode_magVal]
  rcases le_or_gt 0 x with hx | hx
  · exact h x hx
  · have := h (-x) (by linarith)
    rwa [Fmt.near_neg, Fmt.near_neg, neg_inj] at this

theorem isSingle_near {r : K} (h : single.round (.fin r) = .fin (single.near r)) : Spec.IsSingle (single.near r) := by
  have h1 := (Fmt.round_finite single h).2
  unfold Spec.IsSingle
  rw [Fmt.round_eq single, Fmt.near_near]
  rwa [← Fmt.abs_near, Fmt.near_near]

/-! ## Interpolation -/

/-- Interpolation between two numbers in `float64`. -/
def lerpF (t a b : K) : K := double.near (double.near (double.near (1 - t) * a) + double.near (t * b))

theorem near_unit {t : K} (h0 : 0 ≤ t) (h1 : t ≤ 1) : 0 ≤ double.near t ∧ double.near t ≤ 1 :=
  ⟨Fmt.near_nonneg _ h0, by simpa [double_one] using Fmt.near_mono double h1⟩

theorem lerpF_fin {t a b : K} (h0 : 0 ≤ t) (h1 : t ≤ 1) (ha : |a| ≤ 2 ^ 200) (hb : |b| ≤ 2 ^ 200) :
    sum2R ieee (ieee double (.fin 1 - .fin t)) (.fin a) (.fin t) (.fin b) = .fin (lerpF t a b) := by
  have e : (Flt.fin 1 : Flt K) - .fin t = .fin (1 - t) := Flt.fin_sub _ _
  have hs := near_unit (show 0 ≤ 1 - t by linarith) (by linarith)
  have h1300 : (1 : K) ≤ 2 ^ 300 := one_le_pow₀ one_le_two
  rw [e, double_fin (by rw [abs_of_nonneg (by linarith)]; exact (by linarith : 1 - t ≤ 1).trans h1300)]
  exact sum2_fin (by rw [abs_of_nonneg hs.1]; linarith) (by rw [abs_of_nonneg h0]; linarith) ha hb

theorem lerpF_abs {t a b B : K} (h0 : 0 ≤ t) (h1 : t ≤ 1) (ha : |a| ≤ B) (hb : |b| ≤ B) :
    |lerpF t a b| ≤ 8 * B + 5 := by
  have hs := near_unit (show 0 ≤ 1 - t by linarith) (by linarith)
  have m1 : |double.near (1 - t) * a| ≤ B := by
    rw [abs_mul, abs_of_nonneg hs.1]
    exact (mul_le_of_le_one_left (abs_nonneg a) hs.2).trans ha
  have m2 : |t * b| ≤ B := by
    rw [abs_mul, abs_of_nonneg h0]
    exact (mul_le_of_le_one_left (abs_nonneg b) h1).trans hb
  have d1 := double_abs (double.near (1 - t) * a)
  have d2 := double_abs (t * b)
  have d3 := double_abs (double.near (double.near (1 - t) * a) + double.near (t * b))
  have d4 := abs_add_le (double.near (double.near (1 - t) * a)) (double.near (t * b))
  unfold lerpF
  linarith

/-- Interpolation between numbers that exceed `M` by at most `E` units does not exceed it by much more. -/
theorem lerpF_le {t a b M E : K} (h0 : 0 ≤ t) (h1 : t ≤ 1) (hM : Spec.IsSingle M) (hE0 : 0 ≤ E) (hE : E ≤ 100)
    (ha : a ≤ M + E * (1 / 2 ^ 53 * |M|)) (hb : b ≤ M + E * (1 / 2 ^ 53 * |M|)) :
    lerpF t a b ≤ M + (E + 32) * (1 / 2 ^ 53 * |M|) := by
  have hw := double_rounder.weight eta_le h0 h1
  have hc : E * (1 / 2 ^ 53 * |M|) ≤ |M| / 2 := by
    have e1 : E * (1 / 2 ^ 53 * |M|) ≤ 100 * (1 / 2 ^ 53 * |M|) := mul_le_mul_of_nonneg_right hE (by positivity)
    have e2 : (100 : K) * (1 / 2 ^ 53 * |M|) ≤ |M| / 2 := by
      have := abs_nonneg M
      norm_num
      linarith
    linarith
  have hc0 : 0 ≤ E * (1 / 2 ^ 53 * |M|) := by positivity
  have hup : |M + E * (1 / 2 ^ 53 * |M|)| ≤ 2 * |M| := by
    refine (abs_add_le _ _).trans ?_
    rw [abs_of_nonneg hc0]
    have := abs_nonneg M
    linarith
  have hlow : |M| / 2 ≤ |M + E * (1 / 2 ^ 53 * |M|)| := by
    rcases le_or_gt 0 M with h | h
    · rw [abs_of_nonneg (show 0 ≤ M + E * (1 / 2 ^ 53 * |M|) by linarith)]
      rw [abs_of_nonneg h] at hc0 ⊢
      linarith
    · have h2 := le_abs_self (-(M + E * (1 / 2 ^ 53 * |M|)))
      rw [abs_neg] at h2
      rw [abs_of_neg h] at hc h2 ⊢
      linarith
  have hη : M + E * (1 / 2 ^ 53 * |M|) = 0 ∨ (2 : K) ^ (-1075 : ℤ) ≤ 1 / 2 ^ 53 * |M + E * (1 / 2 ^ 53 * |M|)| := by
    rcases hM.eta with h | h
    · left
      rw [h]
      simp
    · right
      exact h.trans (mul_le_mul_of_nonneg_left hlow (by positivity))
  have h2 := double_rounder.sum2_le hw.1 h0 hw.2 ha hb hη
  have h3 : (1 : K) / 2 ^ 53 * |M + E * (1 / 2 ^ 53 * |M|)| ≤ 1 / 2 ^ 53 * (2 * |M|) :=
    mul_le_mul_of_nonneg_left hup (by positivity)
  have h4 : lerpF t a b ≤ _ := h2
  linarith

theorem lerpF_neg (t a b : K) : lerpF t (-a) (-b) = -lerpF t a b := by
  unfold lerpF
  rw [mul_neg, mul_neg, Fmt.near_neg, Fmt.near_neg, ← neg_add, Fmt.near_neg]

theorem isSingle_neg {M : K} (h : Spec.IsSingle M) : Spec.IsSingle (-M) := by
  have h1 := Fmt.round_finite single h
  unfold Spec.IsSingle
  rw [Fmt.round_eq single, Fmt.near_neg, h1.1]
  rw [abs_neg, ← Fmt.abs_near, h1.1]
  exact h1.2

theorem le_lerpF {t a b M E : K} (h0 : 0 ≤ t) (h1 : t ≤ 1) (hM : Spec.IsSingle M) (hE0 : 0 ≤ E) (hE : E ≤ 100)
    (ha : M - E * (1 / 2 ^ 53 * |M|) ≤ a) (hb : M - E * (1 / 2 ^ 53 * |M|) ≤ b) :
    M - (E + 32) * (1 / 2 ^ 53 * |M|) ≤ lerpF t a b := by
  have := lerpF_le (a := -a) (b := -b) h0 h1 (isSingle_neg hM) hE0 hE (by rw [abs_neg]; linarith) (by rw [abs_neg]; linarith)
  rw [lerpF_neg, abs_neg] at this
  linarith

/-- The error of an interpolation. -/
theorem lerpF_near {t a b B : K} (h0 : 0 ≤ t) (h1 : t ≤ 1) (hB : (2 : K) ^ (-1075 : ℤ) ≤ 1 / 2 ^ 53 * B) (ha : |a| ≤ B)
    (hb : |b| ≤ B) : |lerpF t a b - ((1 - t) * a + t * b)| ≤ 24 * (1 / 2 ^ 53 * B) := by
  have hB0 : 0 ≤ B := (abs_nonneg a).trans ha
  have hs := near_unit (show 0 ≤ 1 - t by linarith) (by linarith)
  have hw := double_rounder.weight eta_le h0 h1
  have m1 : |double.near (1 - t) * a| ≤ B := by
    rw [abs_mul, abs_of_nonneg hs.1]
    exact (mul_le_of_le_one_left (abs_nonneg a) hs.2).trans ha
  have m2 : |t * b| ≤ B := by
    rw [abs_mul, abs_of_nonneg h0]
    exact (mul_le_of_le_one_left (abs_nonneg b) h1).trans hb
  have e1 := double_rounder.err (double.near (1 - t) * a)
  have e2 := double_rounder.err (t * b)
  have e3 := double_rounder.err (double.near (double.near (1 - t) * a) + double.near (t * b))
  have e4 : |(double.near (1 - t) + t - 1) * a| ≤ 2 * (1 / 2 ^ 53) * B := by
    rw [abs_mul]
    exact mul_le_mul hw.2 ha (abs_nonneg a) (by positivity)
  unfold lerpF
  generalize double.near (double.near (1 - t) * a) = P at *
  generalize double.near (t * b) = Q at *
  generalize double.near (P + Q) = R at *
  generalize double.near (1 - t) = s at *
  generalize (2 : K) ^ (-1075 : ℤ) = η at *
  have hu : (0 : K) ≤ 1 / 2 ^ 53 := by positivity
  have hu1 : (1 : K) / 2 ^ 53 ≤ 1 / 8 := by norm_num
  generalize (1 : K) / 2 ^ 53 = u at *
  have k1 := mul_le_mul_of_nonneg_right m1 hu
  have k2 := mul_le_mul_of_nonneg_right m2 hu
  have k3 : u * B ≤ 1 / 8 * B := mul_le_mul_of_nonneg_right hu1 hB0
  have k4 : |P + Q| ≤ 4 * B := by
    rw [abs_le] at m1 m2 e1 e2 ⊢
    constructor <;> linarith [m1.1, m1.2]
  have k5 := mul_le_mul_of_nonneg_right k4 hu
  rw [abs_le] at e1 e2 e3 e4 ⊢
  constructor <;> linarith [e1.1, e1.2, e2.1, e2.2, e3.1, e3.2, e4.1, e4.2]

/-! ## Scaled axes -/

theorem lerpRow_add {m : ℕ} (f g : Fin (m + 1) → K) (t : K) :
    lerpRow (fun i => f i + g i) t = lerpRow f t + lerpRow g t := by
  unfold lerpRow
  ring

theorem lerpRow_smul {m : ℕ} (c : K) (f : Fin (m + 1) → K) (t : K) : lerpRow (fun i => c * f i) t = c * lerpRow f t := by
  unfold lerpRow
  ring

theorem lerpRow_id {m : ℕ} {t : K} (h0 : 0 ≤ t) (h1 : t ≤ m) : lerpRow (fun i : Fin (m + 1) => ((i : ℕ) : K)) t = t := by
  rcases row_cases m t with h | h | ⟨k, hk, h2, h3⟩
  · have : t = 0 := le_antisymm h h0
    rw [lerpRow_below _ h, this]
    simp
  · have : t = m := le_antisymm h1 h
    rw [lerpRow_above _ h, this]
  · rw [lerpRow_between _ k hk h2.le h3]
    push_cast
    ring

theorem mono_of_succ {m : ℕ} (f : Fin (m + 1) → K)
    (h : ∀ (k : ℕ) (hk : k + 1 ≤ m), f ⟨k, by omega⟩ ≤ f ⟨k + 1, by omega⟩) : ∀ i j, i ≤ j → f i ≤ f j := by
  have hp : ∀ (d i : ℕ) (hi : i + d ≤ m), f ⟨i, by omega⟩ ≤ f ⟨i + d, by omega⟩ := by
    intro d
    induction d with
    | zero => intro i hi; exact le_rfl
    | succ d ih => intro i hi; exact (ih i (by omega)).trans (h (i + d) (by omega))
  intro i j hij
  have := hp ((j : ℕ) - i) i (by have := i.2; have := j.2; have : (i : ℕ) ≤ j := hij; omega)
  convert this using 2
  ext
  have : (i : ℕ) ≤ j := hij
  simp
  omega

/-- Interpolation is as steep as its steepest step. -/
theorem lerpRow_lipschitz {m : ℕ} (f : Fin (m + 1) → K) (J : K)
    (hJ : ∀ (k : ℕ) (hk : k + 1 ≤ m), |f ⟨k + 1, by omega⟩ - f ⟨k, by omega⟩| ≤ J) {s t : K} (hs0 : 0 ≤ s) (hsm : s ≤ m)
    (ht0 : 0 ≤ t) (htm : t ≤ m) : |lerpRow f s - lerpRow f t| ≤ J * |s - t| := by
  have key : ∀ (g : Fin (m + 1) → K), (∀ (k : ℕ) (hk : k + 1 ≤ m), |g ⟨k + 1, by omega⟩ - g ⟨k, by omega⟩| ≤ J) →
      ∀ s t : K, 0 ≤ s → s ≤ t → t ≤ m → lerpRow g s - lerpRow g t ≤ J * (t - s) := by
    intro g hg s t h0 hst hm
    have hmono := lerpRow_mono (fun i : Fin (m + 1) => g i + J * ((i : ℕ) : K)) (mono_of_succ _ (by
      intro k hk
      have := (abs_le.mp (hg k hk)).1
      push_cast
      linarith)) hst
    rw [lerpRow_add, lerpRow_add, lerpRow_smul, lerpRow_smul, lerpRow_id h0 (hst.trans hm), lerpRow_id (h0.trans hst) hm] at hmono
    linarith
  have hn : ∀ t, lerpRow (fun i => -f i) t = -lerpRow f t := by
    intro t
    have := lerpRow_smul (-1) f t
    simpa using this
  have hJ' : ∀ (k : ℕ) (hk : k + 1 ≤ m), |-f ⟨k + 1, by omega⟩ - -f ⟨k, by omega⟩| ≤ J := by
    intro k hk
    rw [← abs_neg]
    have := hJ k hk
    convert this using 2
    ring
  rcases le_total s t with h | h
  · have k1 := key f hJ s t hs0 h htm
    have k2 := key (fun i => -f i) hJ' s t hs0 h htm
    rw [hn, hn] at k2
    rw [abs_of_nonpos (show s - t ≤ 0 by linarith), abs_le]
    constructor <;> linarith
  · have k1 := key f hJ t s ht0 h hsm
    have k2 := key (fun i => -f i) hJ' t s ht0 h hsm
    rw [hn, hn] at k2
    rw [abs_of_nonneg (show 0 ≤ s - t by linarith), abs_le]
    constructor <;> linarith

/-! ## Linear lookups -/

/-- The scaled position. -/
def posF (m : ℕ) (p : K) : K := double.near (p * m)

/-- What a linear lookup gives. -/
def rowF {m : ℕ} (f : Fin (m + 1) → K) (T : K) : K :=
  lerpF (double.near (T - ⌊T⌋)) (f (clampRow m ⌊T⌋)) (f (clampRow m ⌈T⌉))

theorem posF_fin {m : ℕ} (hm : m < 2 ^ 64) {p : K} (hp : |p| ≤ 2 ^ 130) :
    ieee double (.fin p * .fin (((m + 1 : ℕ) : K) - 1)) = .fin (posF m p) := by
  have e : (Flt.fin p : Flt K) * .fin (((m + 1 : ℕ) : K) - 1) = .fin (p * m) := by
    show Flt.fin (p * _) = _
    push_cast
    rw [add_sub_cancel_right]
  rw [e, double_fin, posF]
  rw [abs_mul, abs_of_nonneg (show (0 : K) ≤ m from Nat.cast_nonneg m)]
  have h1 : (m : K) ≤ 2 ^ 64 := by exact_mod_cast hm.le
  calc |p| * m ≤ 2 ^ 130 * 2 ^ 64 := mul_le_mul hp h1 (Nat.cast_nonneg m) (by positivity)
    _ = 2 ^ 194 := by rw [← pow_add]
    _ ≤ 2 ^ 300 := pow_le_pow_right₀ one_le_two (by norm_num)

theorem isSingle_abs {x : K} (h : Spec.IsSingle x) : |x| ≤ 2 ^ 200 :=
  h.lt.le.trans (pow_le_pow_right₀ one_le_two (by norm_num))

theorem fract_fin {T : K} : ieee double (.fin (T - ⌊T⌋)) = .fin (double.near (T - ⌊T⌋)) ∧
    0 ≤ double.near (T - ⌊T⌋) ∧ double.near (T - ⌊T⌋) ≤ 1 := by
  have h0 : 0 ≤ T - ⌊T⌋ := Int.fract_nonneg T
  have h1 : T - ⌊T⌋ ≤ 1 := (Int.fract_lt_one T).le
  refine ⟨double_fin ?_, near_unit h0 h1⟩
  rw [abs_of_nonneg h0]
  exact h1.trans (one_le_pow₀ one_le_two)

/-- A lookup with any rounding. -/
theorem linearR_of (R : Rounding K) {m c : ℕ} {a : Arr K} {V : Fin (m + 1) → Fin (c + 1) → K} (h : Table1D a V) {p T t : K}
    (ch : ℕ) (hx : R double (.fin p * .fin (((m + 1 : ℕ) : K) - 1)) = .fin T) (ht : R double (.fin (T - ⌊T⌋)) = .fin t) :
    a.lookup1DLinearR R (.fin p) ch = .ok (sum2R R (R double (.fin 1 - .fin t))
      (.fin (V (clampRow m ⌊T⌋) (Spec.column c ch))) (.fin t) (.fin (V (clampRow m ⌈T⌉) (Spec.column c ch)))) := by
  obtain ⟨rest, hd⟩ := h.dims
  have h0 : pyGet a.dims 0 = .ok (m + 1) := by rw [hd]; rfl
  unfold Arr.lookup1DLinearR
  simp only [h0, py_ok_bind, hx, lookup1D_table a _ rest hd h.values h.columns, py_pure, ht]

theorem linearR_table {m c : ℕ} {a : Arr K} {V : Fin (m + 1) → Fin (c + 1) → K} (h : Table1D a V)
    (hV : ∀ i j, Spec.IsSingle (V i j)) (hm : m < 2 ^ 64) {p : K} (hp : |p| ≤ 2 ^ 130) (ch : ℕ) :
    a.lookup1DLinearR ieee (.fin p) ch = .ok (.fin (rowF (fun k => V k (Spec.column c ch)) (posF m p))) := by
  obtain ⟨f1, f2, f3⟩ := fract_fin (T := posF m p)
  rw [linearR_of ieee h ch (posF_fin hm hp) f1, lerpF_fin f2 f3 (isSingle_abs (hV _ _)) (isSingle_abs (hV _ _)), rowF]

/-- A lookup at an infinity or NaN. -/
theorem linearR_special (R : Rounding K) {m c : ℕ} {a : Arr K} {V : Fin (m + 1) → Fin (c + 1) → K} (h : Table1D a V)
    (p : Flt K) (hx : R double (p * .fin (((m + 1 : ℕ) : K) - 1)) = p) (hp : ∀ x, p ≠ .fin x) (ch : ℕ) :
    a.lookup1DLinearR R p ch = .ok p := by
  obtain ⟨rest, hd⟩ := h.dims
  have h0 : pyGet a.dims 0 = .ok (m + 1) := by rw [hd]; rfl
  unfold Arr.lookup1DLinearR
  simp only [h0, py_ok_bind, hx]
  cases p with
  | fin x => exact absurd rfl (hp x)
  | inf s => rfl
  | nan => rfl

theorem Fmt.round_inf (f : Fmt) (s : Bool) : f.round (.inf s : Flt K) = .inf s := by
  have hs := infCode_lt_signBit f
  unfold round encode decode
  cases s
  · simp [Nat.mod_eq_of_lt hs, hs]
  · simp [Nat.mod_eq_of_lt hs]

theorem Fmt.round_nan (f : Fmt) (h : 2 ^ (f.mant - 1) < 2 ^ f.mant) : f.round (.nan : Flt K) = .nan := by
  have hs : f.infCode + 2 ^ f.mant = f.signBit := by
    unfold infCode signBit
    have : 1 ≤ 2 ^ f.ebits := Nat.one_le_two_pow
    rw [← Nat.succ_mul, pow_add]
    congr 1
    omega
  have h1 : f.infCode + 2 ^ (f.mant - 1) < f.signBit := by omega
  unfold round encode decode
  simp only [Nat.mod_eq_of_lt h1]
  have : 1 ≤ 2 ^ (f.mant - 1) := Nat.one_le_two_pow
  generalize 2 ^ (f.mant - 1) = q at *
  rw [if_neg (by omega), if_neg (by omega)]

theorem linearR_inf {m c : ℕ} {a : Arr K} {V : Fin (m + 1) → Fin (c + 1) → K} (h : Table1D a V) (hm : 0 < m) (s : Bool)
    (ch : ℕ) : a.lookup1DLinearR ieee (.inf s) ch = .ok (.inf s) := by
  refine linearR_special ieee h _ ?_ (by intro x hx; cases hx) ch
  have hmp : (0 : K) < m := Nat.cast_pos.mpr hm
  have e : (Flt.inf s : Flt K) * .fin (((m + 1 : ℕ) : K) - 1) = .inf s := by
    show Flt.mul _ _ = _
    have : ((m + 1 : ℕ) : K) - 1 = m := by push_cast; ring
    simp only [this, Flt.mul, hmp.ne', if_false, not_lt.mpr hmp.le, decide_false, Bool.xor_false]
  rw [e]
  exact Fmt.round_inf double s

theorem linearR_nan {m c : ℕ} {a : Arr K} {V : Fin (m + 1) → Fin (c + 1) → K} (h : Table1D a V) (ch : ℕ) :
    a.lookup1DLinearR ieee .nan ch = .ok .nan := by
  refine linearR_special ieee h _ ?_ (by intro x hx; cases hx) ch
  rw [Flt.nan_mul]
  exact Fmt.round_nan double (by decide)

/-- A lookup exceeds neither bound of the entries by more than rounding takes away again. -/
theorem rowF_mem {m : ℕ} (f : Fin (m + 1) → K) (T lo hi : K) (hlo : Spec.IsSingle lo) (hhi : Spec.IsSingle hi)
    (h1 : lo ≤ f (clampRow m ⌊T⌋) ∧ f (clampRow m ⌊T⌋) ≤ hi) (h2 : lo ≤ f (clampRow m ⌈T⌉) ∧ f (clampRow m ⌈T⌉) ≤ hi) :
    single.round (.fin (rowF f T)) = .fin (single.near (rowF f T)) ∧ lo ≤ single.near (rowF f T) ∧
      single.near (rowF f T) ≤ hi := by
  obtain ⟨_, f2, f3⟩ := fract_fin (T := T)
  have e1 := lerpF_le f2 f3 hhi le_rfl (by norm_num) (show f (clampRow m ⌊T⌋) ≤ _ by linarith)
    (show f (clampRow m ⌈T⌉) ≤ _ by linarith)
  have e2 := le_lerpF f2 f3 hlo le_rfl (by norm_num) (show _ ≤ f (clampRow m ⌊T⌋) by linarith)
    (show _ ≤ f (clampRow m ⌈T⌉) by linarith)
  have hb : ∀ M : K, (0 + 32) * (1 / 2 ^ 53 * |M|) ≤ |M| / 2 ^ 26 := by
    intro M
    have := abs_nonneg M
    norm_num
    linarith
  refine single_round hlo hhi ?_ ?_
  · exact (by have := hb lo; linarith : lo - |lo| / 2 ^ 26 ≤ lo - (0 + 32) * (1 / 2 ^ 53 * |lo|)).trans e2
  · exact e1.trans (by have := hb hi; linarith)

end CLF
