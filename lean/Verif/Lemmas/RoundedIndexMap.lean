import Verif.Lemmas.RoundedRangeErr
import Verif.Lemmas.IndexMap

set_option linter.unusedSectionVars false

/-!
# Index maps in IEEE arithmetic
-/

namespace CLF

variable {K : Type} [Field K] [LinearOrder K] [IsStrictOrderedRing K] [FloorRing K]

/-- `x` is a number of `float64`. -/
def Spec.IsDouble (x : K) : Prop := double.round (.fin x) = .fin x

theorem Spec.IsDouble.near {x : K} (h : Spec.IsDouble x) : CLF.double.near x = x := (Fmt.round_finite CLF.double h).1

/-- Numbers of `float64` are multiples of the least one. -/
theorem Spec.IsDouble.mul_eta {x : K} (h : Spec.IsDouble x) : ∃ k : ℤ, x = k * 2 ^ (-1074 : ℤ) := by
  have key : ∀ y : K, 0 ≤ y → CLF.double.near y = y → ∃ k : ℤ, y = k * 2 ^ (-1074 : ℤ) := by
    intro y hy hn
    rw [Fmt.near_of_nonneg _ hy] at hn
    obtain ⟨e, k, hc, hk, hs⟩ := Fmt.exists_split CLF.double (CLF.double.preCode y)
    rw [hc, Fmt.magVal_split CLF.double e k hk.le hs] at hn
    have hb : CLF.double.bias = 1023 := rfl
    have hm : CLF.double.mant = 52 := rfl
    rw [hb, hm] at hn
    refine ⟨k * 2 ^ e, ?_⟩
    rw [← hn]
    push_cast
    rw [mul_assoc, ← zpow_natCast, ← zpow_add₀ two_ne_zero]
    congr 2
    push_cast
    ring
  rcases le_or_gt 0 x with hx | hx
  · exact key x hx h.near
  · obtain ⟨k, hk⟩ := key (-x) (by linarith) (by rw [Fmt.near_neg, h.near])
    exact ⟨-k, by rw [← neg_neg x, hk]; push_cast; ring⟩

theorem Spec.IsSingle.mul_eta' {x : K} (h : Spec.IsSingle x) : ∃ k : ℤ, x = k * 2 ^ (-1074 : ℤ) := by
  obtain ⟨k, hk⟩ := h.mul_eta
  refine ⟨k * 2 ^ 925, ?_⟩
  rw [hk]
  push_cast
  rw [mul_assoc, ← zpow_natCast, ← zpow_add₀ two_ne_zero]
  rfl

/-- The error of rounding a multiple of the least number is relative. -/
theorem double_multiple {x : K} (hx : 0 ≤ x) (h : ∃ k : ℤ, x = k * 2 ^ (-1074 : ℤ)) : Rel (1 / 2 ^ 52) (double.near x) x := by
  obtain ⟨k, hk⟩ := h
  have hμ := two_zpow_pos (K := K) (-1074)
  have hk0 : 0 ≤ k := by
    by_contra hc
    have : (k : K) < 0 := by exact_mod_cast not_le.mp hc
    have := mul_neg_of_neg_of_pos this hμ
    rw [← hk] at this
    exact absurd hx (not_le.mpr this)
  obtain ⟨n, rfl⟩ := Int.eq_ofNat_of_zero_le hk0
  rcases lt_or_ge n (2 ^ 53) with hn | hn
  · have := Fmt.near_short (K := K) double n (-1074) hn (by decide)
    have e : double.near x = x := by
      rw [hk]
      simpa using this
    unfold Rel
    rw [e, sub_self, abs_zero]
    positivity
  · have e := double_rounder.err x
    rw [abs_of_nonneg hx] at e
    have h1 : (2 : K) ^ (-1075 : ℤ) ≤ x * (1 / 2 ^ 53) := by
      have h2 : ((2 ^ 53 : ℕ) : K) ≤ n := by exact_mod_cast hn
      have h3 : (2 : K) ^ (-1075 : ℤ) ≤ 2 ^ (-1074 : ℤ) := zpow_le_zpow_right₀ one_le_two (by norm_num)
      rw [hk, Int.cast_natCast]
      rw [Nat.cast_pow, Nat.cast_ofNat] at h2
      have h4 := mul_le_mul_of_nonneg_right h2 hμ.le
      generalize (2 : K) ^ (-1074 : ℤ) = μ at *
      generalize (2 : K) ^ (-1075 : ℤ) = η at *
      have h5 : μ = 2 ^ 53 * μ * (1 / 2 ^ 53) := by field_simp
      calc η ≤ μ := h3
        _ = 2 ^ 53 * μ * (1 / 2 ^ 53) := h5
        _ ≤ _ := mul_le_mul_of_nonneg_right h4 (by positivity)
    unfold Rel
    refine e.trans ?_
    generalize (2 : K) ^ (-1075 : ℤ) = η at *
    have : (1 : K) / 2 ^ 52 * x = x * (1 / 2 ^ 53) + x * (1 / 2 ^ 53) := by
      field_simp
      norm_num
      ring
    linarith

theorem multiple_sub {x y μ : K} (hx : ∃ k : ℤ, x = k * μ) (hy : ∃ k : ℤ, y = k * μ) : ∃ k : ℤ, x - y = k * μ := by
  obtain ⟨k, rfl⟩ := hx
  obtain ⟨l, rfl⟩ := hy
  exact ⟨k - l, by push_cast; ring⟩

/-- One segment of an index map. -/
def segF (xl xh yl yh x : K) : K :=
  double.near (double.near (double.near (double.near (x - xl) / double.near (xh - xl)) * double.near (yh - yl)) + yl)

/-- One segment of an index map, for any rounding. -/
def segR (R : Rounding K) (xl xh yl yh x : K) : Flt K :=
  R double (R double (R double (R double (.fin x - .fin xl) / R double (.fin xh - .fin xl)) *
    R double (.fin yh - .fin yl)) + .fin yl)

theorem searchR_spec (R : Rounding K) (dim : ℕ) (xs ys : List K) (hl : xs.length = ys.length) (x : K) :
    ∀ (n i : ℕ) (hi : i < xs.length), i + n = xs.length → xs[i] < x →
      (∃ k, ∃ h : k < xs.length, i < k ∧ x < xs[k]) →
      ∃ (j : ℕ) (hj : j + 1 < xs.length), xs[j] < x ∧ x ≤ xs[j + 1] ∧
        IndexMap.searchR R ⟨dim, xs.map .fin, ys.map .fin⟩ (.fin x) i n
          = .ok (segR R xs[j] xs[j + 1] ys[j] ys[j + 1] x) := by
  intro n
  induction n with
  | zero => intro i hi hn _ _; omega
  | succ n ih =>
    intro i hi hn hx ⟨k, hk, hik, hxk⟩
    have hi1 : i + 1 < xs.length := by omega
    unfold IndexMap.searchR
    simp only [pyGet_map_fin _ _ hi1, pyGet_map_fin _ _ hi,
      pyGet_map_fin ys i (by omega), pyGet_map_fin ys (i + 1) (by omega), py_ok_bind]
    by_cases hle : x ≤ xs[i + 1]
    · refine ⟨i, hi1, hx, hle, ?_⟩
      simp only [Flt.le, hle, decide_true, if_true, py_pure, segR]
    · simp only [Flt.le, hle, decide_false, Bool.false_eq_true, if_false]
      have hlt : xs[i + 1] < x := lt_of_not_ge hle
      have hik' : i + 1 < k := by
        rcases Nat.lt_or_ge (i + 1) k with h | h
        · exact h
        · have : k = i + 1 := by omega
          subst this
          exact absurd hxk (not_lt.mpr hlt.le)
      exact ih (i + 1) hi1 (by omega) hlt ⟨k, hk, hik', hxk⟩

/-- The three regimes of an index map, for any rounding. -/
theorem processR_cases (R : Rounding K) (dim : ℕ) (xs ys : List K) (hne : xs ≠ []) (hl : xs.length = ys.length)
    (x : K) :
    let p := IndexMap.processR R ⟨dim, xs.map .fin, ys.map .fin⟩ (.fin x)
    have h0 : 0 < xs.length := List.length_pos_iff.mpr hne
    (x ≤ xs[0] ∧ p = .ok (.fin (ys[0]))) ∨
    (xs[0] < x ∧ xs[xs.length - 1] ≤ x ∧ p = .ok (.fin (ys[ys.length - 1]))) ∨
    (xs[0] < x ∧ x < xs[xs.length - 1] ∧ ∃ (j : ℕ) (hj : j + 1 < xs.length),
      xs[j] < x ∧ x ≤ xs[j + 1] ∧
      p = .ok (segR R xs[j] xs[j + 1] ys[j] ys[j + 1] x)) := by
  intro p h0
  have hlast (l : List K) (h : l ≠ []) (hh : l.length - 1 < l.length) :
      pyIdx (l.map Flt.fin) (-1) = .ok (.fin l[l.length - 1]) := by
    rw [pyIdx_neg_one (by simpa using h)]
    simp [List.getLast_eq_getElem]
  have hy : ys ≠ [] := by
    intro h; simp [h] at hl; exact hne hl
  by_cases h1 : x ≤ xs[0]
  · left
    refine ⟨h1, ?_⟩
    simp only [p, IndexMap.processR, pyGet_map_fin _ _ h0, py_ok_bind,
      Flt.le, h1, decide_true, if_true]
    exact pyGet_map_fin ys 0 (by omega)
  · right
    have h1' := lt_of_not_ge h1
    by_cases h2 : xs[xs.length - 1] ≤ x
    · left
      refine ⟨h1', h2, ?_⟩
      simp only [p, IndexMap.processR, pyGet_map_fin _ _ h0, py_ok_bind,
        Flt.le, h1, decide_false, Bool.false_eq_true, if_false, hlast xs hne (by omega), h2,
        decide_true, if_true]
      exact hlast ys hy (by omega)
    · right
      have h2' := lt_of_not_ge h2
      refine ⟨h1', h2', ?_⟩
      have hk : 0 < xs.length - 1 := by
        rcases Nat.eq_zero_or_pos (xs.length - 1) with h | h
        · simp only [h] at h2'; exact absurd h2' (not_lt.mpr h1'.le)
        · exact h
      obtain ⟨j, hj, a, b, c⟩ := searchR_spec R dim xs ys hl x xs.length 0 h0 (by omega) h1'
        ⟨xs.length - 1, by omega, hk, h2'⟩
      refine ⟨j, hj, a, b, ?_⟩
      simp only [p, IndexMap.processR, pyGet_map_fin _ _ h0, py_ok_bind,
        Flt.le, h1, decide_false, Bool.false_eq_true, if_false, hlast xs hne (by omega), h2,
        List.length_map]
      exact c

/-- The numbers of a segment of an index map. -/
structure Segment (xl xh yl yh : K) : Prop where
  left : Spec.IsDouble xl
  right : Spec.IsDouble xh
  size : |xl| ≤ 2 ^ 500 ∧ |xh| ≤ 2 ^ 500
  lt : xl < xh
  low : Spec.IsSingle yl
  high : Spec.IsSingle yh
  nonneg : 0 ≤ yl
  le : yl ≤ yh

namespace Segment

variable {xl xh yl yh x : K}

theorem width (h : Segment xl xh yl yh) : Rel (1 / 2 ^ 52) (double.near (xh - xl)) (xh - xl) :=
  double_multiple (sub_pos.mpr h.lt).le (multiple_sub h.right.mul_eta h.left.mul_eta)

theorem width_pos (h : Segment xl xh yl yh) : 0 < double.near (xh - xl) := by
  have h1 := (abs_le.mp h.width).1
  have h2 := sub_pos.mpr h.lt
  have h3 : 1 / 2 ^ 52 * (xh - xl) < xh - xl := mul_lt_of_lt_one_left h2 (by norm_num)
  linarith

theorem rise (h : Segment xl xh yl yh) : Rel (1 / 2 ^ 52) (double.near (yh - yl)) (yh - yl) :=
  double_multiple (sub_nonneg.mpr h.le) (multiple_sub h.high.mul_eta' h.low.mul_eta')

theorem step (h : Segment xl xh yl yh) (hx : Spec.IsSingle x) (h1 : xl ≤ x) :
    Rel (1 / 2 ^ 52) (double.near (x - xl)) (x - xl) :=
  double_multiple (sub_nonneg.mpr h1) (multiple_sub hx.mul_eta' h.left.mul_eta)

/-- Where `x` is in the segment, before rounding. -/
theorem ratio (h : Segment xl xh yl yh) (h1 : xl ≤ x) (h2 : x ≤ xh) :
    0 ≤ double.near (x - xl) / double.near (xh - xl) ∧ double.near (x - xl) / double.near (xh - xl) ≤ 1 :=
  ⟨div_nonneg (Fmt.near_nonneg _ (sub_nonneg.mpr h1)) h.width_pos.le,
    (div_le_one h.width_pos).mpr (Fmt.near_mono _ (by linarith))⟩

theorem rise_le (h : Segment xl xh yl yh) : 0 ≤ double.near (yh - yl) ∧ double.near (yh - yl) ≤ 2 * yh := by
  refine ⟨Fmt.near_nonneg _ (sub_nonneg.mpr h.le), ?_⟩
  have h1 := (abs_le.mp h.rise).2
  have h2 : 1 / 2 ^ 52 * (yh - yl) ≤ yh - yl := mul_le_of_le_one_left (sub_nonneg.mpr h.le) (by norm_num)
  have := h.nonneg
  linarith

theorem fin (h : Segment xl xh yl yh) (hx : Spec.IsSingle x) (h1 : xl ≤ x) (h2 : x ≤ xh) :
    segR ieee xl xh yl yh x = .fin (segF xl xh yl yh x) := by
  have b1 : (2 : K) ^ 500 + 2 ^ 500 = 2 ^ 501 := by rw [pow_succ (2 : K) 500]; ring
  have b2 : ∀ n : ℕ, n ≤ 900 → (2 : K) ^ n ≤ 2 ^ 900 := fun n hn => pow_le_pow_right₀ one_le_two hn
  have hw : |xh - xl| ≤ 2 ^ 501 := by
    rw [← b1]
    exact (abs_sub _ _).trans (add_le_add h.size.2 h.size.1)
  have hs : |x - xl| ≤ 2 ^ 501 := by
    rw [abs_of_nonneg (sub_nonneg.mpr h1)]
    exact (sub_le_sub_right h2 xl).trans ((le_abs_self _).trans hw)
  obtain ⟨q0, q1⟩ := h.ratio h1 h2
  obtain ⟨r0, r1⟩ := h.rise_le
  have hyh : yh < 2 ^ 128 := lt_of_abs_lt h.high.lt
  have hyl : yl < 2 ^ 128 := lt_of_abs_lt h.low.lt
  have b3 : (2 : K) * 2 ^ 128 = 2 ^ 129 := by rw [pow_succ (2 : K) 128]; ring
  have b4 : (2 : K) ^ 128 ≤ 2 ^ 129 := pow_le_pow_right₀ one_le_two (by norm_num)
  have hr : |yh - yl| ≤ 2 ^ 129 := by
    rw [abs_of_nonneg (sub_nonneg.mpr h.le)]
    have := h.nonneg
    generalize (2 : K) ^ 129 = c at *
    generalize (2 : K) ^ 128 = d at *
    linarith
  obtain ⟨t0, t1⟩ := near_unit q0 q1
  have hD : double.near (yh - yl) ≤ 2 ^ 129 := by
    generalize (2 : K) ^ 129 = c at *
    generalize (2 : K) ^ 128 = d at *
    linarith
  have hp0 := mul_nonneg t0 r0
  have hp1 : double.near (double.near (x - xl) / double.near (xh - xl)) * double.near (yh - yl) ≤ 2 ^ 129 :=
    (mul_le_of_le_one_left r0 t1).trans hD
  have hp : |double.near (double.near (x - xl) / double.near (xh - xl)) * double.near (yh - yl)| ≤ 2 ^ 129 := by
    rwa [abs_of_nonneg hp0]
  have hP := double_size hp
  have hsum : |double.near (double.near (double.near (x - xl) / double.near (xh - xl)) * double.near (yh - yl)) + yl|
      ≤ 2 ^ 132 := by
    refine (abs_add_le _ _).trans ?_
    have e1 : (2 : K) ^ (129 + 2) + 2 ^ (129 + 2) = 2 ^ 132 := by rw [pow_succ (2 : K) 131]; ring
    rw [← e1]
    refine add_le_add hP ?_
    exact h.low.lt.le.trans (pow_le_pow_right₀ one_le_two (by norm_num))
  unfold segR segF
  rw [Flt.fin_sub, Flt.fin_sub, Flt.fin_sub, double_fin_big (hs.trans (b2 _ (by norm_num))),
    double_fin_big (hw.trans (b2 _ (by norm_num))), double_fin_big (hr.trans (b2 _ (by norm_num))),
    Flt.fin_div h.width_pos.ne', double_fin_big (by
      rw [abs_of_nonneg q0]
      exact q1.trans (one_le_pow₀ one_le_two)), Flt.fin_mul, double_fin_big (hp.trans (b2 _ (by norm_num))), Flt.fin_add,
    double_fin_big (hsum.trans (b2 _ (by norm_num)))]

/-- The error of a segment before storing. -/
theorem err (h : Segment xl xh yl yh) (hx : Spec.IsSingle x) (h1 : xl ≤ x) (h2 : x ≤ xh) :
    |segF xl xh yl yh x - Spec.affine xl xh yl yh x| ≤ 14 * (1 / 2 ^ 52 * yh) := by
  have hB := sub_pos.mpr h.lt
  have hA := sub_nonneg.mpr h1
  have hD0 := sub_nonneg.mpr h.le
  obtain ⟨q0, q1⟩ := h.ratio h1 h2
  obtain ⟨t0, t1⟩ := near_unit q0 q1
  obtain ⟨r0, r1⟩ := h.rise_le
  have hq := Rel.div (h.step hx h1) h.width hA hB (by positivity) (by norm_num)
  have hD := h.rise
  have ht := double_rounder.err (double.near (x - xl) / double.near (xh - xl))
  rw [abs_of_nonneg q0] at ht
  have hQ0 : 0 ≤ (x - xl) / (xh - xl) := div_nonneg hA hB.le
  have hQ1 : (x - xl) / (xh - xl) ≤ 1 := (div_le_one hB).mpr (by linarith)
  have hyh : 0 ≤ yh := h.nonneg.trans h.le
  have e0 : Spec.affine xl xh yl yh x = (x - xl) / (xh - xl) * (yh - yl) + yl := by unfold Spec.affine; ring
  rw [e0]
  unfold segF
  rcases h.high.eta with hz | hη
  · have hyl : yl = 0 := le_antisymm (h.le.trans hz.le) h.nonneg
    rw [hz, hyl]
    simp [Fmt.near_zero]
  rw [abs_of_nonneg hyh] at hη
  unfold Rel at hq hD
  have hP := double_rounder.err (double.near (double.near (x - xl) / double.near (xh - xl)) * double.near (yh - yl))
  have hP1 : double.near (double.near (double.near (x - xl) / double.near (xh - xl)) * double.near (yh - yl))
      ≤ double.near (yh - yl) := by
    have := Fmt.near_mono double (mul_le_of_le_one_left r0 t1)
    rwa [Fmt.near_near] at this
  have hP0 := Fmt.near_nonneg double (mul_nonneg t0 r0)
  have hW := double_rounder.err (double.near (double.near (double.near (x - xl) / double.near (xh - xl)) * double.near (yh - yl)) + yl)
  rw [abs_of_nonneg (mul_nonneg t0 r0)] at hP
  rw [abs_of_nonneg (add_nonneg hP0 h.nonneg)] at hW
  have hη1 := eta_le (K := K)
  generalize (2 : K) ^ (-1075 : ℤ) = η at *
  generalize double.near (x - xl) / double.near (xh - xl) = q at *
  generalize (x - xl) / (xh - xl) = Q at *
  generalize double.near q = t at *
  generalize double.near (yh - yl) = D at *
  generalize double.near (t * D) = P at *
  generalize double.near (P + yl) = W at *
  have hle := h.le
  have hnn := h.nonneg
  have u0 : (0 : K) < 1 / 2 ^ 53 := by positivity
  have e52 : (1 : K) / 2 ^ 52 = 2 * (1 / 2 ^ 53) := by norm_num
  rw [e52] at hq hD ⊢
  clear e52
  generalize (1 : K) / 2 ^ 53 = u at *
  -- t against Q
  have a1 : |t - Q| ≤ 8 * u := by
    have := abs_sub_le t q Q
    have : q * u ≤ u := mul_le_of_le_one_left u0.le q1
    have : 3 * (2 * u) * Q ≤ 3 * (2 * u) := mul_le_of_le_one_right (by positivity) hQ1
    linarith
  have a2 : |D - (yh - yl)| ≤ 2 * (u * yh) := by
    have : 2 * u * (yh - yl) ≤ 2 * u * yh := mul_le_mul_of_nonneg_left (by linarith) (by positivity)
    linarith
  have a3 : |t * D - Q * (yh - yl)| ≤ 18 * (u * yh) := by
    have e : t * D - Q * (yh - yl) = (t - Q) * D + Q * (D - (yh - yl)) := by ring
    rw [e]
    refine (abs_add_le _ _).trans ?_
    rw [abs_mul, abs_mul, abs_of_nonneg r0, abs_of_nonneg hQ0]
    have m1 := mul_le_mul a1 r1 r0 (by positivity)
    have m2 := mul_le_mul hQ1 a2 (abs_nonneg _) zero_le_one
    linarith
  have a4 : |P - t * D| ≤ 3 * (u * yh) := by
    have m1 : t * D * u ≤ 2 * yh * u := mul_le_mul_of_nonneg_right ((mul_le_of_le_one_left r0 t1).trans r1) u0.le
    have : 0 ≤ u * yh := by positivity
    have : u * (yh / 2) = u * yh / 2 := by ring
    linarith
  have a5 : |W - (P + yl)| ≤ 4 * (u * yh) := by
    have m1 : (P + yl) * u ≤ (3 * yh) * u := mul_le_mul_of_nonneg_right (by linarith) u0.le
    have : 0 ≤ u * yh := by positivity
    have : u * (yh / 2) = u * yh / 2 := by ring
    linarith
  have e : W - (Q * (yh - yl) + yl) = (W - (P + yl)) + ((P - t * D) + (t * D - Q * (yh - yl))) := by ring
  rw [e]
  have b1 := abs_add_le (W - (P + yl)) ((P - t * D) + (t * D - Q * (yh - yl)))
  have b2 := abs_add_le (P - t * D) (t * D - Q * (yh - yl))
  have : 0 ≤ u * yh := by positivity
  have : 14 * (2 * u * yh) = 28 * (u * yh) := by ring
  linarith

/-- What is stored of a segment. -/
theorem stored (h : Segment xl xh yl yh) (hx : Spec.IsSingle x) (h1 : xl ≤ x) (h2 : x ≤ xh) :
    ieee single (.fin (segF xl xh yl yh x)) = .fin (single.near (segF xl xh yl yh x)) ∧
      yl ≤ single.near (segF xl xh yl yh x) ∧ single.near (segF xl xh yl yh x) ≤ yh ∧
      (x = xl → single.near (segF xl xh yl yh x) = yl) ∧ (x = xh → single.near (segF xl xh yl yh x) = yh) ∧
      |single.near (segF xl xh yl yh x) - Spec.affine xl xh yl yh x| ≤ yh / 2 ^ 23 + 2 ^ (-150 : ℤ) := by
  have hyh : 0 ≤ yh := h.nonneg.trans h.le
  have he := h.err hx h1 h2
  obtain ⟨q0, q1⟩ := h.ratio h1 h2
  obtain ⟨t0, t1⟩ := near_unit q0 q1
  obtain ⟨r0, r1⟩ := h.rise_le
  have hA := sub_nonneg.mpr h1
  have hB := sub_pos.mpr h.lt
  have hE1 : Spec.affine xl xh yl yh x ≤ yh := by
    have hQ1 : (x - xl) / (xh - xl) ≤ 1 := (div_le_one hB).mpr (by linarith)
    have e0 : Spec.affine xl xh yl yh x = (x - xl) / (xh - xl) * (yh - yl) + yl := by unfold Spec.affine; ring
    have := mul_le_of_le_one_left (sub_nonneg.mpr h.le) hQ1
    linarith
  have hE0 : yl ≤ Spec.affine xl xh yl yh x := by
    have hQ0 : 0 ≤ (x - xl) / (xh - xl) := div_nonneg hA hB.le
    have e0 : Spec.affine xl xh yl yh x = (x - xl) / (xh - xl) * (yh - yl) + yl := by unfold Spec.affine; ring
    have := mul_nonneg hQ0 (sub_nonneg.mpr h.le)
    linarith
  have hup : segF xl xh yl yh x ≤ yh + |yh| / 2 ^ 26 := by
    have := (abs_le.mp he).2
    rw [abs_of_nonneg hyh]
    have : (14 : K) * (1 / 2 ^ 52 * yh) ≤ yh / 2 ^ 26 := by
      norm_num
      linarith
    linarith
  have hP0 : 0 ≤ double.near (double.near (double.near (x - xl) / double.near (xh - xl)) * double.near (yh - yl)) :=
    Fmt.near_nonneg double (mul_nonneg t0 r0)
  have hlo : yl - |yl| / 2 ^ 26 ≤ segF xl xh yl yh x := by
    rw [abs_of_nonneg h.nonneg]
    have m : double.near yl ≤ segF xl xh yl yh x := Fmt.near_mono double (by linarith)
    rcases h.low.eta with hz | hη
    · rw [hz, Fmt.near_zero] at m
      rw [hz]
      simpa using m
    · have e := (abs_le.mp (double_rounder.err yl)).1
      rw [abs_of_nonneg h.nonneg] at e hη
      generalize (2 : K) ^ (-1075 : ℤ) = η at *
      have h3 := h.nonneg
      have : yl * (1 / 2 ^ 53) + 1 / 2 ^ 53 * (yl / 2) ≤ yl / 2 ^ 26 := by
        norm_num
        linarith
      linarith
  obtain ⟨s1, s2, s3⟩ := single_round h.low h.high hlo hup
  refine ⟨s1, s2, s3, fun hxl => ?_, fun hxh => ?_, ?_⟩
  · subst hxl
    have e : segF x xh yl yh x = double.near yl := by
      unfold segF
      rw [sub_self, Fmt.near_zero, zero_div, Fmt.near_zero, zero_mul, Fmt.near_zero, zero_add]
    refine le_antisymm ?_ s2
    have hup' : double.near yl ≤ yl + |yl| / 2 ^ 26 := by
      rw [abs_of_nonneg h.nonneg]
      rcases h.low.eta with hz | hη
      · rw [hz, Fmt.near_zero]
        simp
      · have e := (abs_le.mp (double_rounder.err yl)).2
        rw [abs_of_nonneg h.nonneg] at e hη
        generalize (2 : K) ^ (-1075 : ℤ) = η at *
        have h3 := h.nonneg
        have : yl * (1 / 2 ^ 53) + 1 / 2 ^ 53 * (yl / 2) ≤ yl / 2 ^ 26 := by
          norm_num
          linarith
        linarith
    rw [e] at hlo ⊢
    exact (single_round h.low h.low hlo hup').2.2
  · have hE : Spec.affine xl xh yl yh x = yh := by rw [hxh, affine_right h.lt.ne]
    rw [hE] at he
    refine le_antisymm s3 ?_
    have hlo' : yh - |yh| / 2 ^ 26 ≤ segF xl xh yl yh x := by
      have := (abs_le.mp he).1
      rw [abs_of_nonneg hyh]
      have : (14 : K) * (1 / 2 ^ 52 * yh) ≤ yh / 2 ^ 26 := by
        norm_num
        linarith
      linarith
    exact (single_round h.high h.high hlo' hup).2.1
  · have e := single_rounder.err (segF xl xh yl yh x)
    have e2 := abs_sub_le (single.near (segF xl xh yl yh x)) (segF xl xh yl yh x) (Spec.affine xl xh yl yh x)
    have hW : |segF xl xh yl yh x| ≤ yh + 14 * (1 / 2 ^ 52 * yh) := by
      have := abs_add_le (Spec.affine xl xh yl yh x) (segF xl xh yl yh x - Spec.affine xl xh yl yh x)
      rw [add_sub_cancel, abs_of_nonneg (h.nonneg.trans hE0)] at this
      linarith
    have hW2 := mul_le_mul_of_nonneg_right hW (show (0 : K) ≤ 1 / 2 ^ 24 by positivity)
    generalize (2 : K) ^ (-150 : ℤ) = μ at *
    have : (yh + 14 * (1 / 2 ^ 52 * yh)) * (1 / 2 ^ 24) + 14 * (1 / 2 ^ 52 * yh) ≤ yh / 2 ^ 23 := by
      norm_num
      linarith
    linarith

theorem mono (h : Segment xl xh yl yh) {x y : K} (hxy : x ≤ y) : segF xl xh yl yh x ≤ segF xl xh yl yh y := by
  unfold segF
  refine Fmt.near_mono _ (add_le_add_left (Fmt.near_mono _ ?_) _)
  refine mul_le_mul_of_nonneg_right (Fmt.near_mono _ ?_) h.rise_le.1
  exact div_le_div_of_nonneg_right (Fmt.near_mono _ (by linarith)) h.width_pos.le

end Segment

end CLF
