import Verif.Lemmas.RoundedCdlRev
import Verif.Props.RoundedCdl
import Verif.Spec.Library
import Mathlib.Analysis.MeanInequalitiesPow

/-! # Property C150: the reverse CDL in IEEE arithmetic -/

set_option linter.unusedSectionVars false

namespace CLF

variable {K : Type} [Field K] [LinearOrder K] [IsStrictOrderedRing K] [FloorRing K]

/-- C150: a CDL node of style `Rev` on pixels of `float32` numbers, with further channels.  It never fails; the colours are `float32`
numbers between 0 and full scale, and off from the exact ones by little, whatever the size of what comes in.  What the curves that undo
the powers make of `2^-23` (and the factor of the saturation) matters most: their slope at 0 may be infinite. -/
theorem C150_rev (L : Arith K) (compat : ℕ) (v : CdlValues K) (b : Base K) (din dout : AVal) (s o p : Fin 3 → K) (φ : Fin 3 → K → K)
    (σ O m E : K) (h : StyledNode b din dout (.str "Rev")) (hv : CdlIs v s o p σ) (hu : Spec.Undoable s o p σ O m)
    (hL : ∀ i e, double.round (.fin (1 / p i)) = .fin e → Spec.PowerNear L e (φ i))
    (hφ : ∀ i, Spec.Modulus (φ i) ((1 + 2 / |σ|) * (1 / 2 ^ 23)) E)
    (stride : ℕ) (pixels : List ((Fin 3 → K) × List (Flt K))) (hst : ∀ q ∈ pixels, q.2.length + 3 = stride) (hs3 : 3 ≤ stride)
    (hpx : ∀ q ∈ pixels, ∀ i, Spec.IsSingle (q.1 i)) :
    ∃ (r : Res K) (g : (Fin 3 → K) → Fin 3 → K), cdlProcessR ieee L compat v b (Spec.image pixels) stride = .ok r ∧
      r.out = Spec.image (pixels.map fun q => (g q.1, q.2)) ∧
      ∀ q ∈ pixels, ∀ i, Spec.IsSingle (g q.1 i) ∧ 0 ≤ g q.1 i ∧ g q.1 i ≤ Spec.fullScale (some dout) ∧
        |g q.1 i - Spec.reversed (Spec.fullScale (some din)) (Spec.fullScale (some dout)) s o φ σ q.1 i|
          ≤ Spec.fullScale (some dout) * ((E + (1 + O) * (1 / 2 ^ 39)) / m + 1 / 2 ^ 22) := by
  have key : ∀ x : Fin 3 → K, ∃ out : Fin 3 → K, (∀ i, Spec.IsSingle (x i)) →
      (∀ rest, cdlRevR ieee L (finCdl s o p σ) (some din) (some dout) (Spec.fins x ++ rest) = .ok (Spec.fins out ++ rest)) ∧
      ∀ i, Spec.IsSingle (out i) ∧ 0 ≤ out i ∧ out i ≤ Spec.fullScale (some dout) ∧
        |out i - Spec.reversed (Spec.fullScale (some din)) (Spec.fullScale (some dout)) s o φ σ x i|
          ≤ Spec.fullScale (some dout) * ((E + (1 + O) * (1 / 2 ^ 39)) / m + 1 / 2 ^ 22) := by
    intro x
    by_cases hx : ∀ i, Spec.IsSingle (x i)
    · obtain ⟨out, h1⟩ := cdlRev_near L (some din) (some dout) hu hL hφ hx
      exact ⟨out, fun _ => h1⟩
    · exact ⟨fun _ => 0, fun h => absurd h hx⟩
  choose F hF using key
  obtain ⟨r, h1, h2⟩ := cdlR_image ieee L compat v b din dout (.str "Rev") h (.inr (by decide)) stride pixels hst hs3 F (by
      intro q hq
      unfold cdlPixelR
      rw [if_neg (by decide), if_neg (by decide), if_pos (.inl rfl), hv.resolve]
      exact (hF q.1 (hpx q hq)).1 q.2)
  exact ⟨r, F, h1, h2, fun q hq => (hF q.1 (hpx q hq)).2⟩

/-- C150: the same for style `RevNoClamp`, on colours up to full scale of either sign; the colours are not limited. -/
theorem C150_free (L : Arith K) (compat : ℕ) (v : CdlValues K) (b : Base K) (din dout : AVal) (s o p : Fin 3 → K) (φ : Fin 3 → K → K)
    (σ O m E : K) (h : StyledNode b din dout (.str "RevNoClamp")) (hv : CdlIs v s o p σ) (hu : Spec.Undoable s o p σ O m) (hm : 1 / 2 ^ 60 ≤ m)
    (hL : ∀ i e, double.round (.fin (1 / p i)) = .fin e → Spec.PowerNear L e (φ i)) (hL0 : ∀ e : K, 0 < e → L.pow (.fin 0) (.fin e) = .fin 0)
    (hφ : ∀ i, Spec.Modulus (φ i) ((1 + 2 / |σ|) * (1 / 2 ^ 23)) E)
    (stride : ℕ) (pixels : List ((Fin 3 → K) × List (Flt K))) (hst : ∀ q ∈ pixels, q.2.length + 3 = stride) (hs3 : 3 ≤ stride)
    (hpx : ∀ q ∈ pixels, ∀ i, Spec.IsSingle (q.1 i) ∧ |q.1 i| ≤ Spec.fullScale (some din)) :
    ∃ (r : Res K) (g : (Fin 3 → K) → Fin 3 → K), cdlProcessR ieee L compat v b (Spec.image pixels) stride = .ok r ∧
      r.out = Spec.image (pixels.map fun q => (g q.1, q.2)) ∧
      ∀ q ∈ pixels, ∀ i, Spec.IsSingle (g q.1 i) ∧
        |g q.1 i - Spec.reversedFree (Spec.fullScale (some din)) (Spec.fullScale (some dout)) s o φ σ q.1 i|
          ≤ Spec.fullScale (some dout) * ((E + (1 + O) * (5 / 2 ^ 22)) / m) := by
  have key : ∀ x : Fin 3 → K, ∃ out : Fin 3 → K, (∀ i, Spec.IsSingle (x i) ∧ |x i| ≤ Spec.fullScale (some din)) →
      (∀ rest, cdlRevNoClampR ieee L (finCdl s o p σ) (some din) (some dout) (Spec.fins x ++ rest) = .ok (Spec.fins out ++ rest)) ∧
      ∀ i, Spec.IsSingle (out i) ∧
        |out i - Spec.reversedFree (Spec.fullScale (some din)) (Spec.fullScale (some dout)) s o φ σ x i|
          ≤ Spec.fullScale (some dout) * ((E + (1 + O) * (5 / 2 ^ 22)) / m) := by
    intro x
    by_cases hx : ∀ i, Spec.IsSingle (x i) ∧ |x i| ≤ Spec.fullScale (some din)
    · obtain ⟨out, h1⟩ := cdlRevNoClamp_near L (some din) (some dout) hu hL hL0 hφ (fun i => (hx i).1) (fun i => (hx i).2) hm
      exact ⟨out, fun _ => h1⟩
    · exact ⟨fun _ => 0, fun h => absurd h hx⟩
  choose F hF using key
  obtain ⟨r, h1, h2⟩ := cdlR_image ieee L compat v b din dout (.str "RevNoClamp") h (.inr (by decide)) stride pixels hst hs3 F (by
      intro q hq
      unfold cdlPixelR
      rw [if_neg (by decide), if_neg (by decide), if_neg (by decide), if_pos (.inl rfl), hv.resolve]
      exact (hF q.1 (hpx q hq)).1 q.2)
  exact ⟨r, F, h1, h2, fun q hq => (hF q.1 (hpx q hq)).2⟩

/-! ## There and back -/

/-- A colour of the legal range that style `Fwd` does not limit anywhere. -/
structure Spec.Unclipped (S : K) (s o : Fin 3 → K) (φ : Fin 3 → K → K) (σ : K) (x : Fin 3 → K) : Prop where
  legal : ∀ i, 0 ≤ x i ∧ x i ≤ S
  graded : ∀ i, 0 ≤ x i / S * s i + o i ∧ x i / S * s i + o i ≤ 1
  saturated : ∀ i, 0 ≤ Spec.luma (Spec.graded S s o φ x) + σ * (Spec.graded S s o φ x i - Spec.luma (Spec.graded S s o φ x)) ∧
    Spec.luma (Spec.graded S s o φ x) + σ * (Spec.graded S s o φ x i - Spec.luma (Spec.graded S s o φ x)) ≤ 1

/-- Without rounding, `Rev` undoes `Fwd`. -/
theorem reversed_grade {S T : K} (hS : 0 < S) (hT : 0 < T) {s o : Fin 3 → K} {φ ψ : Fin 3 → K → K} {σ : K} (hs : ∀ i, s i ≠ 0) (hσ : σ ≠ 0)
    (hφ : ∀ i x, 0 ≤ x → x ≤ 1 → 0 ≤ φ i x ∧ φ i x ≤ 1) (hψ : ∀ i x, 0 ≤ x → x ≤ 1 → ψ i (φ i x) = x) {x : Fin 3 → K}
    (hx : Spec.Unclipped S s o φ σ x) (i : Fin 3) : Spec.reversed T S s o ψ σ (Spec.Stage.eval (.grade S T s o φ σ) x) i = x i := by
  set Y := Spec.graded S s o φ x with hY
  have e1 : (fun j => Spec.clip (Spec.Stage.eval (.grade S T s o φ σ) x j / T)) = fun j => Spec.luma Y + σ * (Y j - Spec.luma Y) := by
    funext j
    have hj := hx.saturated j
    simp only [Spec.Stage.eval, ← hY] at hj ⊢
    rw [mul_div_cancel_right₀ _ hT.ne', clip_of_mem hj.1 hj.2, clip_of_mem hj.1 hj.2]
  have e2 : Spec.luma (fun j => Spec.luma Y + σ * (Y j - Spec.luma Y)) = Spec.luma Y := by
    unfold Spec.luma
    ring
  have e3 : Spec.unsaturated (fun j => Spec.luma Y + σ * (Y j - Spec.luma Y)) σ i = Y i := by
    unfold Spec.unsaturated
    rw [e2]
    field_simp
    ring
  have hg := hx.graded i
  have e4 : Y i = φ i (x i / S * s i + o i) := by rw [hY, Spec.graded, clip_of_mem hg.1 hg.2]
  have hy := hφ i _ hg.1 hg.2
  unfold Spec.reversed
  rw [e1, e3, e4, clip_of_mem hy.1 hy.2, hψ i _ hg.1 hg.2, add_sub_cancel_right, mul_div_cancel_right₀ _ (hs i),
    clip_of_mem (div_nonneg (hx.legal i).1 hS.le) ((div_le_one hS).mpr (hx.legal i).2), div_mul_cancel₀ _ hS.ne']

/-- What comes in is off by little: so is what `Rev` makes of it. -/
theorem reversed_close {S T : K} (hS : 0 < S) (hT : 0 < T) {s o : Fin 3 → K} {ψ : Fin 3 → K → K} {σ m d E : K} (hm0 : 0 < m) (hm : ∀ i, m ≤ |s i|)
    (hψ : ∀ i, Spec.Modulus (ψ i) ((1 + 2 / |σ|) * (d / S)) E) {x y : Fin 3 → K} (hxy : ∀ i, |x i - y i| ≤ d) (i : Fin 3) :
    |Spec.reversed S T s o ψ σ x i - Spec.reversed S T s o ψ σ y i| ≤ T * (E / m) := by
  have h1 : ∀ j, |Spec.clip (x j / S) - Spec.clip (y j / S)| ≤ d / S := fun j => by
    refine (clip_close _ _).trans ?_
    rw [← sub_div, abs_div, abs_of_pos hS]
    exact div_le_div_of_nonneg_right (hxy j) hS.le
  have hd : 0 ≤ d / S := (abs_nonneg _).trans (h1 0)
  have h2 := saturate_close (σ := 1 / σ) h1 i
  have h3 : |Spec.unsaturated (fun j => Spec.clip (x j / S)) σ i - Spec.unsaturated (fun j => Spec.clip (y j / S)) σ i| ≤
      (1 + 2 / |σ|) * (d / S) := by
    unfold Spec.unsaturated
    simp only [div_eq_mul_one_div (_ - _) σ, mul_comm (_ - _) (1 / σ)]
    refine h2.trans (mul_le_mul_of_nonneg_right ?_ hd)
    have h4 := abs_sub 1 (1 / σ)
    have h5 : 2 / |σ| = 2 * |1 / σ| := by rw [abs_div, abs_one]; ring
    rw [abs_one] at h4
    rw [h5]
    linarith
  have h6 := (hψ i).close _ _ (clip_mem _).1 (clip_mem _).2 (clip_mem _).1 (clip_mem _).2 ((clip_close _ _).trans h3)
  unfold Spec.reversed
  rw [← sub_mul, abs_mul, abs_of_pos hT, mul_comm]
  refine mul_le_mul_of_nonneg_left ((clip_close _ _).trans ?_) hT.le
  rw [← sub_div, sub_sub_sub_cancel_right, abs_div]
  exact div_le_div₀ ((abs_nonneg _).trans h6) h6 hm0 (hm i)

/-- C150: style `Fwd` and then style `Rev`, with the same parameters and depths swapped, in IEEE arithmetic: colours that `Fwd` does
not limit come back, up to an error that the moduli of the curves give; other channels stay. -/
theorem C150_roundtrip (L : Arith K) (compat : ℕ) (v : CdlValues K) (bf br : Base K) (d1 d2 : AVal) (s o p : Fin 3 → K)
    (φ ψ : Fin 3 → K → K) (σ N O m k δ E : K) (hf : StyledNode bf d1 d2 (.str "Fwd")) (hb : StyledNode br d2 d1 (.str "Rev"))
    (hv : CdlIs v s o p σ) (hu : Spec.Undoable s o p σ O m) (hN : ∀ i, |s i| ≤ N) (hN1 : N ≤ 2 ^ 100)
    (hL : ∀ i, Spec.PowerNear L (p i) (φ i)) (hL' : ∀ i e, double.round (.fin (1 / p i)) = .fin e → Spec.PowerNear L e (ψ i))
    (hφ : ∀ i, Spec.Curve (φ i) k) (hψ : ∀ i, Spec.Modulus (ψ i) ((1 + 2 / |σ|) * δ) E) (hinv : ∀ i x, 0 ≤ x → x ≤ 1 → ψ i (φ i x) = x)
    (hδ : (|1 - σ| + |σ|) * (k * ((N + O) / 2 ^ 23 + (N + 1) * 2 ^ (-146 : ℤ)) + 1 / 2 ^ 21) ≤ δ) (hδ1 : 1 / 2 ^ 23 ≤ δ)
    (stride : ℕ) (pixels : List ((Fin 3 → K) × List (Flt K))) (hst : ∀ q ∈ pixels, q.2.length + 3 = stride) (hs3 : 3 ≤ stride)
    (hpx : ∀ q ∈ pixels, (∀ i, Spec.IsSingle (q.1 i)) ∧ Spec.Unclipped (Spec.fullScale (some d1)) s o φ σ q.1) :
    ∃ (r r' : Res K) (G : (Fin 3 → K) → Fin 3 → K), cdlProcessR ieee L compat v bf (Spec.image pixels) stride = .ok r ∧
      cdlProcessR ieee L compat v br r.out stride = .ok r' ∧ r'.out = Spec.image (pixels.map fun q => (G q.1, q.2)) ∧
      ∀ q ∈ pixels, ∀ i, Spec.IsSingle (G q.1 i) ∧
        |G q.1 i - q.1 i| ≤ Spec.fullScale (some d1) * ((2 * E + (1 + O) * (1 / 2 ^ 39)) / m + 1 / 2 ^ 22) := by
  have hS := fullScale_pos (K := K) (some d1)
  have hT := fullScale_pos (K := K) (some d2)
  have hm0 : 0 < m := lt_of_lt_of_le (by positivity) hu.small.1
  have hs0 : ∀ i, s i ≠ 0 := fun i h => by
    have := hu.slope i
    rw [h, abs_zero] at this
    linarith
  have hσ0 : σ ≠ 0 := fun h => by
    have := hu.saturation.1
    rw [h, abs_zero] at this
    exact absurd this (not_le.mpr (by positivity))
  have hN2 : N ≤ 2 ^ 120 := hN1.trans (pow_le_pow_right₀ one_le_two (by norm_num))
  obtain ⟨r, g, h1, h2, h3⟩ := C136_node L compat v bf d1 d2 s o p φ σ hf hv (fun i => lt_of_lt_of_le (by positivity) (hu.power i).1) hL
    (Spec.fullScale (some d1)) N O k hN hu.offset hφ hN2 (by
      rw [div_self hS.ne', mul_one]
      refine (add_le_add hN1 hu.limit).trans ?_
      norm_num) (hu.saturation.2.trans (pow_le_pow_right₀ one_le_two (by norm_num))) stride pixels hst hs3 (fun q hq i => by
      refine ⟨(hpx q hq).1 i, ?_⟩
      have := (hpx q hq).2.legal i
      rw [abs_of_nonneg this.1]
      exact this.2)
  have hH : 0 ≤ 1 + 2 / |σ| := by positivity
  obtain ⟨r', g', k1, k2, k3⟩ := C150_rev L compat v br d2 d1 s o p ψ σ O m E hb hv hu hL'
    (fun i => ⟨(hψ i).mem, fun x y a b c d e => (hψ i).close x y a b c d (e.trans (mul_le_mul_of_nonneg_left hδ1 hH))⟩)
    stride (pixels.map fun q => (g q.1, q.2)) (by
      intro q hq
      obtain ⟨q, hq', rfl⟩ := List.mem_map.mp hq
      exact hst q hq') hs3 (by
      intro q hq i
      obtain ⟨q, hq', rfl⟩ := List.mem_map.mp hq
      exact (h3 q hq' i).1)
  refine ⟨r, r', fun x => g' (g x), h1, by rw [h2]; exact k1, by rw [k2, List.map_map]; rfl, fun q hq i => ?_⟩
  obtain ⟨a1, -, -, a2⟩ := k3 (g q.1, q.2) (List.mem_map.mpr ⟨q, hq, rfl⟩) i
  refine ⟨a1, ?_⟩
  have hg : ∀ j, |g q.1 j - Spec.Stage.eval (.grade (Spec.fullScale (some d1)) (Spec.fullScale (some d2)) s o φ σ) q.1 j|
      ≤ Spec.fullScale (some d2) * δ := fun j => by
    have := (h3 q hq j).2.2.2
    rw [div_self hS.ne', mul_one] at this
    exact this.trans (mul_le_mul_of_nonneg_left hδ hT.le)
  have b1 := reversed_close hT hS (s := s) (o := o) (ψ := ψ) (σ := σ) (E := E) hm0 hu.slope (by
    rw [mul_div_cancel_left₀ _ hT.ne']
    exact hψ) hg i
  rw [reversed_grade hS hT hs0 hσ0 (fun i => (hφ i).mem) hinv (hpx q hq).2 i] at b1
  have b2 := abs_sub_le (g' (g q.1) i) (Spec.reversed (Spec.fullScale (some d2)) (Spec.fullScale (some d1)) s o ψ σ (g q.1) i) (q.1 i)
  refine b2.trans ((add_le_add a2 b1).trans_eq ?_)
  ring

/-! ## Real powers -/

/-- Powers of nearly the same exponent. -/
theorem rpow_exponent {b e f : ℝ} (hb : 0 < b) (hb1 : b ≤ 1) (he : 0 < e) (hef : e ≤ f) : |b ^ e - b ^ f| ≤ (f - e) / e := by
  have hle : b ^ f ≤ b ^ e := Real.rpow_le_rpow_of_exponent_ge hb hb1 hef
  rw [abs_of_nonneg (sub_nonneg.mpr hle), le_div_iff₀ he]
  have hlog : Real.log b ≤ 0 := Real.log_nonpos hb.le hb1
  have e1 : b ^ f = b ^ e * b ^ (f - e) := by rw [← Real.rpow_add hb]; congr 1; ring
  have e2 : 1 + Real.log b * (f - e) ≤ b ^ (f - e) := by
    rw [Real.rpow_def_of_pos hb]
    linarith [Real.add_one_le_exp (Real.log b * (f - e))]
  have e3 : b ^ e * (-(Real.log b) * e) ≤ 1 := by
    have h := Real.add_one_le_exp (-(Real.log b) * e)
    have h2 : b ^ e = Real.exp (-(-(Real.log b) * e)) := by rw [Real.rpow_def_of_pos hb]; congr 1; ring
    rw [h2, Real.exp_neg, inv_mul_le_iff₀ (Real.exp_pos _)]
    linarith
  have hp := Real.rpow_pos_of_pos hb e
  have h4 : 0 ≤ f - e := sub_nonneg.mpr hef
  rw [e1]
  calc (b ^ e - b ^ e * b ^ (f - e)) * e = b ^ e * (1 - b ^ (f - e)) * e := by ring
    _ ≤ b ^ e * (-(Real.log b) * (f - e)) * e := by
      refine mul_le_mul_of_nonneg_right (mul_le_mul_of_nonneg_left (by linarith) hp.le) he.le
    _ = b ^ e * (-(Real.log b) * e) * (f - e) := by ring
    _ ≤ 1 * (f - e) := mul_le_mul_of_nonneg_right e3 h4
    _ = f - e := one_mul _

theorem good_power {L : Arith ℝ} (hL : Spec.GoodLibrary L) {e : ℝ} (he : double.near e = e) (h0 : 0 < e) {b : ℝ} (hd : double.near b = b) (hb0 : 0 ≤ b)
    (hb1 : b ≤ 1) : ∃ w, L.pow (.fin b) (.fin e) = .fin w ∧ |w - b ^ e| ≤ 1 / 2 ^ 41 := by
  rcases hb0.eq_or_lt with rfl | hb
  · refine ⟨0, hL.zero e he h0, ?_⟩
    rw [Real.zero_rpow h0.ne', sub_self, abs_zero]
    positivity
  have h1 : b ^ e ≤ 1 := Real.rpow_le_one hb.le hb1 h0.le
  obtain ⟨w, hw, ew⟩ := hL.pow b e hd he hb (h1.trans (one_le_pow₀ one_le_two))
  refine ⟨w, hw, ew.trans ?_⟩
  have h2 : b ^ e * (1 / 2 ^ 50) ≤ 1 * (1 / 2 ^ 50) := mul_le_mul_of_nonneg_right h1 (by positivity)
  have h3 := tiny_zpow (K := ℝ) (n := -1000) (by norm_num)
  generalize (2 : ℝ) ^ (-1000 : ℤ) = μ at *
  norm_num at *
  linarith

/-- C150: a library whose powers are off by a few units in the last place computes forward curves as C136 asks for. -/
theorem C150_forward (L : Arith ℝ) (hL : Spec.GoodLibrary L) (p : ℝ) (hp : double.round (.fin p) = .fin p) (h0 : 0 < p) :
    Spec.PowerNear L p fun b => b ^ p := by
  intro b hb hb0 hb1
  obtain ⟨w, hw, ew⟩ := good_power hL (double_fixed hp) h0 (double_fixed hb) hb0 hb1
  exact ⟨w, hw, ew.trans (by norm_num)⟩

/-- C150: and reverse curves: taking `1 / p` as exponent, which is rounded, gives nearly the root. -/
theorem C150_root (L : Arith ℝ) (hL : Spec.GoodLibrary L) (p : ℝ) (h0 : 1 / 2 ^ 100 ≤ p) (h1 : p ≤ 2 ^ 100) (e : ℝ)
    (he : double.round (.fin (1 / p)) = .fin e) : Spec.PowerNear L e fun b => b ^ (1 / p) := by
  have hp : 0 < p := lt_of_lt_of_le (by positivity) h0
  obtain ⟨e', k1, k2, k3⟩ := reciprocal_near (p := p) (by rwa [abs_of_pos hp]) (by rwa [abs_of_pos hp])
  obtain rfl : e' = e := Flt.fin.inj (k1.symm.trans he)
  have e0 := k3 hp
  have hq : 0 < 1 / p := one_div_pos.mpr hp
  rw [abs_of_pos hq] at k2
  intro b hb hb0 hb1
  obtain ⟨w, hw, ew⟩ := good_power hL (double_fixed he) e0 (double_fixed hb) hb0 hb1
  refine ⟨w, hw, ?_⟩
  have key : |b ^ e' - b ^ (1 / p)| ≤ 1 / 2 ^ 50 := by
    rcases hb0.eq_or_lt with rfl | hb'
    · rw [Real.zero_rpow e0.ne', Real.zero_rpow hq.ne', sub_self, abs_zero]
      positivity
    generalize 1 / p = f at *
    obtain ⟨a1, a2⟩ := abs_le.mp k2
    have a3 : f * (1 / 2 ^ 52) ≤ f * (1 / 2) := mul_le_mul_of_nonneg_left (by norm_num) hq.le
    rcases le_total e' f with c | c
    · refine (rpow_exponent hb' hb1 e0 c).trans ?_
      rw [div_le_iff₀ e0]
      norm_num at *
      linarith
    · rw [abs_sub_comm]
      refine (rpow_exponent hb' hb1 hq c).trans ?_
      rw [div_le_iff₀ hq]
      norm_num at *
      linarith
  have := abs_sub_le w (b ^ e') (b ^ (1 / p))
  norm_num at *
  linarith

/-- C150: roots of order at least 1 map numbers that are at most `δ` apart to numbers at most `δ ^ (1 / P)` apart, if the orders are at
most `P`. -/
theorem C150_modulus (p P δ : ℝ) (hp : 1 ≤ p) (hP : p ≤ P) (hδ : 0 < δ) (hδ1 : δ ≤ 1) :
    Spec.Modulus (fun b : ℝ => b ^ (1 / p)) δ (δ ^ (1 / P)) where
  mem b h0 h1 := ⟨Real.rpow_nonneg h0 _, Real.rpow_le_one h0 h1 (by positivity)⟩
  close x y hx hx1 hy hy1 hd := by
    have hp0 : 0 < p := by linarith
    have hq0 : 0 ≤ 1 / p := by positivity
    have hq1 : 1 / p ≤ 1 := (div_le_one hp0).mpr hp
    have sub : ∀ {a b : ℝ}, 0 ≤ a → a ≤ b → b - a ≤ δ → b ^ (1 / p) - a ^ (1 / p) ≤ δ ^ (1 / P) := by
      intro a b ha hab h
      have h1 := Real.rpow_add_le_add_rpow ha (sub_nonneg.mpr hab) hq0 hq1
      rw [add_sub_cancel] at h1
      have h2 : (b - a) ^ (1 / p) ≤ δ ^ (1 / p) := Real.rpow_le_rpow (sub_nonneg.mpr hab) h hq0
      have h3 : δ ^ (1 / p) ≤ δ ^ (1 / P) := Real.rpow_le_rpow_of_exponent_ge hδ hδ1 (one_div_le_one_div_of_le hp0 hP)
      linarith
    obtain ⟨d1, d2⟩ := abs_le.mp hd
    have hq : ∀ {a b : ℝ}, 0 ≤ a → a ≤ b → a ^ (1 / p) ≤ b ^ (1 / p) := fun ha hab => Real.rpow_le_rpow ha hab hq0
    rcases le_total x y with c | c
    · rw [abs_of_nonpos (sub_nonpos.mpr (hq hx c)), neg_sub]
      exact sub hx c (by linarith)
    · rw [abs_of_nonneg (sub_nonneg.mpr (hq hy c))]
      exact sub hy c (by linarith)

/-- C150: with real powers between 1 and `P` and a good library, `Rev` after `Fwd` brings colours back up to the `P`-th root of the error
that `Fwd` makes (twice, and divided by the smallest slope). -/
theorem C150_real (L : Arith ℝ) (hL : Spec.GoodLibrary L) (compat : ℕ) (v : CdlValues ℝ) (bf br : Base ℝ) (d1 d2 : AVal) (s o p : Fin 3 → ℝ)
    (σ N O m P δ : ℝ) (hf : StyledNode bf d1 d2 (.str "Fwd")) (hb : StyledNode br d2 d1 (.str "Rev"))
    (hv : CdlIs v s o p σ) (hu : Spec.Undoable s o p σ O m) (hN : ∀ i, |s i| ≤ N) (hN1 : N ≤ 2 ^ 100)
    (hp : ∀ i, double.round (.fin (p i)) = .fin (p i) ∧ 1 ≤ p i ∧ p i ≤ P)
    (hδ : (|1 - σ| + |σ|) * (P * ((N + O) / 2 ^ 23 + (N + 1) * 2 ^ (-146 : ℤ)) + 1 / 2 ^ 21) ≤ δ) (hδ1 : (1 + 2 / |σ|) * δ ≤ 1)
    (stride : ℕ) (pixels : List ((Fin 3 → ℝ) × List (Flt ℝ))) (hst : ∀ q ∈ pixels, q.2.length + 3 = stride) (hs3 : 3 ≤ stride)
    (hpx : ∀ q ∈ pixels, (∀ i, Spec.IsSingle (q.1 i)) ∧ Spec.Unclipped (Spec.fullScale (some d1)) s o (fun i b => b ^ p i) σ q.1) :
    ∃ (r r' : Res ℝ) (G : (Fin 3 → ℝ) → Fin 3 → ℝ), cdlProcessR ieee L compat v bf (Spec.image pixels) stride = .ok r ∧
      cdlProcessR ieee L compat v br r.out stride = .ok r' ∧ r'.out = Spec.image (pixels.map fun q => (G q.1, q.2)) ∧
      ∀ q ∈ pixels, ∀ i, Spec.IsSingle (G q.1 i) ∧
        |G q.1 i - q.1 i| ≤ Spec.fullScale (some d1) * ((2 * ((1 + 2 / |σ|) * δ) ^ (1 / P) + (1 + O) * (1 / 2 ^ 39)) / m + 1 / 2 ^ 22) := by
  have hO0 : 0 ≤ O := (abs_nonneg _).trans (hu.offset 0)
  have hN0 : 0 ≤ N := (abs_nonneg _).trans (hN 0)
  have hP1 : 1 ≤ P := (hp 0).2.1.trans (hp 0).2.2
  have g1 := (gain_bounds σ).1
  have hμ := (two_zpow_pos (K := ℝ) (-146)).le
  have hδ2 : (1 : ℝ) / 2 ^ 21 ≤ δ := by
    refine le_trans ?_ hδ
    have h1 : (1 : ℝ) / 2 ^ 21 ≤ P * ((N + O) / 2 ^ 23 + (N + 1) * 2 ^ (-146 : ℤ)) + 1 / 2 ^ 21 := by
      have : 0 ≤ P * ((N + O) / 2 ^ 23 + (N + 1) * 2 ^ (-146 : ℤ)) := by positivity
      linarith
    exact h1.trans (le_mul_of_one_le_left (le_trans (by positivity) h1) g1)
  have hδ0 : 0 < δ := lt_of_lt_of_le (by positivity) hδ2
  have hσ := abs_nonneg σ
  exact C150_roundtrip L compat v bf br d1 d2 s o p (fun i b => b ^ p i) (fun i b => b ^ (1 / p i)) σ N O m P δ _ hf hb hv hu hN hN1
    (fun i => C150_forward L hL _ (hp i).1 (by linarith [(hp i).2.1]))
    (fun i e he => C150_root L hL _ (hu.power i).1 (hu.power i).2 e he)
    (fun i => ⟨(C136_real _ (hp i).2.1).mem, fun x y a b c d => ((C136_real _ (hp i).2.1).close x y a b c d).trans
      (mul_le_mul_of_nonneg_right (hp i).2.2 (abs_nonneg _))⟩)
    (fun i => C150_modulus (p i) P _ (hp i).2.1 (hp i).2.2 (by positivity) hδ1)
    (fun i x h0 _ => by
      have : p i ≠ 0 := by linarith [(hp i).2.1]
      rw [← Real.rpow_mul h0, mul_one_div_cancel this, Real.rpow_one])
    hδ (le_trans (by norm_num) hδ2) stride pixels hst hs3 hpx

/-! ## Examples -/

/-- Slopes 2, 1 and 1/2 and half the saturation, undone, from 10 bit to floats, with alpha. -/
example : ∃ (r : Res ℚ) (g : (Fin 3 → ℚ) → Fin 3 → ℚ),
    cdlProcessR ieee ratArith 0 { slope := some (Spec.fins ![2, 1, 1 / 2]), saturation := some (.fin (1 / 2)) }
      { attrs := [("inBitDepth", .str "10i"), ("outBitDepth", .str "32f"), ("style", .str "Rev")] }
      (Spec.image [(![100, 200, 300], [.fin 7]), (![1023, 0, 1], [.nan])]) 4 = .ok r ∧
    r.out = Spec.image ([(![100, 200, 300], [.fin 7]), (![1023, 0, 1], [.nan])].map fun q => (g q.1, q.2)) := by
  obtain ⟨r, g, h1, h2, -⟩ := C150_rev (K := ℚ) ratArith 0 { slope := some (Spec.fins ![2, 1, 1 / 2]), saturation := some (.fin (1 / 2)) }
    { attrs := [("inBitDepth", .str "10i"), ("outBitDepth", .str "32f"), ("style", .str "Rev")] } (.str "10i") (.str "32f")
    ![2, 1, 1 / 2] (fun _ => 0) (fun _ => 1) (fun _ b => b) (1 / 2) 0 (1 / 2) ((1 + 2 / |1 / 2|) * (1 / 2 ^ 23)) ⟨rfl, rfl, rfl⟩
    ⟨.inl rfl, .inr ⟨rfl, rfl⟩, .inr ⟨rfl, rfl⟩, .inl rfl⟩
    ⟨by decide +kernel, by simp, by norm_num, by decide +kernel, by norm_num, by norm_num⟩ (by
      intro i e he
      have : e = 1 := by
        have h : double.round (.fin (1 / 1 : ℚ)) = .fin 1 := by decide +kernel
        exact Flt.fin.inj (he.symm.trans h)
      subst this
      exact fun b _ _ _ => ⟨b, rfl, by simp⟩)
    (fun _ => ⟨fun b h0 h1 => ⟨h0, h1⟩, fun x y _ _ _ _ h => h⟩)
    4 [(![100, 200, 300], [.fin 7]), (![1023, 0, 1], [.nan])] (by decide) (by decide) (by
      unfold Spec.IsSingle
      simp only [List.mem_cons, List.not_mem_nil, or_false, forall_eq_or_imp, forall_eq]
      decide +kernel)
  exact ⟨r, g, h1, h2⟩

/-- A colour that slopes 2, 1 and 1/2 with offset 1/16 and half the saturation do not limit. -/
example : Spec.Unclipped (1023 : ℚ) ![2, 1, 1 / 2] (fun _ => 1 / 16) (fun _ b => b) (1 / 2) ![100, 200, 300] :=
  ⟨by decide +kernel, by decide +kernel, by decide +kernel⟩

/-- Style `RevNoClamp` on a colour with a negative channel. -/
example : ∃ (r : Res ℚ) (g : (Fin 3 → ℚ) → Fin 3 → ℚ),
    cdlProcessR ieee ratArith 0 { slope := some (Spec.fins ![2, 1, 1 / 2]), saturation := some (.fin (1 / 2)) }
      { attrs := [("inBitDepth", .str "32f"), ("outBitDepth", .str "32f"), ("style", .str "RevNoClamp")] }
      (Spec.image [(![1 / 2, -1 / 4, 1], [])]) 3 = .ok r ∧
    r.out = Spec.image ([(![1 / 2, -1 / 4, 1], [])].map fun q => (g q.1, q.2)) := by
  obtain ⟨r, g, h1, h2, -⟩ := C150_free (K := ℚ) ratArith 0 { slope := some (Spec.fins ![2, 1, 1 / 2]), saturation := some (.fin (1 / 2)) }
    { attrs := [("inBitDepth", .str "32f"), ("outBitDepth", .str "32f"), ("style", .str "RevNoClamp")] } (.str "32f") (.str "32f")
    ![2, 1, 1 / 2] (fun _ => 0) (fun _ => 1) (fun _ b => b) (1 / 2) 0 (1 / 2) ((1 + 2 / |1 / 2|) * (1 / 2 ^ 23)) ⟨rfl, rfl, rfl⟩
    ⟨.inl rfl, .inr ⟨rfl, rfl⟩, .inr ⟨rfl, rfl⟩, .inl rfl⟩
    ⟨by decide +kernel, by simp, by norm_num, by decide +kernel, by norm_num, by norm_num⟩ (by norm_num) (by
      intro i e he
      have : e = 1 := by
        have h : double.round (.fin (1 / 1 : ℚ)) = .fin 1 := by decide +kernel
        exact Flt.fin.inj (he.symm.trans h)
      subst this
      exact fun b _ _ _ => ⟨b, rfl, by simp⟩) (fun e he => by simp [ratArith, he.ne'])
    (fun _ => ⟨fun b h0 h1 => ⟨h0, h1⟩, fun x y _ _ _ _ h => h⟩)
    3 [(![1 / 2, -1 / 4, 1], [])] (by decide) (by decide) (by
      unfold Spec.IsSingle
      simp only [List.mem_cons, List.not_mem_nil, or_false, forall_eq]
      decide +kernel)
  exact ⟨r, g, h1, h2⟩

end CLF
