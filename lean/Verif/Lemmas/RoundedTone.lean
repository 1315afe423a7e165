import Verif.Lemmas.RoundedCdl
import Verif.Lemmas.RelClose
import Verif.Lemmas.Log
import Verif.Spec.Library

/-! # Lemmas: Gamma and Log nodes in IEEE arithmetic -/

set_option linter.unusedSectionVars false

namespace CLF

open Spec (RelClose)

section
variable {K : Type} [Field K] [LinearOrder K] [IsStrictOrderedRing K] [FloorRing K]

/-- A Gamma node of a known style on finite pixels. -/
theorem gammaProcessR_image (R : Rounding K) (L : Arith K) (rows : List (GammaParam K)) (hr : Spec.GoodLetters GammaParam.channel rows)
    (b : Base K) (d1 d2 st : AVal) (h : StyledNode b d1 d2 st) (f : Flt K → Flt K → Flt K → Py (Flt K)) (hf : gammaStyleR R L st = some f)
    (stride : ℕ) (hs : 3 ≤ stride) (pixels : List ((Fin 3 → K) × List (Flt K))) (hp : ∀ p ∈ pixels, p.2.length + 3 = stride)
    (F : Fin 3 → K → K)
    (hF : ∀ p ∈ pixels, ∀ i : Fin 3, ∃ y, f (Spec.gammaFor rows i).1 (Spec.gammaFor rows i).2
        (R single (toUnitR R (.fin (p.1 i)) (some d1))) = .ok y ∧ R single (fromUnitR R (R single y) (some d2)) = .fin (F i (p.1 i))) :
    ∃ r, gammaProcessR R L rows b (Spec.image pixels) stride = .ok r ∧
      r.out = Spec.image (pixels.map fun p => (fun i => F i (p.1 i), p.2)) := by
  obtain ⟨e1, e2, e3⟩ := h.attrs
  unfold gammaProcessR
  simp only [e1, e2, e3, py_ok_bind, gammaParams_eq rows hr, hf]
  refine ⟨_, chanNode_image stride hs _ pixels hp F ?_, rfl⟩
  intro p hp' i
  obtain ⟨y, h1, h2⟩ := hF p hp' i
  simp only [ofFn3_get, py_ok_bind, h1, h2, py_pure]

end

/-! ## One power -/

/-- The smallest number dealt with here; kept abstract, for the sake of arithmetic. -/
theorem exists_tiny : ∃ m : ℝ, m = 2 ^ (-110 : ℤ) ∧ 0 < m := ⟨_, rfl, two_zpow_pos _⟩

/-- A rounded number that is not too small. -/
theorem relClose_of_round {a b c m : ℝ} {n : ℤ} (hm : m = 2 ^ (-110 : ℤ)) (h : |a - b| ≤ |b| * c + 2 ^ n) (hb : m ≤ b) (hn : n ≤ -148) :
    RelClose a b (c + 1 / 2 ^ 38) := by
  have hp : 0 < m := hm ▸ two_zpow_pos _
  have h1 : (2 : ℝ) ^ n ≤ 1 / 2 ^ 38 * m := by
    refine (zpow_le_zpow_right₀ one_le_two hn).trans (le_of_eq ?_)
    rw [hm]
    norm_num
  rw [abs_of_pos (by linarith : 0 < b)] at h
  have h3 : (1 : ℝ) / 2 ^ 38 * m ≤ 1 / 2 ^ 38 * b := mul_le_mul_of_nonneg_left hb (by positivity)
  unfold RelClose
  rw [add_mul, mul_comm c]
  linarith

/-- Store and back to pixel values. -/
theorem store_channel {m y : ℝ} (hm : m = 2 ^ (-110 : ℤ)) (d : Depth) (h0 : m * (5 / 4) ≤ y) (h1 : y ≤ 2 ^ 100 * (3 / 4)) :
    ∃ out, ieee single (fromUnitR ieee (ieee single (.fin y)) d) = .fin out ∧ Spec.IsSingle out ∧ RelClose out (y * Spec.fullScale d) (3 / 2 ^ 24) := by
  have hp : 0 < m := hm ▸ two_zpow_pos _
  have y0 : 0 < y := by linarith
  obtain ⟨z, k1, sz, ez, -, -⟩ := single_op (x := y) (M := y) (by rw [abs_of_pos y0]) (h1.trans (by
    refine le_trans (b := 2 ^ 100) ?_ (pow_le_pow_right₀ one_le_two (by norm_num))
    norm_num))
  have wz : RelClose z y (1 / 2 ^ 24 + 1 / 2 ^ 38) := relClose_of_round hm (by rwa [abs_of_pos y0]) (by linarith) (by norm_num)
  have z0 : 0 < z := wz.pos y0 (by norm_num)
  have zl : m ≤ z := by
    have := wz.lower
    norm_num at this
    linarith
  have zu : z ≤ 2 ^ 100 := by
    have := wz.upper
    norm_num at this h1 ⊢
    linarith
  obtain ⟨out, k2, so, -, -, eo⟩ := back_pos d sz (by rwa [abs_of_pos z0])
  refine ⟨out, by rw [k1, k2], so, ?_⟩
  have hT := one_le_fullScale (K := ℝ) d
  have hT0 := fullScale_pos (K := ℝ) d
  have wo : RelClose out (z * Spec.fullScale d) (9 / 8 * (1 / 2 ^ 24) + 1 / 2 ^ 38) :=
    relClose_of_round hm eo (zl.trans (le_mul_of_one_le_right z0.le hT)) le_rfl
  refine (wo.trans (wz.scale hT0.le) (by norm_num)).mono (mul_pos y0 hT0).le ?_
  norm_num

/-- Unit scale, power, store, back. -/
theorem power_channel {L : Arith ℝ} (hL : Spec.GoodLibrary L) {m : ℝ} (hm : m = 2 ^ (-110 : ℤ)) (d1 d2 : Depth) {x e : ℝ}
    (hx : Spec.IsSingle x) (he : double.near e = e) (hb : |e| ≤ 2 ^ 11) (hX : m ≤ x / Spec.fullScale d1)
    (hP : 2 * m ≤ (x / Spec.fullScale d1) ^ e ∧ (x / Spec.fullScale d1) ^ e ≤ 2 ^ 99) :
    ∃ u y out, ieee single (toUnitR ieee (.fin x) d1) = .fin u ∧ 0 < u ∧ L.pow (.fin u) (.fin e) = .fin y ∧
      ieee single (fromUnitR ieee (ieee single (.fin y)) d2) = .fin out ∧ Spec.IsSingle out ∧
      RelClose out ((x / Spec.fullScale d1) ^ e * Spec.fullScale d2) ((|e| + 1) / 2 ^ 20) := by
  set X := x / Spec.fullScale d1 with hXd
  have hp : 0 < m := hm ▸ two_zpow_pos _
  have X0 : 0 < X := by linarith
  have P0 : 0 < X ^ e := by linarith [hP.1]
  obtain ⟨u, h1, su, -, -, -, -, eu⟩ := unit_pos d1 hx
  have wu : RelClose u X (1 / 2 ^ 23) := (relClose_of_round hm eu hX le_rfl).mono X0.le (by norm_num)
  have u0 : 0 < u := wu.pos X0 (by norm_num)
  have ab := abs_nonneg e
  obtain ⟨κ, hκ⟩ : ∃ κ, κ = |e| * (1 / 2 ^ 23) := ⟨_, rfl⟩
  have κs : κ ≤ 1 / 2 ^ 12 := by
    have := mul_le_mul_of_nonneg_right hb (by positivity : (0 : ℝ) ≤ 1 / 2 ^ 23)
    rw [hκ]
    exact this.trans (by norm_num)
  have κ0 : 0 ≤ κ := hκ ▸ by positivity
  have wp : RelClose (u ^ e) (X ^ e) (4 * κ) := hκ ▸ wu.pow X0 (by norm_num) e (hκ ▸ κs.trans (by norm_num))
  have hl := wp.lower
  have hu := wp.upper
  have e1 : (1 - 4 * κ) * X ^ e = X ^ e - 4 * (κ * X ^ e) := by ring
  have e2 : (1 + 4 * κ) * X ^ e = X ^ e + 4 * (κ * X ^ e) := by ring
  have e3 : κ * X ^ e ≤ 1 / 2 ^ 12 * X ^ e := mul_le_mul_of_nonneg_right κs P0.le
  rw [e1] at hl
  rw [e2] at hu
  have up : u ^ e ≤ 2 ^ 100 * (5 / 8) := by
    have h2 : (2 : ℝ) ^ 100 = 2 * 2 ^ 99 := by norm_num
    rw [h2]
    obtain ⟨h3, h4⟩ := hP
    generalize (2 : ℝ) ^ 99 = M at *
    norm_num at e3
    linarith
  have lo : m * (3 / 2) ≤ u ^ e := by
    obtain ⟨h3, h4⟩ := hP
    norm_num at e3
    linarith
  have U0 : 0 < u ^ e := by linarith
  obtain ⟨y, h2, ey⟩ := hL.pow u e su.double he u0 (up.trans (by
    refine le_trans (b := 2 ^ 100) ?_ (pow_le_pow_right₀ one_le_two (by norm_num))
    norm_num))
  have wy : RelClose y (u ^ e) (1 / 2 ^ 37) := by
    refine (relClose_of_round hm (c := 1 / 2 ^ 50) (n := -1000) ?_ (by linarith) (by norm_num)).mono U0.le (by norm_num)
    rwa [abs_of_pos U0]
  have y1 : m * (5 / 4) ≤ y := by
    have h := wy.lower
    norm_num at h
    linarith
  have y2 : y ≤ 2 ^ 100 * (3 / 4) := by
    have h := wy.upper
    generalize (2 : ℝ) ^ 100 = M at *
    norm_num at h
    linarith
  obtain ⟨out, k1, so, wo⟩ := store_channel hm d2 y1 y2
  refine ⟨u, y, out, h1, u0, h2, k1, so, ?_⟩
  have hT0 := fullScale_pos (K := ℝ) d2
  have := wo.trans ((wy.trans wp (by norm_num)).scale hT0.le) (by norm_num)
  refine this.mono (mul_pos P0 hT0).le ?_
  have e4 : (|e| + 1) / 2 ^ 20 = 8 * κ + 1 / 2 ^ 20 := by rw [hκ]; ring
  rw [e4]
  norm_num at κs ⊢
  linarith

end CLF
