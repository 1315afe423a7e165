import Verif.Lemmas.Range
import Mathlib.Algebra.Order.Ring.Rat
import Mathlib.Data.Rat.Floor

/-! # Properties C01 and C02: bit depths and clamping -/

set_option linter.unusedSectionVars false

namespace CLF

variable {K : Type} [Field K] [LinearOrder K] [IsStrictOrderedRing K]

/-- C01: to the normalised range and back is the identity, for every depth string
(or missing depth) and every float. -/
theorem C01_roundtrip (d : Depth) (v : Flt K) :
    normalizedToBitDepth (bitDepthToNormalized v d) d = v := by
  cases v with
  | fin x => rw [toNormalized_fin, toDepth_fin, div_mul_cancel₀ _ (bitDepthSize_ne (K := K) d)]
  | inf s => simp
  | nan => simp

/-- C01: full scale goes to 1, zero to 0, and both conversions are exactly the
division and multiplication by full scale. -/
theorem C01_fullscale (d : Depth) (x : K) :
    bitDepthToNormalized (.fin (Spec.fullScale d)) d = .fin (1 : K) ∧
    bitDepthToNormalized (.fin 0) d = .fin (0 : K) ∧
    bitDepthToNormalized (.fin x) d = .fin (x / Spec.fullScale d) ∧
    normalizedToBitDepth (.fin x) d = .fin (x * Spec.fullScale d) := by
  have := bitDepthSize_ne (K := K) d
  simp [← bitDepthSize_eq_fullScale, div_self this]

/-- C01: a depth that is not one of the four integer depths leaves every float
alone. -/
theorem C01_float (d : Depth) (hd : Spec.bits d = none) (v : Flt K) :
    bitDepthToNormalized v d = v ∧ normalizedToBitDepth v d = v := by
  have h : (bitDepthSize d : K) = 1 := by
    rw [bitDepthSize_eq_fullScale, Spec.fullScale, hd]
  cases v <;> simp [h]

/-- C01, the four integer depths have the expected full scales. -/
theorem C01_scales :
    (Spec.fullScale (depth "8i") : K) = 255 ∧ (Spec.fullScale (depth "10i") : K) = 1023 ∧
    (Spec.fullScale (depth "12i") : K) = 4095 ∧ (Spec.fullScale (depth "16i") : K) = 65535 := by
  refine ⟨?_, ?_, ?_, ?_⟩ <;> (unfold Spec.fullScale; norm_num [Spec.bits])

example : bitDepthToNormalized (.fin (1023 : ℚ)) (depth "10i") = .fin 1 := by
  have := (C01_fullscale (K := ℚ) (depth "10i") 0).1
  rwa [(C01_scales (K := ℚ)).2.1] at this
example : Spec.bits (depth "16f") = none ∧ Spec.bits (depth "9i") = none ∧
    Spec.bits none = none := by decide

/-- C02: the result is finite and inside the bounds, for every float. -/
theorem C02_range (v : Flt K) {lo hi : K} (h : lo ≤ hi) :
    ∃ y, clamp v (.fin lo) (.fin hi) = .fin y ∧ lo ≤ y ∧ y ≤ hi := clamp_mem v h

/-- C02: a value already inside is returned unchanged; values outside go to the
nearer bound; infinities to the bound on their side. -/
theorem C02_values {lo hi : K} (h : lo ≤ hi) (x : K) :
    (lo ≤ x → x ≤ hi → clamp (.fin x) (.fin lo) (.fin hi) = .fin x) ∧
    (x ≤ lo → clamp (.fin x) (.fin lo) (.fin hi) = .fin lo) ∧
    (hi ≤ x → clamp (.fin x) (.fin lo) (.fin hi) = .fin hi) ∧
    clamp (.inf false) (.fin lo) (.fin hi) = .fin hi ∧
    clamp (.inf true) (.fin lo) (.fin hi) = .fin lo := by
  have h' : ¬ hi < lo := not_lt.mpr h
  refine ⟨?_, ?_, ?_, ?_, ?_⟩
  · intro h1 h2; rw [clamp_fin, max_eq_right h1, min_eq_right h2]
  · intro h1; rw [clamp_fin, max_eq_left h1, min_eq_right h]
  · intro h1; rw [clamp_fin, max_eq_right (h.trans h1), min_eq_left h1]
  · simp [clamp, Flt.pmax, Flt.pmin]
  · simp only [clamp, Flt.pmax, Flt.pmin]
    simpa using fun h'' => le_antisymm h'' h

/-- C02: idempotent, for every float. -/
theorem C02_idempotent (v : Flt K) {lo hi : K} (h : lo ≤ hi) :
    clamp (clamp v (.fin lo) (.fin hi)) (.fin lo) (.fin hi) = clamp v (.fin lo) (.fin hi) := by
  obtain ⟨y, hy, h1, h2⟩ := clamp_mem v h
  rw [hy]; exact (C02_values h y).1 h1 h2

/-- C02: order preserving on all non-NaN floats. -/
theorem C02_monotone (v w : Flt K) {lo hi : K} (h : lo ≤ hi) (hvw : Flt.le v w = true) :
    Flt.le (clamp v (.fin lo) (.fin hi)) (clamp w (.fin lo) (.fin hi)) = true := by
  have hx := C02_values (K := K) h
  obtain ⟨y, hy, h1, h2⟩ := clamp_mem v h
  obtain ⟨z, hz, h3, h4⟩ := clamp_mem w h
  cases v with
  | nan => simp at hvw
  | inf s =>
    cases s with
    | true => rw [(hx 0).2.2.2.2, hz]; simpa using h3
    | false =>
      cases w with
      | fin b => simp [Flt.le] at hvw
      | inf t => cases t <;> simp_all [Flt.le]
      | nan => simp at hvw
  | fin a =>
    cases w with
    | nan => simp at hvw
    | inf t =>
      cases t with
      | false => rw [(hx 0).2.2.2.1, hy]; simpa using h2
      | true => simp [Flt.le] at hvw
    | fin b =>
      simp only [Flt.le_fin, decide_eq_true_eq] at hvw
      rw [clamp_fin, clamp_fin]
      simpa using min_le_min le_rfl (max_le_max le_rfl hvw)

example : clamp (.nan : Flt ℚ) (.fin 0) (.fin 1) = .fin 0 := by decide +kernel
example : clamp (.fin (3 / 2 : ℚ)) (.fin 0) (.fin 1) = .fin 1 := by decide +kernel

end CLF
