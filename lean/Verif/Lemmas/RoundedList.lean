import Verif.Model.RoundedList
import Verif.Spec.Chain
import Verif.Lemmas.RoundedExact
import Verif.Lemmas.RoundedCdl
import Verif.Lemmas.RoundedLog
import Verif.Lemmas.Exposure
import Verif.Props.RoundedLut1d
import Verif.Props.RoundedLut3d
import Verif.Props.RoundedMatrix
import Verif.Props.RoundedRangeErr

/-!
# Lists of nodes in an arithmetic with rounding: lemmas
-/

set_option linter.unusedSectionVars false

namespace CLF

variable {K : Type} [Field K] [LinearOrder K] [IsStrictOrderedRing K] [FloorRing K]

/-! ## Without rounding -/

/-- Exact evaluation. -/
def Evaluator.exact (A : Arith K) (t : Base K → Fmt) : Evaluator K :=
  ⟨unrounded, t, A⟩

theorem leafR_exact {A : Arith K} (hA : A.Exact) (compat : ℕ) (t : Base K → Fmt) (k : Kind K) (b : Base K) (v : List (Flt K)) (s : ℕ) :
    leafProcessR (Evaluator.exact A t) compat k b v s = leafProcess A compat k b v s := by
  cases k
  case range => exact rangeR_exact hA b v
  case matrix => exact matrixR_exact hA _ b v s
  case lut1d => exact lut1dR_exact hA _ b v s
  case lut3d => exact lut3dR_exact hA b v s
  case cdl _ c => exact cdlR_exact hA compat c b v s
  case exposureContrast e c p => exact ecR_exact hA e c p b v s
  case gamma ps => exact gammaR_exact hA ps b v s
  case log ps => exact logR_exact hA ps b v s
  case plain => rfl

theorem exact_f32 {A : Arith K} (hA : A.Exact) (t : Base K → Fmt) :
    (Evaluator.exact A t).rounding single = A.f32 := by
  funext x; exact (hA x).symm

mutual

theorem nodeR_exact {A : Arith K} (hA : A.Exact) (compat : ℕ) (t : Base K → Fmt) (s : ℕ) :
    ∀ (n : Node K) v, n.processR (Evaluator.exact A t) compat s v = n.process A compat s v
  | .leaf k b, v => by
    rw [Node.processR, Node.process]
    exact leafR_exact hA compat t k b v s
  | .group b cs, v => by
    rw [Node.processR, Node.process]
    exact nodesR_exact hA compat t s cs _ _ _
  | .ref b w ns, v => by
    rw [Node.processR, Node.process, exact_f32 hA]
    simp only [nodesR_exact hA compat t s ns]
  | .refMissing b w, v => by
    rw [Node.processR, Node.process]

theorem nodesR_exact {A : Arith K} (hA : A.Exact) (compat : ℕ) (t : Base K → Fmt) (s : ℕ) :
    ∀ (ns : List (Node K)) g prev r,
      runNodesR (Evaluator.exact A t) compat s g prev ns r = runNodes A compat s g prev ns r
  | [], g, prev, r => by rw [runNodesR, runNodes]
  | n :: rest, g, prev, r => by
    unfold runNodesR runNodes
    have h1 := nodeR_exact hA compat t s n
    have h2 := nodesR_exact hA compat t s rest
    have h3 : ∀ b v, rangeProcessR (Evaluator.exact A t).rounding b v = rangeProcess A b v := fun b v => rangeR_exact hA b v
    simp only [h1, h2, h3]
    rfl

end

/-! ## Pixels -/

/-- Three-channel pixels, one after another. -/
def Spec.rgb (pixels : List (Fin 3 → K)) : List (Flt K) := (pixels.map Spec.fins).flatten

theorem rgb_image (pixels : List (Fin 3 → K)) : Spec.image (pixels.map fun p => (p, [])) = Spec.rgb pixels := by
  simp [Spec.image, Spec.rgb, Function.comp_def]

theorem rgb_fin (pixels : List (Fin 3 → K)) : Spec.rgb pixels = (pixels.map fun p => List.ofFn p).flatten.map .fin := by
  induction pixels with
  | nil => rfl
  | cons p ps ih =>
    simp only [Spec.rgb] at ih
    simp [Spec.rgb, ih, Spec.fins]

/-! ## Polygons -/

theorem lerpRow_abs_le {m : ℕ} (f : Fin (m + 1) → K) (J : K) (hJ : ∀ i, |f i| ≤ J) (t : K) : |lerpRow f t| ≤ J := lerpRow_abs f J hJ t

theorem polyline_eq {m : ℕ} (f : Fin (m + 1) → K) (x : K) : Spec.polyline f x = lerpRow f (min 1 (max 0 x) * m) := by
  unfold Spec.polyline
  split_ifs with h0 h1
  · rw [max_eq_left h0, min_eq_right zero_le_one, zero_mul]
    have := lerpRow_nat f 0 (Nat.zero_le m)
    rw [Nat.cast_zero] at this
    rw [this]
    rfl
  · rw [min_eq_left (h1.trans (le_max_right _ _)), one_mul, lerpRow_nat f m le_rfl]
    rfl
  · have h0 := not_le.mp h0
    have h1 := not_le.mp h1
    rw [max_eq_right h0.le, min_eq_right h1.le]
    have hm : 0 < m ∨ m = 0 := by omega
    rcases hm with hm | rfl
    · have hm' : (0 : K) < m := Nat.cast_pos.mpr hm
      have hp : 0 ≤ x * m := by positivity
      have hk : ⌊x * m⌋₊ < m := by
        rw [Nat.floor_lt hp]
        exact mul_lt_of_lt_one_left hm' h1
      rw [lerpRow_between f ⌊x * m⌋₊ hk (Nat.floor_le hp) (by push_cast; exact (Nat.lt_floor_add_one _).le)]
      have e1 : Fin.ofNat (m + 1) ⌊x * m⌋₊ = ⟨⌊x * m⌋₊, by omega⟩ := by
        ext; simp only [Fin.ofNat]; exact Nat.mod_eq_of_lt (by omega)
      have e2 : Fin.ofNat (m + 1) (⌊x * m⌋₊ + 1) = ⟨⌊x * m⌋₊ + 1, by omega⟩ := by
        ext; simp only [Fin.ofNat]; exact Nat.mod_eq_of_lt (by omega)
      simp only [e1, e2]
    · have e : ∀ i j : Fin (0 + 1), f i = f j := fun i j => by rw [show i = j by ext; omega]
      have := lerpRow_nat f 0 le_rfl
      simp only [Nat.cast_zero, mul_zero] at this ⊢
      rw [this, e (Fin.ofNat (0 + 1) (⌊(0 : K)⌋₊ + 1)) (Fin.ofNat (0 + 1) ⌊(0 : K)⌋₊), sub_self, mul_zero, add_zero]
      exact e _ _

theorem clampU_mem (x : K) {m : ℕ} : 0 ≤ min 1 (max 0 x) * (m : K) ∧ min 1 (max 0 x) * (m : K) ≤ m := by
  have h1 : 0 ≤ min 1 (max 0 x) := le_min zero_le_one (le_max_left _ _)
  exact ⟨mul_nonneg h1 (Nat.cast_nonneg m), mul_le_of_le_one_left (Nat.cast_nonneg m) (min_le_left _ _)⟩

theorem clampU_close (x y : K) : |min 1 (max 0 x) - min 1 (max 0 y)| ≤ |x - y| := by
  have h1 := abs_min_sub_min_le_max 1 (max 0 x) 1 (max 0 y)
  have h2 := abs_max_sub_max_le_max 0 x 0 y
  simp only [sub_self, abs_zero] at h1 h2
  refine h1.trans (max_le (abs_nonneg _) (h2.trans (max_le (abs_nonneg _) le_rfl)))

theorem clampU_step (x y S : K) (hS : 0 < S) (m : ℕ) {J : K} (hJ : 0 ≤ J) {d : K} (h : |x - y| ≤ d) :
    J * |min 1 (max 0 (x / S)) * (m : K) - min 1 (max 0 (y / S)) * m| ≤ J * m / S * d := by
  rw [← sub_mul, abs_mul, abs_of_nonneg (Nat.cast_nonneg (α := K) m)]
  have h1 := clampU_close (x / S) (y / S)
  rw [← sub_div, abs_div, abs_of_pos hS] at h1
  have h2 : |min 1 (max 0 (x / S)) - min 1 (max 0 (y / S))| ≤ d / S := h1.trans (div_le_div_of_nonneg_right h hS.le)
  calc J * (|min 1 (max 0 (x / S)) - min 1 (max 0 (y / S))| * m) ≤ J * (d / S * m) := by gcongr
    _ = J * m / S * d := by ring

/-! ## Tetrahedra -/

theorem descending_sorted (f : Fin 3 → K) : Function.Injective (Spec.descending f) ∧ f (Spec.descending f 1) ≤ f (Spec.descending f 0) ∧
    f (Spec.descending f 2) ≤ f (Spec.descending f 1) := by
  unfold Spec.descending
  split_ifs with h1 h2 h3 h4 h5
  · exact ⟨by decide, h1, h2⟩
  · exact ⟨by decide, h3, (not_le.mp h2).le⟩
  · exact ⟨by decide, (not_le.mp h3).le, h1⟩
  · exact ⟨by decide, (not_le.mp h1).le, h4⟩
  · exact ⟨by decide, h5, (not_le.mp h4).le⟩
  · exact ⟨by decide, (not_le.mp h5).le, (not_le.mp h1).le⟩

theorem simplicial_eq {m : ℕ} (hm : 0 < m) (V : Fin (m + 1) → Fin (m + 1) → Fin (m + 1) → K) (v : Fin 3 → K) :
    Spec.simplicial V v = tetRow V (min 1 (max 0 (v 0)) * m) (min 1 (max 0 (v 1)) * m) (min 1 (max 0 (v 2)) * m) := by
  have cell : ∀ t : K, 0 ≤ t → t ≤ m → min ⌊t⌋₊ (m - 1) + 1 ≤ m ∧ ((min ⌊t⌋₊ (m - 1) : ℕ) : K) ≤ t ∧ t ≤ (min ⌊t⌋₊ (m - 1) + 1 : ℕ) := by
    intro t h0 h1
    refine ⟨by omega, (Nat.cast_le.mpr (min_le_left _ _)).trans (Nat.floor_le h0), ?_⟩
    rcases min_choice ⌊t⌋₊ (m - 1) with h | h
    · rw [h]
      push_cast
      exact (Nat.lt_floor_add_one t).le
    · rw [h, Nat.sub_add_cancel hm]
      exact h1
  have hc := fun a => cell _ (clampU_mem (v a) (m := m)).1 (clampU_mem (v a) (m := m)).2
  obtain ⟨d1, d2, d3⟩ := descending_sorted fun a => min 1 (max 0 (v a)) * (m : K) - ((min ⌊min 1 (max 0 (v a)) * (m : K)⌋₊ (m - 1) : ℕ) : K)
  rw [tetRow_cell V (hc 0).1 (hc 1).1 (hc 2).1 (hc 0).2.1 (hc 0).2.2 (hc 1).2.1 (hc 1).2.2 (hc 2).2.1 (hc 2).2.2]
  unfold Spec.simplicial
  simp only
  rw [tetra_eq_lov _ _ d1 d2 d3]
  have e : ∀ (k : ℕ) (hk : k + 1 ≤ m) (a : Bool), Fin.ofNat (m + 1) (if a then k + 1 else k)
      = if a then (⟨k + 1, by omega⟩ : Fin (m + 1)) else ⟨k, by omega⟩ := by
    intro k hk a
    ext
    cases a
    · exact Nat.mod_eq_of_lt (show k < m + 1 by omega)
    · exact Nat.mod_eq_of_lt (show k + 1 < m + 1 by omega)
  simp only [e _ (hc 0).1, e _ (hc 1).1, e _ (hc 2).1]
  rfl

/-! ## Stages -/

/-- The channels of `u` and `v` are within `d`. -/
def Off (d : K) (u v : Fin 3 → K) : Prop := ∀ i, |u i - v i| ≤ d

theorem steps_nonneg {m : ℕ} (hm : 0 < m) {f : Fin (m + 1) → K} {J : K} (h : Spec.StepsWithin f J) : 0 ≤ J :=
  (abs_nonneg _).trans (h 0 hm)

/-- Samples lie apart and bounds are in order. -/
def StageOk : Spec.Stage K → Prop
  | .linear _ _ => True
  | .curves S m _ => 0 < S ∧ 0 < m
  | .cube S m _ => 0 < S ∧ 0 < m
  | .tetra S m _ => 0 < S ∧ 0 < m
  | .clamp a b c d => a < b ∧ c ≤ d
  | .grade S T _ _ _ _ => 0 < S ∧ 0 < T
  | .tone S T D ε _ => 0 < S ∧ 1 ≤ T ∧ 0 ≤ D ∧ 0 ≤ ε
  | .map D ε _ => 0 ≤ D ∧ 0 ≤ ε

theorem grade_lipschitz {S T N k G d : K} {s o : Fin 3 → K} {φ : Fin 3 → K → K} {σ : K} (hS : 0 < S) (hT : 0 ≤ T) (hs : ∀ i, |s i| ≤ N)
    (hφ : ∀ i, Spec.Curve (φ i) k) (hG : G = |1 - σ| + |σ|) {u v : Fin 3 → K} (huv : Off d u v) :
    Off (T * (G * (k * (N / S))) * d) (Spec.Stage.eval (.grade S T s o φ σ) u) (Spec.Stage.eval (.grade S T s o φ σ) v) := by
  intro i
  have hk : 0 ≤ k := by
    have := (abs_nonneg _).trans ((hφ 0).close 0 1 le_rfl zero_le_one zero_le_one le_rfl)
    rwa [zero_sub, abs_neg, abs_one, mul_one] at this
  have hy : ∀ j, |Spec.graded S s o φ u j - Spec.graded S s o φ v j| ≤ k * (N / S * d) := by
    intro j
    refine ((hφ j).close _ _ (clip_mem _).1 (clip_mem _).2 (clip_mem _).1 (clip_mem _).2).trans (mul_le_mul_of_nonneg_left ?_ hk)
    refine (clip_close _ _).trans ?_
    have e : u j / S * s j + o j - (v j / S * s j + o j) = s j / S * (u j - v j) := by ring
    rw [e, abs_mul, abs_div, abs_of_pos hS]
    exact mul_le_mul (div_le_div_of_nonneg_right (hs j) hS.le) (huv j) (abs_nonneg _)
      (div_nonneg ((abs_nonneg _).trans (hs j)) hS.le)
  have h2 := saturate_close (σ := σ) hy i
  have h3 := (clip_close _ _).trans h2
  simp only [Spec.Stage.eval]
  rw [← sub_mul, abs_mul, abs_of_nonneg hT, hG]
  refine (mul_le_mul_of_nonneg_right h3 hT).trans_eq (by ring)

theorem clampD_mem {D : K} (hD : 0 ≤ D) (x : K) : |min D (max (-D) x)| ≤ D :=
  abs_le.mpr ⟨le_min (by linarith) (le_max_left _ _), min_le_left _ _⟩

theorem clampD_id {D x : K} (h : |x| ≤ D) : min D (max (-D) x) = x := by
  obtain ⟨h1, h2⟩ := abs_le.mp h
  rw [max_eq_right h1, min_eq_right h2]

theorem clampD_close (D x y : K) : |min D (max (-D) x) - min D (max (-D) y)| ≤ |x - y| := by
  have h1 := abs_min_sub_min_le_max D (max (-D) x) D (max (-D) y)
  have h2 := abs_max_sub_max_le_max (-D) x (-D) y
  simp only [sub_self, abs_zero] at h1 h2
  exact h1.trans (max_le (abs_nonneg _) (h2.trans (max_le (abs_nonneg _) le_rfl)))

/-- Operations change distances by at most their factor. -/
theorem stage_lipschitz {s : Spec.Stage K} {B l e B' : K} (h : Spec.Gauge s B l e B')
    (hw : StageOk s) {d : K} {u v : Fin 3 → K} (huv : Off d u v) : Off (l * d) (s.eval u) (s.eval v) := by
  cases h with
  | @linear M t B N T hM hs hB =>
    intro i
    have hd : 0 ≤ d := (abs_nonneg _).trans (huv 0)
    have e : Spec.Stage.eval (.linear M t) u i - Spec.Stage.eval (.linear M t) v i = ∑ j, M i j * (u j - v j) := by
      simp only [Spec.Stage.eval, add_sub_add_right_eq_sub, ← Finset.sum_sub_distrib, mul_sub]
    rw [e]
    calc |∑ j, M i j * (u j - v j)| ≤ ∑ j, |M i j * (u j - v j)| := Finset.abs_sum_le_sum_abs _ _
      _ ≤ ∑ j, |M i j| * d := Finset.sum_le_sum fun j _ => by
        rw [abs_mul]; exact mul_le_mul_of_nonneg_left (huv j) (abs_nonneg _)
      _ = (∑ j, |M i j|) * d := by rw [Finset.sum_mul]
      _ ≤ _ := mul_le_mul_of_nonneg_right (hM i) hd
  | @curves S B J C m V hJ hC =>
    intro i
    obtain ⟨hS, hm⟩ := hw
    simp only [Spec.Stage.eval, polyline_eq]
    have c1 := clampU_mem (u i / S) (m := m)
    have c2 := clampU_mem (v i / S) (m := m)
    exact (lerpRow_lipschitz (V i) J (hJ i) c1.1 c1.2 c2.1 c2.2).trans
      (clampU_step (u i) (v i) S hS m (steps_nonneg hm (hJ i)) (huv i))
  | @cube S B J C m V hr hg hb hC =>
    intro i
    obtain ⟨hS, hm⟩ := hw
    simp only [Spec.Stage.eval, polyline_eq]
    have hJ0 := steps_nonneg hm (hr i 0 0)
    have key := triRow_lipschitz (fun r g b => V i r g b) J (fun n hn a b => ⟨hr i a b n hn, hg i a b n hn, hb i a b n hn⟩)
      (clampU_mem (u 0 / S) (m := m)) (clampU_mem (u 1 / S) (m := m)) (clampU_mem (u 2 / S) (m := m))
      (clampU_mem (v 0 / S) (m := m)) (clampU_mem (v 1 / S) (m := m)) (clampU_mem (v 2 / S) (m := m))
    have k0 := clampU_step (u 0) (v 0) S hS m hJ0 (huv 0)
    have k1 := clampU_step (u 1) (v 1) S hS m hJ0 (huv 1)
    have k2 := clampU_step (u 2) (v 2) S hS m hJ0 (huv 2)
    refine (key.trans (add_le_add (add_le_add k0 k1) k2)).trans_eq (by ring)
  | @tetra S B J C m V hr hg hb hC =>
    intro i
    obtain ⟨hS, hm⟩ := hw
    simp only [Spec.Stage.eval, simplicial_eq hm]
    have hJ0 := steps_nonneg hm (hr i 0 0)
    have key := tetRow_lipschitz (fun r g b => V i r g b) J (fun n hn a b => ⟨hr i a b n hn, hg i a b n hn, hb i a b n hn⟩)
      (clampU_mem (u 0 / S) (m := m)) (clampU_mem (u 1 / S) (m := m)) (clampU_mem (u 2 / S) (m := m))
      (clampU_mem (v 0 / S) (m := m)) (clampU_mem (v 1 / S) (m := m)) (clampU_mem (v 2 / S) (m := m))
    have k0 := clampU_step (u 0) (v 0) S hS m hJ0 (huv 0)
    have k1 := clampU_step (u 1) (v 1) S hS m hJ0 (huv 1)
    have k2 := clampU_step (u 2) (v 2) S hS m hJ0 (huv 2)
    refine (key.trans (add_le_add (add_le_add k0 k1) k2)).trans_eq (by ring)
  | @clamp a b c d B =>
    intro i
    obtain ⟨hab, hcd⟩ := hw
    have e : Spec.Stage.eval (.clamp a b c B') u i - Spec.Stage.eval (.clamp a b c B') v i
        = (B' - c) / (b - a) * (min b (max a (u i)) - min b (max a (v i))) := by
      simp only [Spec.Stage.eval]; ring
    have hσ : 0 ≤ (B' - c) / (b - a) := div_nonneg (sub_nonneg.mpr hcd) (sub_pos.mpr hab).le
    rw [e, abs_mul, abs_of_nonneg hσ]
    refine mul_le_mul_of_nonneg_left (le_trans ?_ (huv i)) hσ
    have h1 := abs_min_sub_min_le_max b (max a (u i)) b (max a (v i))
    have h2 := abs_max_sub_max_le_max a (u i) a (v i)
    simp only [sub_self, abs_zero] at h1 h2
    exact h1.trans (max_le (abs_nonneg _) (h2.trans (max_le (abs_nonneg _) le_rfl)))
  | @grade S T B N O k G s o φ σ hs ho hφ hN hZ hσ hG =>
    intro i
    obtain ⟨hS, hT⟩ := hw
    exact grade_lipschitz hS hT.le hs hφ hG huv i
  | @tone S T D ε B k C ψ hψ hD hC =>
    intro i
    obtain ⟨hS, hT, hD0, -⟩ := hw
    have hk := (hψ i).close _ _ (clampD_mem hD0 (u i / S)) (clampD_mem hD0 (v i / S))
    have h1 := abs_min_sub_min_le_max D (max (-D) (u i / S)) D (max (-D) (v i / S))
    have h2 := abs_max_sub_max_le_max (-D) (u i / S) (-D) (v i / S)
    simp only [sub_self, abs_zero] at h1 h2
    have h3 := h1.trans (max_le (abs_nonneg _) (h2.trans (max_le (abs_nonneg _) le_rfl)))
    rw [← sub_div, abs_div, abs_of_pos hS] at h3
    simp only [Spec.Stage.eval]
    rw [← sub_mul, abs_mul, abs_of_pos (by linarith : 0 < T)]
    have hT0 : 0 ≤ T := by linarith
    calc |ψ i (min D (max (-D) (u i / S))) - ψ i (min D (max (-D) (v i / S)))| * T ≤ k * (d / S) * T := by
          refine mul_le_mul_of_nonneg_right (hk.trans ?_) hT0
          exact mul_le_mul_of_nonneg_left (h3.trans (div_le_div_of_nonneg_right (huv i) hS.le)) (hψ i).nonneg
      _ = T * (k / S) * d := by ring
  | @map D ε B l C Φ hΦ hB =>
    simp only [Spec.Stage.eval]
    exact hΦ.close _ _ (fun j => clampD_mem hw.1 _) (fun j => clampD_mem hw.1 _) d fun j => (clampD_close _ _ _).trans (huv j)

/-- The code `f` of a curve computes `ψ` up to `ε` on `float32` numbers between `-D` and `D`. -/
def Spec.ToneNear (f : Flt K → Py (Flt K)) (ψ : K → K) (D ε : K) : Prop :=
  ∀ u, Spec.IsSingle u → |u| ≤ D → ∃ w, f (.fin u) = .ok (.fin w) ∧ |w - ψ u| ≤ ε

/-- Rounding twice is rounding once. -/
theorem single_idem (x : Flt K) : single.round (single.round x) = single.round x := by
  cases h : single.round x with
  | inf s => exact Fmt.round_inf single s
  | nan => exact Fmt.round_nan single (by decide)
  | fin y =>
    cases x with
    | inf s => rw [Fmt.round_inf single s] at h; exact absurd h (by simp)
    | nan => rw [Fmt.round_nan single (by decide)] at h; exact absurd h (by simp)
    | fin x =>
      obtain ⟨h1, -⟩ := Fmt.round_finite single h
      subst h1
      exact isSingle_near h

/-- What a Range does to a number between the conversions of its depths. -/
def rangeMidR (R : Rounding K) (clampOn : Bool) (minIn maxIn minOut maxOut : Option (Flt K)) (x : Flt K) : Py (Flt K) :=
  match minIn, maxIn, minOut, maxOut with
  | some minIn, some maxIn, some minOut, some maxOut => do
    let scale ← pyDivF (R double (maxOut - minOut)) (R double (maxIn - minIn))
    let scale := R double scale
    let x := R single (R double (R double (R double (x * scale) + minOut) - R double (minIn * scale)))
    pure (if clampOn then R single (Flt.pmin maxOut (Flt.pmax minOut x)) else x)
  | some minIn, _, some minOut, _ =>
    let x := R single (R double (R double (x + minOut) - minIn))
    pure (if clampOn then R single (Flt.pmax minOut x) else x)
  | _, some maxIn, _, some maxOut =>
    let x := R single (R double (R double (x + maxOut) - maxIn))
    pure (if clampOn then R single (Flt.pmin maxOut x) else x)
  | _, _, _, _ => pure x

theorem rangeStepR_mid (R : Rounding K) (inD outD : Depth) (cl : Bool) (mi ma mo mx : Option (Flt K)) (x : Flt K) :
    rangeStepR R inD outD cl mi ma mo mx x = (do
      let y ← rangeMidR R cl mi ma mo mx (R single (toUnitR R x inD))
      pure (R single (fromUnitR R y outD))) := by
  rcases mi with _ | mi <;> rcases ma with _ | ma <;> rcases mo with _ | mo <;> rcases mx with _ | mx <;>
    first
    | rfl
    | (simp only [rangeStepR, rangeMidR]
       cases pyDivF (R double (mx - mo)) (R double (ma - mi)) <;> rfl)

/-- It gives `float32` numbers. -/
theorem rangeMidR_single (cl : Bool) (mi ma mo mx : Option (Flt K)) (x y : Flt K) (h : rangeMidR ieee cl mi ma mo mx (ieee single x) = .ok y) :
    ieee single y = y := by
  have idem : ∀ z : Flt K, ieee single (ieee single z) = ieee single z := single_idem
  have fin2 : ∀ (c : Bool) (a b : Flt K), (pure (if c then ieee single a else ieee single b) : Py (Flt K)) = .ok y → ieee single y = y := by
    intro c a b h
    cases c <;> simp only [py_pure, if_true, Bool.false_eq_true, if_false, Except.ok.injEq] at h <;> subst h <;> exact idem _
  have last : (pure (ieee single x) : Py (Flt K)) = .ok y → ieee single y = y := by
    intro h
    simp only [py_pure, Except.ok.injEq] at h
    subst h
    exact idem _
  rcases mi with _ | mi <;> rcases ma with _ | ma <;> rcases mo with _ | mo <;> rcases mx with _ | mx <;> simp only [rangeMidR] at h <;>
    first
    | exact last h
    | exact fin2 _ _ _ h
    | (cases hs : pyDivF (ieee double (mx - mo)) (ieee double (ma - mi)) with
       | error e => rw [hs] at h; exact absurd h (by simp [bind, Except.bind])
       | ok sc => rw [hs] at h; simp only [py_ok_bind] at h; exact fin2 _ _ _ h)

/-- The settings of a Range: depths, whether it clamps, and the bounds it has. -/
def RangeIs (R : Rounding K) (b : Base K) (din dout : AVal) (cl : Bool) (mi ma mo mx : Option (Flt K)) : Prop :=
  ∀ values, rangeProcessR R b values = (do
    let out ← values.mapM (rangeStepR R (some din) (some dout) cl mi ma mo mx)
    .ok ⟨out, out, true⟩)

/-- Three-channel pixels of `float32` numbers that are at most `D` in size come out of the node within `ε` of `Φ`. -/
def NodeNear (E : Evaluator K) (k : Kind K) (b : Base K) (Φ : (Fin 3 → K) → Fin 3 → K) (D ε : K) : Prop :=
  ∀ (compat : ℕ) (pixels : List (Fin 3 → K)), (∀ p ∈ pixels, ∀ i, Spec.IsSingle (p i) ∧ |p i| ≤ D) →
    ∃ (r : Res K) (g : (Fin 3 → K) → Fin 3 → K), leafProcessR E compat k b (Spec.rgb pixels) 3 = .ok r ∧ r.out = Spec.rgb (pixels.map g) ∧
      ∀ p ∈ pixels, ∀ i, Spec.IsSingle (g p i) ∧ |g p i - Φ p i| ≤ ε

/-- Node `n` is stage `s`; its table, if it has one, is of a format that numpy uses, and the library computes the powers it needs. -/
inductive Implements (E : Evaluator K) : Node K → Spec.Stage K → Prop
  | matrix {b : Base K} {M : Matrix (Fin 3) (Fin 3) K} (h : MatrixNode b M) (ht : E.table b = half ∨ E.table b = single ∨ E.table b = double) :
    Implements E (.leaf .matrix b) (.linear M fun _ => 0)
  | affine {b : Base K} {M : Matrix (Fin 3) (Fin 3) K} {s : Fin 3 → K} (h : AffineNode b M s)
    (ht : E.table b = half ∨ E.table b = single ∨ E.table b = double) : Implements E (.leaf .matrix b) (.linear M s)
  | lut1d {b : Base K} {din : AVal} {a : Arr K} {m c : ℕ} {V : Fin (m + 1) → Fin (c + 1) → K} (h : PlainLut b din a)
    (hT : Table1D a V) (hV : ∀ i j, Spec.IsSingle (V i j)) (hm0 : 0 < m) (hm : m < 2 ^ 53) :
    Implements E (.leaf .lut1d b) (.curves (Spec.fullScale (some din)) m fun ch k => V k (Spec.column c ch))
  | lut3d {b : Base K} {din : AVal} {a : Arr K} {m : ℕ} {V : Fin (m + 1) → Fin (m + 1) → Fin (m + 1) → Fin 3 → K}
    (h : PlainLut3 b din (.str "trilinear") a) (hT : Table3D a V) (hV : ∀ i j k ch, Spec.IsSingle (V i j k ch)) (hm0 : 0 < m)
    (hm : m < 2 ^ 53) : Implements E (.leaf .lut3d b) (.cube (Spec.fullScale (some din)) m fun ch i j k => V i j k ch)
  | tetra {b : Base K} {din : AVal} {a : Arr K} {m : ℕ} {V : Fin (m + 1) → Fin (m + 1) → Fin (m + 1) → Fin 3 → K}
    (h : PlainLut3 b din (.str "tetrahedral") a) (hT : Table3D a V) (hV : ∀ i j k ch, Spec.IsSingle (V i j k ch)) (hm0 : 0 < m)
    (hm : m < 2 ^ 53) : Implements E (.leaf .lut3d b) (.tetra (Spec.fullScale (some din)) m fun ch i j k => V i j k ch)
  | range {b : Base K} {din dout : AVal} {mi ma mo mx : K} (h : FullRange b din dout mi ma mo mx) (hcl : Clamps b)
    (hb : Spec.Bounds din dout mi ma mo mx) (hd : Spec.bits (some din) = none) (hi : 0 ≤ mi) (ho : 0 ≤ mo) :
    Implements E (.leaf .range b) (.clamp mi ma mo mx)
  | bounds {b : Base K} {din dout : AVal} {cl : Bool} {mi ma mo mx : Option (Flt K)} {ψ : K → K} {D ε : K}
    (h : RangeIs E.rounding b din dout cl mi ma mo mx) (hD : 0 ≤ D) (hε : 0 ≤ ε) (hψ : Spec.ToneNear (rangeMidR E.rounding cl mi ma mo mx) ψ D ε) :
    Implements E (.leaf .range b) (.tone (Spec.fullScale (some din)) (Spec.fullScale (some dout)) D ε fun _ => ψ)
  | cdl {cc : Bool} {v : CdlValues K} {b : Base K} {din dout : AVal} {s o p : Fin 3 → K} {φ : Fin 3 → K → K} {σ : K}
    (h : StyledNode b din dout (.str "Fwd")) (hv : CdlIs v s o p σ) (hp : ∀ i, 0 < p i) (hL : ∀ i, Spec.PowerNear E.library (p i) (φ i)) :
    Implements E (.leaf (.cdl cc v) b) (.grade (Spec.fullScale (some din)) (Spec.fullScale (some dout)) s o φ σ)
  | gamma {rows : List (GammaParam K)} {b : Base K} {din dout st : AVal} {f : Flt K → Flt K → Flt K → Py (Flt K)} {ψ : Fin 3 → K → K} {D ε : K}
    (h : StyledNode b din dout st) (hr : Spec.GoodLetters GammaParam.channel rows) (hf : gammaStyleR E.rounding E.library st = some f)
    (hD : 0 ≤ D) (hε : 0 ≤ ε) (hψ : ∀ i, Spec.ToneNear (f (Spec.gammaFor rows i).1 (Spec.gammaFor rows i).2) (ψ i) D ε) :
    Implements E (.leaf (.gamma rows) b) (.tone (Spec.fullScale (some din)) (Spec.fullScale (some dout)) D ε ψ)
  | log {rows : List (LogParam K)} {b : Base K} {din dout st : AVal} {f : LogParam K → Flt K → Py (Flt K)} {ψ : Fin 3 → K → K} {D ε : K}
    (h : StyledNode b din dout st) (hr : Spec.GoodLetters LogParam.channel rows) (hf : logStyleR E.rounding E.library st = some f)
    (hD : 0 ≤ D) (hε : 0 ≤ ε) (hψ : ∀ i, Spec.ToneNear (f (logRowR E.rounding rows i)) (ψ i) D ε) :
    Implements E (.leaf (.log rows) b) (.tone (Spec.fullScale (some din)) (Spec.fullScale (some dout)) D ε ψ)
  | exposure {e c p : Flt K} {b : Base K} {din dout : AVal} {ψ : K → K} {D ε : K} (h : StyledNode b din dout (.str "linear"))
    (hD : 0 ≤ D) (hε : 0 ≤ ε) (hψ : Spec.ToneNear (ecTone E.rounding E.library e c p) ψ D ε) :
    Implements E (.leaf (.exposureContrast e c p) b) (.tone (Spec.fullScale (some din)) (Spec.fullScale (some dout)) D ε fun _ => ψ)
  | map {k : Kind K} {b : Base K} {D ε : K} {Φ : (Fin 3 → K) → Fin 3 → K} (hk : k ≠ .matrix) (hD : 0 ≤ D) (hε : 0 ≤ ε)
    (hΦ : NodeNear E k b Φ D ε) : Implements E (.leaf k b) (.map D ε Φ)

theorem Implements.wf {E : Evaluator K} {n : Node K} {s : Spec.Stage K} (h : Implements E n s) : StageOk s := by
  cases h with
  | matrix => trivial
  | affine => trivial
  | lut1d _ _ _ hm0 => exact ⟨fullScale_pos _, hm0⟩
  | lut3d _ _ _ hm0 => exact ⟨fullScale_pos _, hm0⟩
  | tetra _ _ _ hm0 => exact ⟨fullScale_pos _, hm0⟩
  | range _ _ hb => exact ⟨hb.lt, hb.le⟩
  | bounds _ hD hε => exact ⟨fullScale_pos _, one_le_fullScale _, hD, hε⟩
  | cdl => exact ⟨fullScale_pos _, fullScale_pos _⟩
  | gamma _ _ _ hD hε => exact ⟨fullScale_pos _, one_le_fullScale _, hD, hε⟩
  | log _ _ _ hD hε => exact ⟨fullScale_pos _, one_le_fullScale _, hD, hε⟩
  | exposure _ hD hε => exact ⟨fullScale_pos _, one_le_fullScale _, hD, hε⟩
  | map _ hD hε => exact ⟨hD, hε⟩

/-- A pixel of `float32` numbers that are at most `B` in size. -/
def Small (B : K) (p : Fin 3 → K) : Prop := ∀ i, Spec.IsSingle (p i) ∧ |p i| ≤ B

/-- What one node does to small pixels. -/
def Runs (f : List (Flt K) → Py (Res K)) (s : Spec.Stage K) (B e B' : K) : Prop :=
  ∀ pixels : List (Fin 3 → K), (∀ p ∈ pixels, Small B p) → ∃ (r : Res K) (g : (Fin 3 → K) → Fin 3 → K),
    f (Spec.rgb pixels) = .ok r ∧ r.out = Spec.rgb (pixels.map g) ∧ ∀ p ∈ pixels, Small B' (g p) ∧ Off e (g p) (s.eval p)

theorem linear_size {M : Fin 3 → Fin 3 → K} {s : Fin 3 → K} {B N T : K} (hM : ∀ i, ∑ j, |M i j| ≤ N) (hs : ∀ i, |s i| ≤ T)
    {p : Fin 3 → K} (hp : Small B p) (i : Fin 3) : (∑ j, |M i j * p j|) + |s i| ≤ N * B + T := by
  have hB : 0 ≤ B := (abs_nonneg _).trans (hp 0).2
  refine add_le_add ?_ (hs i)
  calc ∑ j, |M i j * p j| ≤ ∑ j, |M i j| * B := Finset.sum_le_sum fun j _ => by
        rw [abs_mul]; exact mul_le_mul_of_nonneg_left (hp j).2 (abs_nonneg _)
    _ = (∑ j, |M i j|) * B := by rw [Finset.sum_mul]
    _ ≤ N * B := mul_le_mul_of_nonneg_right (hM i) hB

theorem linear_out {x y Z : K} {k : K} (hZ : 0 ≤ Z) (hk : k ≤ 20) (hy : |y| ≤ Z)
    (h : |x - y| ≤ k * (Z / 2 ^ 24 + 2 ^ (-150 : ℤ))) :
    |x - y| ≤ 20 * (Z / 2 ^ 24 + 2 ^ (-150 : ℤ)) ∧ |x| ≤ 2 * Z + 1 := by
  have hμ := (two_zpow_pos (K := K) (-150)).le
  have h1 : |x - y| ≤ 20 * (Z / 2 ^ 24 + 2 ^ (-150 : ℤ)) :=
    h.trans (mul_le_mul_of_nonneg_right hk (by positivity))
  refine ⟨h1, ?_⟩
  have h2 := single_small (K := K)
  have h3 : |x| ≤ |x - y| + |y| := by
    have := abs_add_le (x - y) y
    rwa [sub_add_cancel] at this
  have h4 : (1 : K) / 2 ^ 24 ≤ 1 / 40 := by norm_num
  have h5 : Z / 2 ^ 24 ≤ Z / 40 := by
    rw [div_eq_mul_one_div, div_eq_mul_one_div Z 40]
    exact mul_le_mul_of_nonneg_left h4 hZ
  generalize (2 : K) ^ (-150 : ℤ) = μ at *
  linarith

theorem linear_eval_size {M : Fin 3 → Fin 3 → K} {s p : Fin 3 → K} (i : Fin 3) :
    |Spec.Stage.eval (.linear M s) p i| ≤ (∑ j, |M i j * p j|) + |s i| := by
  simp only [Spec.Stage.eval]
  exact (abs_add_le _ _).trans (add_le_add_left (Finset.abs_sum_le_sum_abs _ _) _)

theorem runs_affine {t : Fmt} (ht : t = half ∨ t = single ∨ t = double) {b : Base K} {M : Matrix (Fin 3) (Fin 3) K} {s : Fin 3 → K}
    (h : AffineNode b M s) {B N T : K} (hM : ∀ i, ∑ j, |M i j| ≤ N) (hs : ∀ i, |s i| ≤ T) (hB : N * B + T ≤ 2 ^ 120) :
    Runs (fun v => matrixProcessR ieee t b v 3) (.linear M s) B (20 * ((N * B + T) / 2 ^ 24 + 2 ^ (-150 : ℤ))) (2 * (N * B + T) + 1) := by
  intro pixels hp
  obtain ⟨r, f, h1, h2, h3⟩ := C125_affine t ht (n := 3) (by norm_num) b M s h 3 (by norm_num) (pixels.map fun p => (p, []))
    (by simp) (by
      intro q hq i
      obtain ⟨p, hp', rfl⟩ := List.mem_map.mp hq
      exact (linear_size hM hs (hp p hp') i).trans hB)
  rw [rgb_image] at h1
  refine ⟨r, f, h1, ?_, fun p hp' => ?_⟩
  · rw [h2, List.map_map, ← rgb_image, List.map_map]
    rfl
  · have key : ∀ i, |f p i - Spec.Stage.eval (.linear M s) p i| ≤ 20 * ((N * B + T) / 2 ^ 24 + 2 ^ (-150 : ℤ)) ∧
        |f p i| ≤ 2 * (N * B + T) + 1 := by
      intro i
      obtain ⟨-, h5⟩ := h3 (p, []) (List.mem_map.mpr ⟨p, hp', rfl⟩) i
      have hz := linear_size hM hs (hp p hp') i
      have hZ : 0 ≤ N * B + T := le_trans (add_nonneg (Finset.sum_nonneg fun _ _ => abs_nonneg _) (abs_nonneg _)) hz
      refine linear_out (k := 20) hZ le_rfl ((linear_eval_size i).trans hz) ?_
      have hμ := (two_zpow_pos (K := K) (-150)).le
      refine le_trans h5 ?_
      norm_num only [Nat.cast_ofNat]
      gcongr
    exact ⟨fun i => ⟨(h3 (p, []) (List.mem_map.mpr ⟨p, hp', rfl⟩) i).1, (key i).2⟩, fun i => (key i).1⟩

theorem runs_matrix {t : Fmt} (ht : t = half ∨ t = single ∨ t = double) {b : Base K} {M : Matrix (Fin 3) (Fin 3) K}
    (h : MatrixNode b M) {B N T : K} (hM : ∀ i, ∑ j, |M i j| ≤ N) (hs : ∀ i : Fin 3, |(fun _ => 0 : Fin 3 → K) i| ≤ T) (hB : N * B + T ≤ 2 ^ 120) :
    Runs (fun v => matrixProcessR ieee t b v 3) (.linear M fun _ => 0) B (20 * ((N * B + T) / 2 ^ 24 + 2 ^ (-150 : ℤ)))
      (2 * (N * B + T) + 1) := by
  intro pixels hp
  have hz' := fun p hp' i => linear_size (s := fun _ => 0) hM hs (hp p hp') i
  simp only [abs_zero, add_zero] at hz'
  obtain ⟨r, f, h1, h2, h3⟩ := C125_linear t ht (n := 3) (by norm_num) b M h 3 (by norm_num) (pixels.map fun p => (p, []))
    (by simp) (by
      intro q hq i
      obtain ⟨p, hp', rfl⟩ := List.mem_map.mp hq
      exact (hz' p hp' i).trans hB)
  rw [rgb_image] at h1
  refine ⟨r, f, h1, ?_, fun p hp' => ?_⟩
  · rw [h2, List.map_map, ← rgb_image, List.map_map]
    rfl
  · have key : ∀ i, |f p i - Spec.Stage.eval (.linear M fun _ => 0) p i| ≤ 20 * ((N * B + T) / 2 ^ 24 + 2 ^ (-150 : ℤ)) ∧
        |f p i| ≤ 2 * (N * B + T) + 1 := by
      intro i
      obtain ⟨-, h5⟩ := h3 (p, []) (List.mem_map.mpr ⟨p, hp', rfl⟩) i
      have hz := hz' p hp' i
      have hZ : 0 ≤ N * B + T := le_trans (Finset.sum_nonneg fun _ _ => abs_nonneg _) hz
      have e : Spec.Stage.eval (.linear M fun _ => 0) p i = M.mulVec p i := add_zero _
      have hsz := linear_eval_size (M := M) (s := fun _ => 0) (p := p) i
      simp only [abs_zero, add_zero] at hsz
      refine linear_out (k := 20) hZ le_rfl (hsz.trans hz) ?_
      rw [e]
      have hμ := (two_zpow_pos (K := K) (-150)).le
      refine le_trans h5 ?_
      norm_num only [Nat.cast_ofNat]
      gcongr
      norm_num
    exact ⟨fun i => ⟨(h3 (p, []) (List.mem_map.mpr ⟨p, hp', rfl⟩) i).1, (key i).2⟩, fun i => (key i).1⟩

theorem mapColour_fins (F : ℕ → Flt K → Flt K) (g : Fin 3 → K → K) (p : Fin 3 → K) (h : ∀ i : Fin 3, F i (.fin (p i)) = .fin (g i (p i))) :
    Spec.mapColour F (Spec.fins p) = Spec.fins fun i => g i (p i) := by
  have h0 := h 0
  have h1 := h 1
  have h2 := h 2
  simp only [Fin.val_zero, Fin.val_one, Fin.val_two] at h0 h1 h2
  simp [Spec.mapColour, Spec.fins, List.ofFn_succ, h0, h1, h2]

theorem runs_curves {t : Fmt} {b : Base K} {din : AVal} {a : Arr K} {m c : ℕ} {V : Fin (m + 1) → Fin (c + 1) → K} (h : PlainLut b din a)
    (hT : Table1D a V) (hV : ∀ i j, Spec.IsSingle (V i j)) (hm0 : 0 < m) (hm : m < 2 ^ 53) {B J C : K}
    (hJ : ∀ i : Fin 3, Spec.StepsWithin (fun k => V k (Spec.column c i)) J) (hC : ∀ (i : Fin 3) k, |V k (Spec.column c i)| ≤ C) :
    Runs (fun v => lut1dProcessR ieee t b v 3) (.curves (Spec.fullScale (some din)) m fun ch k => V k (Spec.column c ch)) B
      ((J * m + C) / 2 ^ 23 + 2 ^ (-150 : ℤ)) C := by
  intro pixels hp
  obtain ⟨r, F, h1, h2, -, -, h3⟩ := C122_linear t b din a h V hT hV hm0 hm 3 (by norm_num) (pixels.map Spec.fins)
    (by simp [Spec.fins])
  have hex : ∀ (i : Fin 3) (x : K), ∃ y, Spec.IsSingle x → F i (.fin x) = .fin y := by
    intro i x
    by_cases hx : Spec.IsSingle x
    · obtain ⟨y, hy, -⟩ := h3 i x hx
      exact ⟨y, fun _ => hy⟩
    · exact ⟨0, fun h => absurd h hx⟩
  choose g hg using hex
  have hm' : (0 : K) < m := Nat.cast_pos.mpr hm0
  have hS : (0 : K) < Spec.fullScale (some din) := fullScale_pos _
  refine ⟨r, fun p i => g i (p i), h1, ?_, fun p hp' => ?_⟩
  · rw [h2, Spec.rgb, List.map_map, List.map_map]
    congr 1
    refine List.map_congr_left fun p hp' => ?_
    exact mapColour_fins F g p fun i => hg i (p i) (hp p hp' i).1
  · have key : ∀ i, Spec.IsSingle (g i (p i)) ∧ |g i (p i)| ≤ C ∧
        |g i (p i) - Spec.polyline (fun k => V k (Spec.column c i)) (p i / Spec.fullScale (some din))|
          ≤ (J * m + C) / 2 ^ 23 + 2 ^ (-150 : ℤ) := by
      intro i
      have hx := (hp p hp' i).1
      obtain ⟨y, e, hy, ⟨k1, l1⟩, ⟨k2, l2⟩, hlo, hhi, hcell⟩ := h3 i (p i) hx
      have ey : g i (p i) = y := by
        have := (hg i (p i) hx).symm.trans e
        exact Flt.fin.inj this
      rw [ey]
      have hJ0 : 0 ≤ J := steps_nonneg hm0 (hJ i)
      have hC0 : 0 ≤ C := (abs_nonneg _).trans (hC i 0)
      have hE : 0 ≤ (J * m + C) / 2 ^ 23 + (2 : K) ^ (-150 : ℤ) := by
        have := (two_zpow_pos (K := K) (-150)).le
        positivity
      refine ⟨hy, abs_le.mpr ⟨(abs_le.mp (hC i k1)).1.trans l1, l2.trans (abs_le.mp (hC i k2)).2⟩, ?_⟩
      by_cases c0 : p i ≤ 0
      · have : p i / Spec.fullScale (some din) ≤ 0 := div_nonpos_of_nonpos_of_nonneg c0 hS.le
        rw [Spec.polyline, if_pos this, hlo c0, sub_self, abs_zero]
        exact hE
      by_cases c1 : Spec.fullScale (some din) ≤ p i
      · have : 1 ≤ p i / Spec.fullScale (some din) := (one_le_div hS).mpr c1
        rw [Spec.polyline, if_neg (not_le.mpr (lt_of_lt_of_le zero_lt_one this)), if_pos this, hhi c1, sub_self, abs_zero]
        exact hE
      have q0 : 0 < p i / Spec.fullScale (some din) := div_pos (not_le.mp c0) hS
      have q1 : p i / Spec.fullScale (some din) < 1 := (div_lt_one hS).mpr (not_le.mp c1)
      generalize p i / Spec.fullScale (some din) = q at *
      have hqm : 0 ≤ q * m := by positivity
      have hk : ⌊q * m⌋₊ + 1 ≤ m := by
        rw [Nat.add_one_le_iff, Nat.floor_lt hqm]
        exact mul_lt_of_lt_one_left hm' q1
      have b1 : (⌊q * m⌋₊ : K) ≤ q * m := Nat.floor_le hqm
      have b2 : q * m ≤ (⌊q * m⌋₊ + 1 : ℕ) := by push_cast; exact (Nat.lt_floor_add_one _).le
      have := hcell J C (hJ i) (hC i) ⌊q * m⌋₊ hk ((div_le_iff₀ hm').mpr b1) ((le_div_iff₀ hm').mpr b2)
      rw [polyline_eq, max_eq_right q0.le, min_eq_right q1.le, lerpRow_between _ ⌊q * m⌋₊ hk b1 b2]
      convert this using 3
      unfold Spec.affine
      push_cast
      field_simp
      ring
    exact ⟨fun i => ⟨(key i).1, (key i).2.1⟩, fun i => (key i).2.2⟩

/-- The position before a lookup in a cube, whatever the value. -/
theorem any_pos (d : Depth) {m : ℕ} (hm0 : 0 < m) (hm : m < 2 ^ 53) {x : K} (hx : Spec.IsSingle x) :
    (0 ≤ posF m (Spec.unit (ieee single (toUnitR ieee (.fin x) d))) ∧ posF m (Spec.unit (ieee single (toUnitR ieee (.fin x) d))) ≤ m) ∧
      |posF m (Spec.unit (ieee single (toUnitR ieee (.fin x) d))) - min 1 (max 0 (x / Spec.fullScale d)) * m| ≤ m * (5 / 4 * (1 / 2 ^ 24)) := by
  have hm' : (0 : K) < m := Nat.cast_pos.mpr hm0
  have hS : (0 : K) < Spec.fullScale d := fullScale_pos _
  have hz : (0 : K) ≤ m * (5 / 4 * (1 / 2 ^ 24)) := by positivity
  by_cases c0 : x ≤ 0
  · obtain ⟨p, e, q⟩ := hits_pos d hm hx (i := 0) (.inl ⟨c0, rfl⟩)
    rw [e, q, max_eq_left (div_nonpos_of_nonpos_of_nonneg c0 hS.le), min_eq_right zero_le_one]
    simp only [Fin.val_zero, Nat.cast_zero, zero_mul, sub_self, abs_zero]
    exact ⟨⟨le_rfl, hm'.le⟩, hz⟩
  by_cases c1 : Spec.fullScale d ≤ x
  · obtain ⟨p, e, q⟩ := hits_pos d hm hx (i := Fin.last m) (.inr (.inl ⟨c1, rfl⟩))
    rw [e, q, min_eq_left (((one_le_div hS).mpr c1).trans (le_max_right _ _))]
    simp only [Fin.val_last, one_mul, sub_self, abs_zero]
    exact ⟨⟨hm'.le, le_rfl⟩, hz⟩
  have q0 : 0 < x / Spec.fullScale d := div_pos (not_le.mp c0) hS
  have q1 : x / Spec.fullScale d < 1 := (div_lt_one hS).mpr (not_le.mp c1)
  obtain ⟨p, e, q, r⟩ := inner_pos d hm0 hm hx q0.le q1.le
  rw [e, max_eq_right q0.le, min_eq_right q1.le]
  exact ⟨q, r⟩

theorem runs_cube {b : Base K} {din : AVal} {a : Arr K} {m : ℕ} {V : Fin (m + 1) → Fin (m + 1) → Fin (m + 1) → Fin 3 → K}
    (h : PlainLut3 b din (.str "trilinear") a) (hT : Table3D a V) (hV : ∀ i j k ch, Spec.IsSingle (V i j k ch)) (hm0 : 0 < m)
    (hm : m < 2 ^ 53) {B J C : K}
    (hr : ∀ i g b, Spec.StepsWithin (fun r => V r g b i) J) (hg : ∀ i r b, Spec.StepsWithin (fun g => V r g b i) J)
    (hb : ∀ i r g, Spec.StepsWithin (fun b => V r g b i) J) (hC : ∀ i r g b, |V r g b i| ≤ C) :
    Runs (fun v => lut3dProcessR ieee b v 3) (.cube (Spec.fullScale (some din)) m fun ch i j k => V i j k ch) B
      ((3 * J * m + C) / 2 ^ 23 + 2 ^ (-150 : ℤ)) C := by
  intro pixels hp
  obtain ⟨F, hF, hmem, -, htri, -⟩ := cubeR_lookup hm a V hT hV _ (.inl rfl)
  have hmin : ∀ ch, ∃ q : Fin (m + 1) × Fin (m + 1) × Fin (m + 1), ∀ i j k, V q.1 q.2.1 q.2.2 ch ≤ V i j k ch := fun ch => by
    obtain ⟨q, hq⟩ := Finite.exists_min fun q : Fin (m + 1) × Fin (m + 1) × Fin (m + 1) => V q.1 q.2.1 q.2.2 ch
    exact ⟨q, fun i j k => hq (i, j, k)⟩
  have hmax : ∀ ch, ∃ q : Fin (m + 1) × Fin (m + 1) × Fin (m + 1), ∀ i j k, V i j k ch ≤ V q.1 q.2.1 q.2.2 ch := fun ch => by
    obtain ⟨q, hq⟩ := Finite.exists_max fun q : Fin (m + 1) × Fin (m + 1) × Fin (m + 1) => V q.1 q.2.1 q.2.2 ch
    exact ⟨q, fun i j k => hq (i, j, k)⟩
  choose lo hlo using hmin
  choose hi hhi using hmax
  have hall := fun r g bl ch => hmem r g bl ch _ _ (hV _ _ _ ch) (hV _ _ _ ch) fun i j k => ⟨hlo ch i j k, hhi ch i j k⟩
  obtain ⟨res, hres, hout⟩ := lut3dR_node ieee b din _ a h F (fun r g bl ch => single.near (F r g bl ch)) hF
    (fun r g bl ch => (hall r g bl ch).1) 3 (pixels.map fun p => ⟨.fin (p 0), .fin (p 1), .fin (p 2), []⟩) (by norm_num)
    (by simp [Spec.Pixel.toList])
  have el : (pixels.map fun p => (⟨.fin (p 0), .fin (p 1), .fin (p 2), []⟩ : Spec.Pixel K)).map Spec.Pixel.toList = pixels.map Spec.fins := by
    rw [List.map_map]
    refine List.map_congr_left fun p _ => ?_
    simp [Spec.Pixel.toList, Spec.fins, List.ofFn_succ]
  rw [el] at hres
  refine ⟨res, fun p ch => single.near (F (ieee single (toUnitR ieee (.fin (p 0)) (some din))) (ieee single (toUnitR ieee (.fin (p 1)) (some din)))
    (ieee single (toUnitR ieee (.fin (p 2)) (some din))) ch), hres, ?_, fun p hp' => ?_⟩
  · rw [hout, Spec.rgb, List.map_map, List.map_map]
    congr 1
  · have key : ∀ ch, _ ∧ _ ∧ _ := fun ch => hall (ieee single (toUnitR ieee (.fin (p 0)) (some din)))
      (ieee single (toUnitR ieee (.fin (p 1)) (some din))) (ieee single (toUnitR ieee (.fin (p 2)) (some din))) ch
    refine ⟨fun ch => ⟨isSingle_near (key ch).1, abs_le.mpr ⟨(abs_le.mp (hC ch _ _ _)).1.trans (key ch).2.1,
      (key ch).2.2.trans (abs_le.mp (hC ch _ _ _)).2⟩⟩, fun ch => ?_⟩
    obtain ⟨p0, e0⟩ := any_pos (some din) hm0 hm (hp p hp' 0).1
    obtain ⟨p1, e1⟩ := any_pos (some din) hm0 hm (hp p hp' 1).1
    obtain ⟨p2, e2⟩ := any_pos (some din) hm0 hm (hp p hp' 2).1
    have := triF_near V hV ch J C (fun n hn i j => ⟨hr ch i j n hn, hg ch i j n hn, hb ch i j n hn⟩)
      (steps_nonneg hm0 (hr ch 0 0)) (hC ch) p0 p1 p2 (clampU_mem _) (clampU_mem _) (clampU_mem _) e0 e1 e2
    simp only [Spec.Stage.eval, polyline_eq, htri rfl]
    exact this

theorem runs_tetra {b : Base K} {din : AVal} {a : Arr K} {m : ℕ} {V : Fin (m + 1) → Fin (m + 1) → Fin (m + 1) → Fin 3 → K}
    (h : PlainLut3 b din (.str "tetrahedral") a) (hT : Table3D a V) (hV : ∀ i j k ch, Spec.IsSingle (V i j k ch)) (hm0 : 0 < m)
    (hm : m < 2 ^ 53) {B J C : K}
    (hr : ∀ i g b, Spec.StepsWithin (fun r => V r g b i) J) (hg : ∀ i r b, Spec.StepsWithin (fun g => V r g b i) J)
    (hb : ∀ i r g, Spec.StepsWithin (fun b => V r g b i) J) (hC : ∀ i r g b, |V r g b i| ≤ C) :
    Runs (fun v => lut3dProcessR ieee b v 3) (.tetra (Spec.fullScale (some din)) m fun ch i j k => V i j k ch) B
      ((3 * J * m + C) / 2 ^ 23 + 2 ^ (-150 : ℤ)) C := by
  intro pixels hp
  obtain ⟨F, hF, hmem, -, -, htet⟩ := cubeR_lookup hm a V hT hV _ (.inr rfl)
  have hmin : ∀ ch, ∃ q : Fin (m + 1) × Fin (m + 1) × Fin (m + 1), ∀ i j k, V q.1 q.2.1 q.2.2 ch ≤ V i j k ch := fun ch => by
    obtain ⟨q, hq⟩ := Finite.exists_min fun q : Fin (m + 1) × Fin (m + 1) × Fin (m + 1) => V q.1 q.2.1 q.2.2 ch
    exact ⟨q, fun i j k => hq (i, j, k)⟩
  have hmax : ∀ ch, ∃ q : Fin (m + 1) × Fin (m + 1) × Fin (m + 1), ∀ i j k, V i j k ch ≤ V q.1 q.2.1 q.2.2 ch := fun ch => by
    obtain ⟨q, hq⟩ := Finite.exists_max fun q : Fin (m + 1) × Fin (m + 1) × Fin (m + 1) => V q.1 q.2.1 q.2.2 ch
    exact ⟨q, fun i j k => hq (i, j, k)⟩
  choose lo hlo using hmin
  choose hi hhi using hmax
  have hall := fun r g bl ch => hmem r g bl ch _ _ (hV _ _ _ ch) (hV _ _ _ ch) fun i j k => ⟨hlo ch i j k, hhi ch i j k⟩
  obtain ⟨res, hres, hout⟩ := lut3dR_node ieee b din _ a h F (fun r g bl ch => single.near (F r g bl ch)) hF
    (fun r g bl ch => (hall r g bl ch).1) 3 (pixels.map fun p => ⟨.fin (p 0), .fin (p 1), .fin (p 2), []⟩) (by norm_num)
    (by simp [Spec.Pixel.toList])
  have el : (pixels.map fun p => (⟨.fin (p 0), .fin (p 1), .fin (p 2), []⟩ : Spec.Pixel K)).map Spec.Pixel.toList = pixels.map Spec.fins := by
    rw [List.map_map]
    refine List.map_congr_left fun p _ => ?_
    simp [Spec.Pixel.toList, Spec.fins, List.ofFn_succ]
  rw [el] at hres
  refine ⟨res, fun p ch => single.near (F (ieee single (toUnitR ieee (.fin (p 0)) (some din))) (ieee single (toUnitR ieee (.fin (p 1)) (some din)))
    (ieee single (toUnitR ieee (.fin (p 2)) (some din))) ch), hres, ?_, fun p hp' => ?_⟩
  · rw [hout, Spec.rgb, List.map_map, List.map_map]
    congr 1
  · have key : ∀ ch, _ ∧ _ ∧ _ := fun ch => hall (ieee single (toUnitR ieee (.fin (p 0)) (some din)))
      (ieee single (toUnitR ieee (.fin (p 1)) (some din))) (ieee single (toUnitR ieee (.fin (p 2)) (some din))) ch
    refine ⟨fun ch => ⟨isSingle_near (key ch).1, abs_le.mpr ⟨(abs_le.mp (hC ch _ _ _)).1.trans (key ch).2.1,
      (key ch).2.2.trans (abs_le.mp (hC ch _ _ _)).2⟩⟩, fun ch => ?_⟩
    obtain ⟨p0, e0⟩ := any_pos (some din) hm0 hm (hp p hp' 0).1
    obtain ⟨p1, e1⟩ := any_pos (some din) hm0 hm (hp p hp' 1).1
    obtain ⟨p2, e2⟩ := any_pos (some din) hm0 hm (hp p hp' 2).1
    have := tetraF_near V hV ch J C (fun n hn i j => ⟨hr ch i j n hn, hg ch i j n hn, hb ch i j n hn⟩)
      (steps_nonneg hm0 (hr ch 0 0)) (hC ch) p0 p1 p2 (clampU_mem _) (clampU_mem _) (clampU_mem _) e0 e1 e2
    simp only [Spec.Stage.eval, simplicial_eq hm0, htet rfl]
    exact this

theorem runs_range {b : Base K} {din dout : AVal} {mi ma mo mx : K} (h : FullRange b din dout mi ma mo mx) (hcl : Clamps b)
    (hb : Spec.Bounds din dout mi ma mo mx) (hd : Spec.bits (some din) = none) (hi : 0 ≤ mi) (ho : 0 ≤ mo) {B : K} :
    Runs (fun v => rangeProcessR ieee b v) (.clamp mi ma mo mx) B
      ((ma * ((mx - mo) / (ma - mi)) + mx) / 2 ^ 20 + 2 ^ (-129 : ℤ)) mx := by
  intro pixels hp
  have hsingle : ∀ x ∈ (pixels.map fun p => List.ofFn p).flatten, Spec.IsSingle x := by
    intro x hx
    simp only [List.mem_flatten, List.mem_map, exists_exists_and_eq_and, List.mem_ofFn] at hx
    obtain ⟨p, hp', i, rfl⟩ := hx
    exact (hp p hp' i).1
  have hσ : 0 ≤ (mx - mo) / (ma - mi) := div_nonneg (sub_nonneg.mpr hb.le) (sub_pos.mpr hb.lt).le
  have herr : ∀ x, x ≤ ma → (x * ((mx - mo) / (ma - mi)) + mx) / 2 ^ 20 + (2 : K) ^ (-129 : ℤ)
      ≤ (ma * ((mx - mo) / (ma - mi)) + mx) / 2 ^ 20 + 2 ^ (-129 : ℤ) := fun x hx => by gcongr
  have hnum : ∀ x, Spec.IsSingle x → Spec.IsSingle (rangeF din dout mi ma mo mx x) ∧ mo ≤ rangeF din dout mi ma mo mx x ∧
      rangeF din dout mi ma mo mx x ≤ mx := by
    intro x hx
    obtain ⟨y, -, -, -, hf, -, h1, h2, h3⟩ := rangeR_any hb (.fin x)
    rw [hf x rfl hx] at h1 h2 h3
    exact ⟨h1, h2, h3⟩
  have hmx : 0 ≤ mx := ho.trans hb.le
  refine ⟨_, fun p i => rangeF din dout mi ma mo mx (p i), (congrArg _ (rgb_fin pixels)).trans (rangeR_finite h hcl hb _ hsingle).1, ?_, fun p hp' => ?_⟩
  · rw [rgb_fin, List.map_map, List.map_flatten, List.map_flatten, List.map_map, List.map_map]
    congr 1
  · have key : ∀ x, Spec.IsSingle x → |rangeF din dout mi ma mo mx x - (mo + (min ma (max mi x) - mi) * ((mx - mo) / (ma - mi)))|
        ≤ (ma * ((mx - mo) / (ma - mi)) + mx) / 2 ^ 20 + 2 ^ (-129 : ℤ) := by
      intro x hx
      obtain ⟨-, l1, l2⟩ := hnum x hx
      by_cases c0 : x ≤ mi
      · have k := rangeF_close hb hi ho hb.minIn le_rfl hb.lt.le
        have k2 := rangeF_mono (din := din) (dout := dout) hb.lt.le hb.le c0
        have e : Spec.affine mi ma mo mx mi = mo := by simp [Spec.affine]
        rw [e] at k
        rw [max_eq_left c0, min_eq_right hb.lt.le, sub_self, zero_mul, add_zero, abs_of_nonneg (sub_nonneg.mpr l1)]
        refine le_trans ?_ (herr mi hb.lt.le)
        have := (abs_le.mp k).2
        linarith
      by_cases c1 : ma ≤ x
      · have k := rangeF_close hb hi ho hb.maxIn hb.lt.le le_rfl
        have k2 := rangeF_mono (din := din) (dout := dout) hb.lt.le hb.le c1
        have hw : ma - mi ≠ 0 := (sub_pos.mpr hb.lt).ne'
        have e : Spec.affine mi ma mo mx ma = mx := by
          unfold Spec.affine
          field_simp
          ring
        have e2 : mo + (ma - mi) * ((mx - mo) / (ma - mi)) = mx := e
        rw [e] at k
        rw [max_eq_right (hb.lt.le.trans c1), min_eq_left c1, e2, abs_of_nonpos (sub_nonpos.mpr l2)]
        have := (abs_le.mp k).1
        linarith
      have c0 := (not_le.mp c0).le
      have c1 := (not_le.mp c1).le
      rw [max_eq_right c0, min_eq_right c1]
      exact (rangeF_close hb hi ho (.inr ⟨hd, hx⟩) c0 c1).trans (herr x c1)
    refine ⟨fun i => ?_, fun i => key _ (hp p hp' i).1⟩
    obtain ⟨s, l1, l2⟩ := hnum _ (hp p hp' i).1
    exact ⟨s, abs_le.mpr ⟨by linarith, l2⟩⟩

theorem runs_grade (L : Arith K) (compat : ℕ) {v : CdlValues K} {b : Base K} {din dout : AVal} {s o p : Fin 3 → K} {φ : Fin 3 → K → K}
    {σ : K} (h : StyledNode b din dout (.str "Fwd")) (hv : CdlIs v s o p σ) (hp : ∀ i, 0 < p i) (hL : ∀ i, Spec.PowerNear L (p i) (φ i))
    {B N O k G : K} (hs : ∀ i, |s i| ≤ N) (ho : ∀ i, |o i| ≤ O) (hφ : ∀ i, Spec.Curve (φ i) k) (hN : N ≤ 2 ^ 120)
    (hZ : N * (B / Spec.fullScale (some din)) + O ≤ 2 ^ 120) (hσ : |σ| ≤ 2 ^ 120) (hG : G = |1 - σ| + |σ|) :
    Runs (fun x => cdlProcessR ieee L compat v b x 3) (.grade (Spec.fullScale (some din)) (Spec.fullScale (some dout)) s o φ σ) B
      (Spec.fullScale (some dout) * (G * (k * ((N * (B / Spec.fullScale (some din)) + O) / 2 ^ 23 + (N + 1) * 2 ^ (-146 : ℤ)) + 1 / 2 ^ 21)))
      (Spec.fullScale (some dout)) := by
  intro pixels hpx
  have hS := fullScale_pos (K := K) (some din)
  have key : ∀ x : Fin 3 → K, ∃ out : Fin 3 → K, Small B x →
      (∀ rest, cdlFwdR ieee L (finCdl s o p σ) (some din) (some dout) (Spec.fins x ++ rest) = .ok (Spec.fins out ++ rest)) ∧
      ∀ i, Spec.IsSingle (out i) ∧ 0 ≤ out i ∧ out i ≤ Spec.fullScale (some dout) ∧
        |out i - Spec.Stage.eval (.grade (Spec.fullScale (some din)) (Spec.fullScale (some dout)) s o φ σ) x i|
          ≤ Spec.fullScale (some dout) * ((|1 - σ| + |σ|) * (k * ((N * (B / Spec.fullScale (some din)) + O) / 2 ^ 23
            + (N + 1) * 2 ^ (-146 : ℤ)) + 1 / 2 ^ 21)) := by
    intro x
    by_cases hx : Small B x
    · obtain ⟨out, h1, h2⟩ := cdlFwd_near L (some din) (some dout) hs ho hp hL hφ hN hZ hσ (fun i => (hx i).1) (fun i => by
        rw [abs_div, abs_of_pos hS]
        exact div_le_div_of_nonneg_right (hx i).2 hS.le)
      exact ⟨out, fun _ => ⟨h1, h2⟩⟩
    · exact ⟨fun _ => 0, fun h => absurd h hx⟩
  choose F hF using key
  obtain ⟨r, h1, h2⟩ := cdlR_image ieee L compat v b din dout (.str "Fwd") h (.inr (by decide)) 3 (pixels.map fun p => (p, []))
    (by simp) le_rfl F (by
      intro q hq
      obtain ⟨x, hx, rfl⟩ := List.mem_map.mp hq
      unfold cdlPixelR
      rw [if_pos (.inl rfl), hv.resolve]
      exact (hF x (hpx x hx)).1 [])
  rw [rgb_image] at h1
  refine ⟨r, F, h1, ?_, fun x hx => ?_⟩
  · rw [h2, List.map_map, ← rgb_image, List.map_map]
    rfl
  · have := (hF x (hpx x hx)).2
    rw [hG]
    exact ⟨fun i => ⟨(this i).1, by rw [abs_of_nonneg (this i).2.1]; exact (this i).2.2.1⟩, fun i => (this i).2.2.2⟩

/-- One channel through a curve. -/
theorem tone_channel (d1 d2 : Depth) {f : Flt K → Py (Flt K)} {ψ : K → K} {D ε k C B : K} (hn : Spec.ToneNear f ψ D ε) (hε : 0 ≤ ε)
    (hψ : Spec.ToneBounds ψ D k C) (hD : B / Spec.fullScale d1 * (1 + 1 / 2 ^ 23) + 1 / 2 ^ 100 ≤ D) (hC : C + ε ≤ 2 ^ 90) {x : K}
    (hx : Spec.IsSingle x) (hb : |x| ≤ B) :
    ∃ y out, f (ieee single (toUnitR ieee (.fin x) d1)) = .ok y ∧ ieee single (fromUnitR ieee (ieee single y) d2) = .fin out ∧
      Spec.IsSingle out ∧ |out| ≤ Spec.fullScale d2 * (2 * (C + ε) + 1) ∧
      |out - ψ (min D (max (-D) (x / Spec.fullScale d1))) * Spec.fullScale d2|
        ≤ Spec.fullScale d2 * (k * (B / Spec.fullScale d1 / 2 ^ 23 + 1 / 2 ^ 140) + ε + (C + ε) / 2 ^ 22 + 1 / 2 ^ 140) := by
  have hS := fullScale_pos (K := K) d1
  have hT := one_le_fullScale (K := K) d2
  have hT0 := fullScale_pos (K := K) d2
  have hX : |x / Spec.fullScale d1| ≤ B / Spec.fullScale d1 := by
    rw [abs_div, abs_of_pos hS]
    exact div_le_div_of_nonneg_right hb hS.le
  obtain ⟨η, e0⟩ : ∃ η : K, η = 2 ^ (-148 : ℤ) := ⟨_, rfl⟩
  obtain ⟨μ, e1⟩ : ∃ μ : K, μ = 2 ^ (-150 : ℤ) := ⟨_, rfl⟩
  obtain ⟨κ, e2⟩ : ∃ κ : K, κ = 1 / 2 ^ 140 := ⟨_, rfl⟩
  obtain ⟨ν, e3⟩ : ∃ ν : K, ν = 1 / 2 ^ 100 := ⟨_, rfl⟩
  have i1 : 4 * η ≤ κ := by rw [e0, e2]; norm_num
  have i2 : 4 * μ = η := by rw [e0, e1]; norm_num
  have i3 : κ ≤ ν := by rw [e2, e3]; norm_num
  have i4 : 0 < μ := e1 ▸ two_zpow_pos _
  have i5 : ν ≤ 1 := by rw [e3]; norm_num
  rw [← e3] at hD
  rw [← e2]
  obtain ⟨u, h1, su, -, -, -, -, eu⟩ := unit_pos d1 hx
  generalize x / Spec.fullScale d1 = X at *
  generalize B / Spec.fullScale d1 = b at *
  rw [← e0] at eu
  have b0 := (abs_nonneg _).trans hX
  have eu' : |u - X| ≤ b / 2 ^ 23 + η := by
    have : |X| * (9 / 8 * (1 / 2 ^ 24)) ≤ b * (1 / 2 ^ 23) := mul_le_mul hX (by norm_num) (by norm_num) b0
    rw [div_eq_mul_one_div b]
    linarith
  have XD : |X| ≤ D := by
    norm_num at hD
    linarith
  have uD : |u| ≤ D := by
    have := abs_add_le (u - X) X
    rw [sub_add_cancel] at this
    norm_num at hD eu'
    linarith
  obtain ⟨w, h2, ew⟩ := hn u su uD
  have C0 : 0 ≤ C := (abs_nonneg _).trans (hψ.size X XD)
  obtain ⟨M, hM⟩ : ∃ M, M = C + ε := ⟨_, rfl⟩
  have M0 : 0 ≤ M := by rw [hM]; linarith
  have wM : |w| ≤ M := by
    have := abs_add_le (w - ψ u) (ψ u)
    rw [sub_add_cancel] at this
    have := hψ.size u uD
    linarith
  rw [← hM] at hC ⊢
  have big : (2 : K) ^ 90 * 2 + 1 ≤ 2 ^ 100 := by norm_num
  have big' : (2 : K) ^ 100 ≤ 2 ^ 125 := pow_le_pow_right₀ one_le_two (by norm_num)
  obtain ⟨z, h3, sz, ez, -, -⟩ := single_op wM (by linarith)
  rw [← e1] at ez
  have zM : |z| ≤ M * (1 + 1 / 2 ^ 24) + μ := by
    have := abs_add_le (z - w) w
    rw [sub_add_cancel] at this
    linarith
  obtain ⟨out, h4, so, -, -, eo⟩ := back_pos d2 sz (by
    norm_num at zM
    linarith)
  rw [← e0, abs_mul, abs_of_pos hT0] at eo
  refine ⟨.fin w, out, by rw [h1, h2], by rw [h3, h4], so, ?_, ?_⟩
  all_goals generalize (Spec.fullScale d2 : K) = T at *
  · have t1 : |out| ≤ |out - z * T| + |z| * T := by
      have := abs_add_le (out - z * T) (z * T)
      rwa [sub_add_cancel, abs_mul, abs_of_pos hT0] at this
    have t2 : η ≤ T * η := le_mul_of_one_le_left (by linarith) hT
    have t3 : |out| ≤ T * (|z| * (1 + 9 / 8 * (1 / 2 ^ 24)) + η) := by
      have e : T * (|z| * (1 + 9 / 8 * (1 / 2 ^ 24)) + η) = |z| * T * (9 / 8 * (1 / 2 ^ 24)) + |z| * T + T * η := by ring
      rw [e]
      linarith
    refine t3.trans (mul_le_mul_of_nonneg_left ?_ hT0.le)
    norm_num at zM ⊢
    linarith
  · rw [clampD_id XD]
    have t1 : |out - ψ X * T| ≤ |out - z * T| + |z - w| * T + |w - ψ u| * T + |ψ u - ψ X| * T := by
      have a1 := abs_sub_le out (z * T) (ψ X * T)
      have a2 := abs_sub_le (z * T) (w * T) (ψ X * T)
      have a3 := abs_sub_le (w * T) (ψ u * T) (ψ X * T)
      rw [← sub_mul, ← sub_mul, abs_mul, abs_mul, abs_of_pos hT0] at a3
      have a4 : |z * T - w * T| = |z - w| * T := by rw [← sub_mul, abs_mul, abs_of_pos hT0]
      have a5 : |w * T - ψ X * T| = |w - ψ X| * T := by rw [← sub_mul, abs_mul, abs_of_pos hT0]
      have a6 := mul_le_mul_of_nonneg_right (abs_sub_le w (ψ u) (ψ X)) hT0.le
      rw [add_mul] at a6
      linarith
    have t2 : η ≤ T * η := le_mul_of_one_le_left (by linarith) hT
    have t3 : |out - z * T| ≤ T * (|z| * (9 / 8 * (1 / 2 ^ 24)) + η) := by
      have e : T * (|z| * (9 / 8 * (1 / 2 ^ 24)) + η) = |z| * T * (9 / 8 * (1 / 2 ^ 24)) + T * η := by ring
      rw [e]
      linarith
    have t4 : |ψ u - ψ X| ≤ k * (b / 2 ^ 23 + η) := (hψ.close u X uD XD).trans (mul_le_mul_of_nonneg_left eu' hψ.nonneg)
    have t5 : k * (b / 2 ^ 23 + η) ≤ k * (b / 2 ^ 23 + κ) := mul_le_mul_of_nonneg_left (by linarith) hψ.nonneg
    have t6 := mul_le_mul_of_nonneg_right (t4.trans t5) hT0.le
    have t7 := mul_le_mul_of_nonneg_right ez hT0.le
    have t8 := mul_le_mul_of_nonneg_right ew hT0.le
    have t9 : |out - ψ X * T| ≤ T * ((|z| * (9 / 8 * (1 / 2 ^ 24)) + η) + (M * (1 / 2 ^ 24) + μ) + ε + k * (b / 2 ^ 23 + κ)) := by
      linarith
    refine t9.trans (mul_le_mul_of_nonneg_left ?_ hT0.le)
    generalize k * (b / 2 ^ 23 + κ) = q at *
    norm_num at zM ⊢
    linarith

/-- A node of one curve per channel. -/
theorem runs_tone {g : List (Flt K) → Py (Res K)} {d1 d2 : AVal} {c : Fin 3 → Flt K → Py (Flt K)} {ψ : Fin 3 → K → K} {D ε k C B : K}
    (hg : ∀ (pixels : List ((Fin 3 → K) × List (Flt K))) (F : Fin 3 → K → K), (∀ p ∈ pixels, p.2.length + 3 = 3) →
      (∀ p ∈ pixels, ∀ i : Fin 3, ∃ y, c i (ieee single (toUnitR ieee (.fin (p.1 i)) (some d1))) = .ok y ∧
        ieee single (fromUnitR ieee (ieee single y) (some d2)) = .fin (F i (p.1 i))) →
      ∃ r, g (Spec.image pixels) = .ok r ∧ r.out = Spec.image (pixels.map fun p => (fun i => F i (p.1 i), p.2)))
    (hn : ∀ i, Spec.ToneNear (c i) (ψ i) D ε) (hε : 0 ≤ ε)
    (hψ : ∀ i, Spec.ToneBounds (ψ i) D k C) (hD : B / Spec.fullScale (some d1) * (1 + 1 / 2 ^ 23) + 1 / 2 ^ 100 ≤ D) (hC : C + ε ≤ 2 ^ 90) :
    Runs g (.tone (Spec.fullScale (some d1)) (Spec.fullScale (some d2)) D ε ψ) B
      (Spec.fullScale (some d2) * (k * (B / Spec.fullScale (some d1) / 2 ^ 23 + 1 / 2 ^ 140) + ε + (C + ε) / 2 ^ 22 + 1 / 2 ^ 140))
      (Spec.fullScale (some d2) * (2 * (C + ε) + 1)) := by
  intro pixels hp
  have key : ∀ (i : Fin 3) (x : K), ∃ out, Spec.IsSingle x → |x| ≤ B →
      (∃ y, c i (ieee single (toUnitR ieee (.fin x) (some d1))) = .ok y ∧ ieee single (fromUnitR ieee (ieee single y) (some d2)) = .fin out) ∧
      Spec.IsSingle out ∧ |out| ≤ Spec.fullScale (some d2) * (2 * (C + ε) + 1) ∧
      |out - ψ i (min D (max (-D) (x / Spec.fullScale (some d1)))) * Spec.fullScale (some d2)|
        ≤ Spec.fullScale (some d2) * (k * (B / Spec.fullScale (some d1) / 2 ^ 23 + 1 / 2 ^ 140) + ε + (C + ε) / 2 ^ 22 + 1 / 2 ^ 140) := by
    intro i x
    by_cases hx : Spec.IsSingle x ∧ |x| ≤ B
    · obtain ⟨y, out, h1, h2, h3⟩ := tone_channel (some d1) (some d2) (hn i) hε (hψ i) hD hC hx.1 hx.2
      exact ⟨out, fun _ _ => ⟨⟨y, h1, h2⟩, h3⟩⟩
    · exact ⟨0, fun h h' => absurd ⟨h, h'⟩ hx⟩
  choose F hF using key
  obtain ⟨r, h1, h2⟩ := hg (pixels.map fun p => (p, [])) F (by simp) (by
    intro q hq i
    obtain ⟨p, hp', rfl⟩ := List.mem_map.mp hq
    exact (hF i (p i) (hp p hp' i).1 (hp p hp' i).2).1)
  rw [rgb_image] at h1
  refine ⟨r, fun p i => F i (p i), h1, ?_, fun p hp' => ?_⟩
  · rw [h2, List.map_map, ← rgb_image, List.map_map]
    rfl
  · have := fun i => (hF i (p i) (hp p hp' i).1 (hp p hp' i).2).2
    exact ⟨fun i => ⟨(this i).1, (this i).2.1⟩, fun i => (this i).2.2⟩

/-- Numbers one by one. -/
theorem mapM_image (f : Flt K → Py (Flt K)) (F : Fin 3 → K → K) : ∀ (pixels : List ((Fin 3 → K) × List (Flt K))), (∀ p ∈ pixels, p.2.length + 3 = 3) →
    (∀ p ∈ pixels, ∀ i : Fin 3, f (.fin (p.1 i)) = .ok (.fin (F i (p.1 i)))) →
    (Spec.image pixels).mapM f = .ok (Spec.image (pixels.map fun p => (fun i => F i (p.1 i), p.2)))
  | [], _, _ => rfl
  | p :: ps, h1, h2 => by
    have ih := mapM_image f F ps (fun q hq => h1 q (by simp [hq])) (fun q hq => h2 q (by simp [hq]))
    have e : p.2 = [] := List.eq_nil_of_length_eq_zero (by have := h1 p (by simp); omega)
    have k := h2 p (by simp)
    have e1 : Spec.image (p :: ps) = Spec.fins p.1 ++ Spec.image ps := by simp [Spec.image, e]
    have e2 : Spec.image ((p :: ps).map fun p => (fun i => F i (p.1 i), p.2)) =
        Spec.fins (fun i => F i (p.1 i)) ++ Spec.image (ps.map fun p => (fun i => F i (p.1 i), p.2)) := by simp [Spec.image, e]
    have e3 : (Spec.fins p.1).mapM f = .ok (Spec.fins fun i => F i (p.1 i)) := by
      simp only [Spec.fins, List.ofFn_succ, List.ofFn_zero, List.mapM_cons, List.mapM_nil]
      have k1 := k (Fin.succ 0)
      have k2 := k (Fin.succ 0).succ
      simp only [k 0, k1, k2, py_ok_bind, py_pure]
    rw [e1, e2, py_mapM_append, e3, ih]
    rfl

/-- A Range of any kind. -/
theorem rangeProcessR_image {b : Base K} {d1 d2 : AVal} {cl : Bool} {mi ma mo mx : Option (Flt K)} (h : RangeIs ieee b d1 d2 cl mi ma mo mx)
    (pixels : List ((Fin 3 → K) × List (Flt K))) (hp : ∀ p ∈ pixels, p.2.length + 3 = 3) (F : Fin 3 → K → K)
    (hF : ∀ p ∈ pixels, ∀ i : Fin 3, ∃ y, rangeMidR ieee cl mi ma mo mx (ieee single (toUnitR ieee (.fin (p.1 i)) (some d1))) = .ok y ∧
      ieee single (fromUnitR ieee (ieee single y) (some d2)) = .fin (F i (p.1 i))) :
    ∃ r, rangeProcessR ieee b (Spec.image pixels) = .ok r ∧ r.out = Spec.image (pixels.map fun p => (fun i => F i (p.1 i), p.2)) := by
  rw [h, mapM_image _ F pixels hp fun p hp' i => ?_]
  · exact ⟨_, rfl, rfl⟩
  · obtain ⟨y, h1, h2⟩ := hF p hp' i
    rw [rangeMidR_single _ _ _ _ _ _ _ h1] at h2
    rw [rangeStepR_mid, h1, py_ok_bind, py_pure, h2]

/-- Every node. -/
theorem runs_node {E : Evaluator K} (hE : E.rounding = ieee) (compat : ℕ) {n : Node K} {s : Spec.Stage K} (h : Implements E n s)
    {B l e B' : K} (hg : Spec.Gauge s B l e B') : Runs (n.processR E compat 3) s B e B' := by
  cases h with
  | matrix h ht =>
    cases hg with
    | linear hM hs hB =>
      intro pixels hp
      simp only [Node.processR, leafProcessR, hE]
      exact runs_matrix ht h hM hs hB pixels hp
  | affine h ht =>
    cases hg with
    | linear hM hs hB =>
      intro pixels hp
      simp only [Node.processR, leafProcessR, hE]
      exact runs_affine ht h hM hs hB pixels hp
  | lut1d h hT hV hm0 hm =>
    cases hg with
    | curves hJ hC =>
      intro pixels hp
      simp only [Node.processR, leafProcessR, hE]
      exact runs_curves h hT hV hm0 hm hJ hC pixels hp
  | lut3d h hT hV hm0 hm =>
    cases hg with
    | cube hr hg hb hC =>
      intro pixels hp
      simp only [Node.processR, leafProcessR, hE]
      exact runs_cube h hT hV hm0 hm hr hg hb hC pixels hp
  | tetra h hT hV hm0 hm =>
    cases hg with
    | tetra hr hg hb hC =>
      intro pixels hp
      simp only [Node.processR, leafProcessR, hE]
      exact runs_tetra h hT hV hm0 hm hr hg hb hC pixels hp
  | range h hcl hb hd hi ho =>
    cases hg
    intro pixels hp
    simp only [Node.processR, leafProcessR, hE]
    exact runs_range h hcl hb hd hi ho pixels hp
  | bounds h hD0 hε hn =>
    cases hg with
    | tone hψ hD hC =>
      intro pixels hp
      rw [hE] at h hn
      simp only [Node.processR, leafProcessR, hE]
      exact runs_tone (g := fun image => rangeProcessR ieee _ image) (fun px F h1 h2 => rangeProcessR_image h px h1 F h2) (fun _ => hn) hε hψ hD hC pixels hp
  | cdl h hv hpw hL =>
    cases hg with
    | grade hs ho hφ hN hZ hσ hG =>
      intro pixels hp
      simp only [Node.processR, leafProcessR, hE]
      exact runs_grade E.library compat h hv hpw hL hs ho hφ hN hZ hσ hG pixels hp
  | gamma h hr hf hD0 hε hn =>
    cases hg with
    | tone hψ hD hC =>
      intro pixels hp
      rw [hE] at hf
      simp only [Node.processR, leafProcessR, hE]
      exact runs_tone (g := fun image => gammaProcessR ieee E.library _ _ image 3) (fun px F h1 h2 => gammaProcessR_image ieee E.library _ hr _ _ _ _ h _ hf 3 le_rfl px h1 F h2)
        hn hε hψ hD hC pixels hp
  | log h hr hf hD0 hε hn =>
    cases hg with
    | tone hψ hD hC =>
      intro pixels hp
      rw [hE] at hf hn
      simp only [Node.processR, leafProcessR, hE]
      exact runs_tone (g := fun image => logProcessR ieee E.library _ _ image 3) (fun px F h1 h2 => logProcessR_image ieee E.library _ hr _ _ _ _ h _ hf 3 le_rfl px h1 F h2)
        hn hε hψ hD hC pixels hp
  | exposure h hD0 hε hn =>
    cases hg with
    | tone hψ hD hC =>
      intro pixels hp
      rw [hE] at hn
      simp only [Node.processR, leafProcessR, hE]
      exact runs_tone (g := fun image => ecProcessR ieee E.library _ _ _ _ image 3)
        (fun px F h1 h2 => ecProcessR_image ieee E.library _ _ _ _ _ _ h px h1 F h2) (fun _ => hn) hε hψ hD hC pixels hp
  | map hk hD hε hn =>
    cases hg with
    | map hΦ hB =>
      intro pixels hp
      obtain ⟨r, g, h1, h2, h3⟩ := hn compat pixels fun p hp' i => ⟨(hp p hp' i).1, (hp p hp' i).2.trans hB⟩
      refine ⟨r, g, by simpa only [Node.processR] using h1, h2, fun p hp' => ⟨fun i => ⟨(h3 p hp' i).1, ?_⟩, fun i => ?_⟩⟩
      · have h4 := hΦ.size p (fun j => (hp p hp' j).2.trans hB) i
        have h5 := abs_sub_abs_le_abs_sub (g p i) (_ : K) |>.trans (h3 p hp' i).2
        linarith
      · have e : (fun j => min _ (max (-_) (p j))) = p := funext fun j => clampD_id ((hp p hp' j).2.trans hB)
        simp only [Spec.Stage.eval, e]
        exact (h3 p hp' i).2

/-- Chains. -/
theorem runs_chain {E : Evaluator K} (hE : E.rounding = ieee) (compat : ℕ) (grp : Bool) {ns : List (Node K)} {ss : List (Spec.Stage K)}
    (h : List.Forall₂ (Implements E) ns ss) (hby : ∀ n ∈ ns, n.attr "bypass" = none) {B e e' : K} (hb : Spec.Budget ss B e e')
    (prev : Option Depth) {α : Type} (items : List α) (u v : α → Fin 3 → K) (hu : ∀ x ∈ items, Small B (u x) ∧ Off e (u x) (v x)) (arg : List (Flt K)) (same : Bool) :
    ∃ (r : Res K) (g : α → Fin 3 → K),
      runNodesR E compat 3 grp prev ns ⟨Spec.rgb (items.map u), arg, same⟩ = .ok r ∧ r.out = Spec.rgb (items.map g) ∧
      ∀ x ∈ items, (∀ i, Spec.IsSingle (g x i)) ∧ Off e' (g x) (Spec.evalChain ss (v x)) := by
  induction h generalizing B e u v prev arg same with
  | nil =>
    cases hb
    refine ⟨_, u, by rw [runNodesR], rfl, fun x hx => ⟨fun i => ((hu x hx).1 i).1, (hu x hx).2⟩⟩
  | @cons n s ns ss hn hrest ih =>
    cases hb with
    | @cons _ _ _ _ l d B' _ hg hbs =>
      obtain ⟨r, g, h1, h2, h3⟩ := runs_node hE compat hn hg (items.map u) (by
        intro p hp
        obtain ⟨x, hx, rfl⟩ := List.mem_map.mp hp
        exact (hu x hx).1)
      have hnb : n.attr "bypass" = none := hby n (by simp)
      rw [List.map_map] at h2
      obtain ⟨r', g', k1, k2, k3⟩ := ih (fun n' hn' => hby n' (by simp [hn'])) hbs (some n.outDepth) (fun x => g (u x)) (fun x => s.eval (v x))
        (fun x hx => by
          obtain ⟨a1, a2⟩ := h3 (u x) (List.mem_map.mpr ⟨x, hx, rfl⟩)
          refine ⟨a1, fun i => ?_⟩
          have b1 := a2 i
          have b2 := stage_lipschitz hg hn.wf (hu x hx).2 i
          have e : g (u x) i - s.eval (v x) i = (g (u x) i - s.eval (u x) i) + (s.eval (u x) i - s.eval (v x) i) := by ring
          rw [e]
          exact (abs_add_le _ _).trans (add_le_add b1 b2))
        (if same then r.arg else arg) (same && r.same)
      refine ⟨r', g', ?_, k2, k3⟩
      rw [← k1]
      conv_lhs => unfold runNodesR
      simp only [hnb, Option.isNone_none, Bool.true_or, if_true, h1, py_ok_bind, py_pure, Res.step, h2]
      rfl

end CLF
