import Verif.Lemmas.MapNode
import Verif.Props.RoundedTree

/-!
# C153: lists with half-domain LUTs, LUTs with index maps, and reverse CDLs in IEEE arithmetic
-/

set_option linter.unusedSectionVars false

namespace CLF

variable {K : Type} [Field K] [LinearOrder K] [IsStrictOrderedRing K] [FloorRing K]

/-- C153: a LUT1D with index maps stands for the curves of its columns, after the polygons of the maps; what it adds to the error
of a list, and how much it magnifies what came before. -/
theorem C153_lut1d (E : Evaluator K) (hE : E.rounding = ieee) {b : Base K} {maps : List (List K × List K)} {a : Arr K} (h : MappedLut b maps a)
    (hpos : 0 < maps.length) (hc : maps.length = 1 ∨ 3 ≤ maps.length) (hmaps : ∀ p ∈ maps, Spec.IndexKnots p.1 p.2) {m c : ℕ}
    (hM : ∀ p ∈ maps, ∀ y ∈ p.2, y ≤ (m : K)) {V : Fin (m + 1) → Fin (c + 1) → K} (hT : Table1D a V) (hV : ∀ i j, Spec.IsSingle (V i j))
    (hm0 : 0 < m) (hm : m < 2 ^ 53) {J C q : K} (hJ : ∀ i : Fin 3, Spec.StepsWithin (fun k => V k (Spec.column c i)) J)
    (hC : ∀ (i : Fin 3) k, |V k (Spec.column c i)| ≤ C) (hq : ∀ p ∈ maps, Spec.SlopesWithin p.1 p.2 q) {D ε : K} (hD : 0 ≤ D)
    (hε : ε = (J * m + C) / 2 ^ 23 + 2 ^ (-150 : ℤ) + J * m * (1 / 2 ^ 22)) {Φ : (Fin 3 → K) → Fin 3 → K}
    (hΦ : Φ = fun (p : Fin 3 → K) (i : Fin 3) => Spec.polyline (fun k => V k (Spec.column c i))
      (Spec.indexCurve (Spec.mapOf maps hpos i).1 (Spec.mapOf maps hpos i).2 (p i) / m)) :
    Implements E (.leaf .lut1d b) (.map D ε Φ) ∧ ∀ B ≤ D, Spec.Gauge (.map D ε Φ) B (J * q) ε (C + ε) := by
  have hJ0 := step_nonneg hm0 (hJ 0)
  have hC0 : 0 ≤ C := (abs_nonneg _).trans (hC 0 0)
  subst hε hΦ
  exact ⟨.map (by simp) hD (by positivity) (mapped_near E hE h hpos hc hmaps hM hT hV hm0 hm hJ hC D),
    fun B hB => .map (mapped_bounds hm0 hpos hmaps hq hJ hC D) hB⟩

/-- C153: the same for a trilinear LUT3D with index maps. -/
theorem C153_cube (E : Evaluator K) (hE : E.rounding = ieee) {b : Base K} {maps : List (List K × List K)} {a : Arr K}
    (h : MappedLut3 b maps (.str "trilinear") a) (hpos : 0 < maps.length) (hc : maps.length = 1 ∨ 3 ≤ maps.length)
    (hmaps : ∀ p ∈ maps, Spec.IndexKnots p.1 p.2) {m : ℕ} (hM : ∀ p ∈ maps, ∀ y ∈ p.2, y ≤ (m : K))
    {V : Fin (m + 1) → Fin (m + 1) → Fin (m + 1) → Fin 3 → K} (hT : Table3D a V) (hV : ∀ i j k ch, Spec.IsSingle (V i j k ch))
    (hm0 : 0 < m) (hm : m < 2 ^ 53) {J C q : K} (hr : ∀ i g b, Spec.StepsWithin (fun r => V r g b i) J)
    (hg : ∀ i r b, Spec.StepsWithin (fun g => V r g b i) J) (hb : ∀ i r g, Spec.StepsWithin (fun b => V r g b i) J)
    (hC : ∀ i r g b, |V r g b i| ≤ C) (hq : ∀ p ∈ maps, Spec.SlopesWithin p.1 p.2 q) {D ε : K} (hD : 0 ≤ D)
    (hε : ε = (3 * J * m + C) / 2 ^ 23 + 2 ^ (-150 : ℤ) + 3 * J * m * (1 / 2 ^ 22)) {Φ : (Fin 3 → K) → Fin 3 → K}
    (hΦ : Φ = fun p : Fin 3 → K => Spec.Stage.eval (.cube 1 m fun ch i j k => V i j k ch) fun i =>
      Spec.indexCurve (Spec.mapOf maps hpos i).1 (Spec.mapOf maps hpos i).2 (p i) / m) :
    Implements E (.leaf .lut3d b) (.map D ε Φ) ∧ ∀ B ≤ D, Spec.Gauge (.map D ε Φ) B (3 * J * q) ε (C + ε) := by
  have hJ0 := step_nonneg hm0 (hr 0 0 0)
  have hC0 : 0 ≤ C := (abs_nonneg _).trans (hC 0 0 0 0)
  have h1 := mapped_cube_near E hE h hpos hc hmaps hM hT hV hm0 hm hr hg hb hC D
  have h2 := mapped_cube_bounds hm0 hpos hmaps hq (W := fun ch i j k => V i j k ch) hr hg hb hC D
  rw [← hε, ← hΦ] at h1
  rw [← hΦ] at h2
  exact ⟨.map (by simp) hD (by rw [hε]; positivity) h1, fun B hB => .map h2 hB⟩

/-- C153: the same for a tetrahedral one. -/
theorem C153_tetra (E : Evaluator K) (hE : E.rounding = ieee) {b : Base K} {maps : List (List K × List K)} {a : Arr K}
    (h : MappedLut3 b maps (.str "tetrahedral") a) (hpos : 0 < maps.length) (hc : maps.length = 1 ∨ 3 ≤ maps.length)
    (hmaps : ∀ p ∈ maps, Spec.IndexKnots p.1 p.2) {m : ℕ} (hM : ∀ p ∈ maps, ∀ y ∈ p.2, y ≤ (m : K))
    {V : Fin (m + 1) → Fin (m + 1) → Fin (m + 1) → Fin 3 → K} (hT : Table3D a V) (hV : ∀ i j k ch, Spec.IsSingle (V i j k ch))
    (hm0 : 0 < m) (hm : m < 2 ^ 53) {J C q : K} (hr : ∀ i g b, Spec.StepsWithin (fun r => V r g b i) J)
    (hg : ∀ i r b, Spec.StepsWithin (fun g => V r g b i) J) (hb : ∀ i r g, Spec.StepsWithin (fun b => V r g b i) J)
    (hC : ∀ i r g b, |V r g b i| ≤ C) (hq : ∀ p ∈ maps, Spec.SlopesWithin p.1 p.2 q) {D ε : K} (hD : 0 ≤ D)
    (hε : ε = (3 * J * m + C) / 2 ^ 23 + 2 ^ (-150 : ℤ) + 3 * J * m * (1 / 2 ^ 22)) {Φ : (Fin 3 → K) → Fin 3 → K}
    (hΦ : Φ = fun p : Fin 3 → K => Spec.Stage.eval (.tetra 1 m fun ch i j k => V i j k ch) fun i =>
      Spec.indexCurve (Spec.mapOf maps hpos i).1 (Spec.mapOf maps hpos i).2 (p i) / m) :
    Implements E (.leaf .lut3d b) (.map D ε Φ) ∧ ∀ B ≤ D, Spec.Gauge (.map D ε Φ) B (3 * J * q) ε (C + ε) := by
  have hJ0 := step_nonneg hm0 (hr 0 0 0)
  have hC0 : 0 ≤ C := (abs_nonneg _).trans (hC 0 0 0 0)
  have h1 := mapped_tetra_near E hE h hpos hc hmaps hM hT hV hm0 hm hr hg hb hC D
  have h2 := mapped_tetra_bounds hm0 hpos hmaps hq (W := fun ch i j k => V i j k ch) hr hg hb hC D
  rw [← hε, ← hΦ] at h1
  rw [← hΦ] at h2
  exact ⟨.map (by simp) hD (by rw [hε]; positivity) h1, fun B hB => .map h2 hB⟩

/-- C153: a half-domain LUT1D whose entries follow curves, on colours that stay within the range of halves. -/
theorem C153_half (E : Evaluator K) (hE : E.rounding = ieee) {b : Base K} (ht : E.table b = half ∨ E.table b = single ∨ E.table b = double)
    {din : AVal} {a : Arr K} (h : HalfLut b din a) {c : ℕ} {T : Fin 65536 → Fin (c + 1) → Flt K} {V : ℕ → Fin (c + 1) → K} (hT : HalfTable a T V)
    (hV : ∀ n, Spec.halfFinite n → ∀ j, Spec.IsSingle (V n j)) {ψ : Fin 3 → K → K} {D D' k η C C' ε : K}
    (hψ : ∀ i, Spec.ToneBounds (ψ i) D' k C') (hH : ∀ i : Fin 3, Spec.HalfCurve (fun n => V n (Spec.column c i)) (ψ i) D' η C)
    (hD0 : 0 ≤ D) (hη : 0 ≤ η) (hC0 : 0 ≤ C)
    (hD : ((Spec.fullScale (some din) : K) = 1 ∧ D ≤ D') ∨ D / Spec.fullScale (some din) * (1 + 1 / 2 ^ 23) + 1 / 2 ^ 100 ≤ D') (hD' : D' ≤ 65504)
    (hε : ε = k * (D / Spec.fullScale (some din) / 2 ^ 23 + 2 ^ (-148 : ℤ)) + η + C / 2 ^ 23 + 2 ^ (-148 : ℤ)) :
    Implements E (.leaf .lut1d b) (.map D ε fun p i => ψ i (p i / Spec.fullScale (some din))) ∧
      ∀ B ≤ D, Spec.Gauge (.map D ε fun p i => ψ i (p i / Spec.fullScale (some din))) B (k / Spec.fullScale (some din)) ε (C' + ε) := by
  have hS : (0 : K) < Spec.fullScale (some din) := fullScale_pos _
  have hk := (hψ 0).nonneg
  have hDS : 0 ≤ D / Spec.fullScale (some din) := div_nonneg hD0 hS.le
  refine ⟨.map (by simp) hD0 (by rw [hε]; positivity) (hε ▸ half_near E hE ht h hT hV hψ hH hD hD'), fun B hB => .map (half_bounds hS hψ ?_) hB⟩
  rcases hD with ⟨e, hD⟩ | hD
  · rwa [e, div_one]
  · have h100 : (0 : K) < 1 / 2 ^ 100 := by positivity
    have : 0 ≤ D / Spec.fullScale (some din) * (1 / 2 ^ 23) := by positivity
    linarith

/-- C153: a CDL node of style `Rev`. -/
theorem C153_rev (E : Evaluator K) (hE : E.rounding = ieee) {ns : Bool} {v : CdlValues K} {b : Base K} {din dout : AVal} {s o p : Fin 3 → K}
    {φ : Fin 3 → K → K} {σ O m k : K} (h : StyledNode b din dout (.str "Rev")) (hv : CdlIs v s o p σ) (hu : Spec.Undoable s o p σ O m)
    (hL : ∀ i e, double.round (.fin (1 / p i)) = .fin e → Spec.PowerNear E.library e (φ i)) (hφ : ∀ i, Spec.Curve (φ i) k) {D ε : K} (hD : 0 ≤ D)
    (hε : ε = Spec.fullScale (some dout) * ((k * ((1 + 2 / |σ|) * (1 / 2 ^ 23)) + (1 + O) * (1 / 2 ^ 39)) / m + 1 / 2 ^ 22)) {Φ : (Fin 3 → K) → Fin 3 → K}
    (hΦ : Φ = Spec.reversed (Spec.fullScale (some din)) (Spec.fullScale (some dout)) s o φ σ) :
    Implements E (.leaf (.cdl ns v) b) (.map D ε Φ) ∧
      ∀ B ≤ D, Spec.Gauge (.map D ε Φ) B (Spec.fullScale (some dout) * (k * (1 + 2 / |σ|) / (m * Spec.fullScale (some din)))) ε
        (Spec.fullScale (some dout) + ε) := by
  have hS : (0 : K) < Spec.fullScale (some din) := fullScale_pos _
  have hT : (0 : K) < Spec.fullScale (some dout) := fullScale_pos _
  have hk := curve_nonneg (hφ 0)
  have hO : 0 ≤ O := (abs_nonneg _).trans (hu.offset 0)
  have hm0 : 0 < m := lt_of_lt_of_le (by positivity) hu.small.1
  subst hΦ
  exact ⟨.map (by simp) hD (by rw [hε]; positivity) (hε ▸ rev_near E hE h hv hu hL (fun i => curve_modulus (hφ i) _) D),
    fun B hB => .map (rev_bounds hS hT hm0 hu.slope hφ D) hB⟩

/-- C153: a CDL node of style `RevNoClamp`, on colours up to full scale of either sign. -/
theorem C153_free (E : Evaluator K) (hE : E.rounding = ieee) {ns : Bool} {v : CdlValues K} {b : Base K} {din dout : AVal} {s o p : Fin 3 → K}
    {φ : Fin 3 → K → K} {σ O m k : K} (h : StyledNode b din dout (.str "RevNoClamp")) (hv : CdlIs v s o p σ) (hu : Spec.Undoable s o p σ O m)
    (hm : 1 / 2 ^ 60 ≤ m) (hL : ∀ i e, double.round (.fin (1 / p i)) = .fin e → Spec.PowerNear E.library e (φ i))
    (hL0 : ∀ e : K, 0 < e → E.library.pow (.fin 0) (.fin e) = .fin 0) (hφ : ∀ i, Spec.Curve (φ i) k) {ε : K}
    (hε : ε = Spec.fullScale (some dout) * ((k * ((1 + 2 / |σ|) * (1 / 2 ^ 23)) + (1 + O) * (5 / 2 ^ 22)) / m)) {Φ : (Fin 3 → K) → Fin 3 → K}
    (hΦ : Φ = Spec.reversedFree (Spec.fullScale (some din)) (Spec.fullScale (some dout)) s o φ σ) :
    Implements E (.leaf (.cdl ns v) b) (.map (Spec.fullScale (some din)) ε Φ) ∧
      ∀ B ≤ Spec.fullScale (some din), Spec.Gauge (.map (Spec.fullScale (some din)) ε Φ) B
        (Spec.fullScale (some dout) * (k * (1 + 2 / |σ|) / (m * Spec.fullScale (some din)))) ε (Spec.fullScale (some dout) * ((1 + O) / m) + ε) := by
  have hS : (0 : K) < Spec.fullScale (some din) := fullScale_pos _
  have hT : (0 : K) < Spec.fullScale (some dout) := fullScale_pos _
  have hk := curve_nonneg (hφ 0)
  have hO : 0 ≤ O := (abs_nonneg _).trans (hu.offset 0)
  have hm0 : 0 < m := lt_of_lt_of_le (by positivity) hu.small.1
  subst hΦ
  exact ⟨.map (by simp) hS.le (by rw [hε]; positivity) (hε ▸ revFree_near E hE h hv hu hm hL hL0 (fun i => curve_modulus (hφ i) _)),
    fun B hB => .map (revFree_bounds hS hT hm0 hu.slope hu.offset hφ _) hB⟩

/-! ## Tables sampled from a curve -/

theorem mag_step (c : ℕ) : (half.magVal (c + 1) : K) - half.magVal c ≤ half.magVal c / 2 ^ 10 + 2 ^ (-24 : ℤ) := by
  obtain ⟨e, k, rfl, hk, h⟩ := half.exists_split c
  rw [Nat.add_assoc, Fmt.magVal_split half e (k + 1) hk (by omega), Fmt.magVal_split half e k hk.le h]
  have hu := two_zpow_pos (K := K) ((e : ℤ) + 1 - half.bias - half.mant)
  have h24 := two_zpow_pos (K := K) (-24)
  rcases h with h | h
  · subst h
    have e1 : ((0 : ℕ) : ℤ) + 1 - half.bias - half.mant = -24 := by decide
    rw [e1]
    generalize (2 : K) ^ (-24 : ℤ) = z at *
    have : (0 : K) ≤ k := k.cast_nonneg
    have : 0 ≤ (k : K) * z / 2 ^ 10 := by positivity
    push_cast
    linarith
  · have hk' : (2 : K) ^ 10 ≤ k := by exact_mod_cast h
    generalize (2 : K) ^ ((e : ℤ) + 1 - half.bias - half.mant) = u at *
    have : u ≤ (k : K) * u / 2 ^ 10 := by
      rw [le_div_iff₀ (by positivity), mul_comm]
      exact mul_le_mul_of_nonneg_right hk' hu.le
    push_cast
    linarith

/-- Neighbouring halves and what lies between. -/
theorem half_step {i j : ℕ} (h : Spec.halfNeighbours i j) {w : K} (h0 : 0 ≤ w) (h1 : w ≤ 1) :
    |(Spec.halfValue j - Spec.halfValue i : K)| ≤ |(1 - w) * Spec.halfValue i + w * Spec.halfValue j| / 2 ^ 10 + 2 ^ (-24 : ℤ) := by
  have key : ∀ c d : ℕ, c ≤ d + 1 → d ≤ c + 1 → |(half.magVal d - half.magVal c : K)| ≤
      ((1 - w) * half.magVal c + w * half.magVal d) / 2 ^ 10 + 2 ^ (-24 : ℤ) := by
    have low : ∀ (x y t : K), x ≤ y → 0 ≤ t → t ≤ 1 → x ≤ (1 - t) * x + t * y := fun x y t h a b => by nlinarith
    intro c d hcd hdc
    have h24 := two_zpow_pos (K := K) (-24)
    rcases lt_trichotomy c d with h | h | h
    · obtain rfl : d = c + 1 := by omega
      have a1 := mag_step (K := K) c
      have a2 := (Fmt.magVal_succ (K := K) half c).le
      rw [abs_of_nonneg (by linarith)]
      have a3 := low _ _ w a2 h0 h1
      have a4 : (half.magVal c : K) / 2 ^ 10 ≤ ((1 - w) * half.magVal c + w * half.magVal (c + 1)) / 2 ^ 10 :=
        div_le_div_of_nonneg_right a3 (by positivity)
      linarith
    · subst h
      rw [sub_self, abs_zero]
      have := Fmt.magVal_nonneg (K := K) half c
      have : 0 ≤ (1 - w) * half.magVal c + w * half.magVal c := by nlinarith
      positivity
    · obtain rfl : c = d + 1 := by omega
      have a1 := mag_step (K := K) d
      have a2 := (Fmt.magVal_succ (K := K) half d).le
      rw [abs_sub_comm, abs_of_nonneg (by linarith)]
      have a3 := low _ _ (1 - w) a2 (by linarith) (by linarith)
      rw [sub_sub_cancel, add_comm] at a3
      have a4 : (half.magVal d : K) / 2 ^ 10 ≤ ((1 - w) * half.magVal (d + 1) + w * half.magVal d) / 2 ^ 10 :=
        div_le_div_of_nonneg_right a3 (by positivity)
      linarith
  obtain ⟨f1, f2, hs, h3, h4⟩ := h
  rw [halfFinite_iff] at f1 f2
  rcases f1 with f1 | f1
  · have f2' : j < 31744 := by omega
    rw [← half_magVal i f1, ← half_magVal j f2']
    exact (key i j h3 h4).trans (add_le_add_left (div_le_div_of_nonneg_right (le_abs_self _) (by positivity)) _)
  · obtain ⟨c, rfl⟩ : ∃ c, i = 32768 + c := ⟨i - 32768, by omega⟩
    obtain ⟨d, rfl⟩ : ∃ d, j = 32768 + d := ⟨j - 32768, by omega⟩
    rw [halfValue_neg c (by omega), halfValue_neg d (by omega), ← half_magVal c (by omega), ← half_magVal d (by omega)]
    have := key c d (by omega) (by omega)
    rw [show -half.magVal d - -half.magVal c = -(half.magVal d - half.magVal c : K) by ring, abs_neg,
      show (1 - w) * -half.magVal c + w * -half.magVal d = -((1 - w) * half.magVal c + w * half.magVal d : K) by ring, abs_neg]
    exact this.trans (add_le_add_left (div_le_div_of_nonneg_right (le_abs_self _) (by positivity)) _)

/-- C153: a half-domain table whose entries are within `δ` of a curve at the halves follows the curve between them too: the error of the
straight lines is half the slope of the curve times the distance of neighbouring halves. -/
theorem C153_samples {V : ℕ → K} {ψ : K → K} {D k C δ : K} (hψ : Spec.ToneBounds ψ 65504 k C)
    (hV : ∀ n, Spec.halfFinite n → |V n - ψ (Spec.halfValue n)| ≤ δ) :
    Spec.HalfCurve V ψ D (δ + k * (D / 2 ^ 11 + 1 / 2 ^ 25)) (C + δ) where
  near i j w hn w0 w1 hD := by
    have hi := half_le (K := K) hn.1
    have hj := half_le (K := K) hn.2.1
    have g1 := half_step (K := K) hn w0 (by linarith)
    have hv1 := hV i hn.1
    have hv2 := hV j hn.2.1
    have hz : (2 : K) ^ (-24 : ℤ) = 1 / 2 ^ 24 := by norm_num
    rw [hz] at g1
    generalize (Spec.halfValue i : K) = a at *
    generalize (Spec.halfValue j : K) = b at *
    have hw1 : 0 ≤ 1 - w := by linarith
    have hm : |(1 - w) * a + w * b| ≤ 65504 := by
      refine (abs_add_le _ _).trans ?_
      rw [abs_mul, abs_mul, abs_of_nonneg hw1, abs_of_nonneg w0]
      nlinarith
    have c1 := hψ.close a ((1 - w) * a + w * b) hi hm
    have c2 := hψ.close b ((1 - w) * a + w * b) hj hm
    have e1 : a - ((1 - w) * a + w * b) = -(w * (b - a)) := by ring
    have e2 : b - ((1 - w) * a + w * b) = (1 - w) * (b - a) := by ring
    rw [e1, abs_neg, abs_mul, abs_of_nonneg w0] at c1
    rw [e2, abs_mul, abs_of_nonneg hw1] at c2
    have e3 : (1 - w) * V i + w * V j - ψ ((1 - w) * a + w * b) =
        ((1 - w) * (V i - ψ a) + w * (V j - ψ b)) + ((1 - w) * (ψ a - ψ ((1 - w) * a + w * b)) + w * (ψ b - ψ ((1 - w) * a + w * b))) := by ring
    rw [e3]
    have k0 := hψ.nonneg
    have t1 : |(1 - w) * (V i - ψ a) + w * (V j - ψ b)| ≤ δ := by
      refine (abs_add_le _ _).trans ?_
      rw [abs_mul, abs_mul, abs_of_nonneg hw1, abs_of_nonneg w0]
      nlinarith
    have t2 : |(1 - w) * (ψ a - ψ ((1 - w) * a + w * b)) + w * (ψ b - ψ ((1 - w) * a + w * b))| ≤ k * |b - a| * (2 * (w * (1 - w))) := by
      refine (abs_add_le _ _).trans ?_
      rw [abs_mul, abs_mul, abs_of_nonneg hw1, abs_of_nonneg w0]
      have s1 := mul_le_mul_of_nonneg_left c1 hw1
      have s2 := mul_le_mul_of_nonneg_left c2 w0
      linarith
    have t3 : 2 * (w * (1 - w)) ≤ 1 / 2 := by nlinarith [sq_nonneg (2 * w - 1)]
    have t4 : |b - a| ≤ D / 2 ^ 10 + 1 / 2 ^ 24 := g1.trans (add_le_add_left (div_le_div_of_nonneg_right hD (by positivity)) _)
    have t5 : k * |b - a| * (2 * (w * (1 - w))) ≤ k * |b - a| * (1 / 2) := mul_le_mul_of_nonneg_left t3 (mul_nonneg k0 (abs_nonneg _))
    have t6 : k * |b - a| ≤ k * (D / 2 ^ 10 + 1 / 2 ^ 24) := mul_le_mul_of_nonneg_left t4 k0
    refine (abs_add_le _ _).trans (add_le_add t1 (t2.trans (t5.trans ?_)))
    refine (mul_le_mul_of_nonneg_right t6 (by norm_num)).trans_eq ?_
    ring
  size i j w hn _ _ _ := by
    have q : ∀ n, Spec.halfFinite n → |V n| ≤ C + δ := fun n hf => by
      have h1 := abs_sub_abs_le_abs_sub (V n) (ψ (Spec.halfValue n))
      have h2 := hψ.size _ (half_le (K := K) hf)
      have h3 := hV n hf
      linarith
    exact ⟨q i hn.1, q j hn.2.1⟩

/-! ## Examples -/

/-- The entry of each half is that half. -/
structure Spec.OwnHalves (b : Base K) (T : Fin 65536 → Fin 1 → Flt K) : Prop where
  base : b = { attrs := [("inBitDepth", .str "16f"), ("outBitDepth", .str "16f"), ("interpolation", .str "linear"), ("halfDomain", .str "true")]
               elements := [.array (constHalf T)] }
  entries : ∀ n j, T n j = half.decode (n : ℕ)

theorem ownHalves_exists : ∃ (b : Base K) (T : Fin 65536 → Fin 1 → Flt K), Spec.OwnHalves b T :=
  ⟨_, fun n _ => half.decode (n : ℕ), rfl, fun _ _ => rfl⟩

theorem ownHalves_table {b : Base K} {T : Fin 65536 → Fin 1 → Flt K} (h : Spec.OwnHalves b T) :
    HalfTable (c := 0) (constHalf T) T (fun n _ => Spec.halfValue n) where
  dims := ⟨[], by simp only [constHalf]⟩
  values := by simp only [constHalf]
  columns := .inl rfl
  finite n hn j := by rw [h.entries, half_decode _ hn]

/-- Straight lines between halves, on numbers up to 1. -/
theorem ownHalves_curve : Spec.HalfCurve (K := K) (fun n => Spec.halfValue n) (fun x => x) 1 0 2 where
  near i j w _ _ _ _ := by rw [sub_self, abs_zero]
  size i j w hn w0 w1 hD := by
    have g1 := half_step (K := K) hn w0 (by linarith)
    have hz : (2 : K) ^ (-24 : ℤ) = 1 / 2 ^ 24 := by norm_num
    rw [hz] at g1
    generalize (Spec.halfValue i : K) = a at *
    generalize (Spec.halfValue j : K) = b at *
    have g2 : |b - a| ≤ 1 / 2 := by
      have : |(1 - w) * a + w * b| / 2 ^ 10 ≤ 1 / 2 ^ 10 := div_le_div_of_nonneg_right hD (by positivity)
      norm_num at this g1 ⊢
      linarith
    have e1 : a = ((1 - w) * a + w * b) - w * (b - a) := by ring
    have e2 : b = ((1 - w) * a + w * b) + (1 - w) * (b - a) := by ring
    have n0 := abs_nonneg (b - a)
    constructor
    · rw [e1]
      refine (abs_sub _ _).trans ?_
      rw [abs_mul, abs_of_nonneg w0]
      nlinarith
    · rw [e2]
      refine (abs_add_le _ _).trans ?_
      rw [abs_mul, abs_of_nonneg (by linarith : (0 : K) ≤ 1 - w)]
      nlinarith

def undoValues : CdlValues ℚ := { slope := some (Spec.fins ![2, 1, 1 / 2]), saturation := some (.fin (1 / 2)) }

def undoBase (st : String) : Base ℚ := { attrs := [("inBitDepth", .str "16f"), ("outBitDepth", .str "16f"), ("style", .str st)] }

theorem undo_power (i : Fin 3) (e : ℚ) (he : double.round (.fin (1 / (fun _ : Fin 3 => (1 : ℚ)) i)) = .fin e) :
    Spec.PowerNear ratArith e ((fun _ b => b : Fin 3 → ℚ → ℚ) i) := by
  have h : double.round (.fin (1 / 1 : ℚ)) = .fin 1 := by decide +kernel
  obtain rfl : e = 1 := Flt.fin.inj (he.symm.trans h)
  exact fun b _ _ _ => ⟨b, rfl, by simp⟩

theorem undo_is : CdlIs undoValues ![2, 1, 1 / 2] (fun _ => 0) (fun _ => 1) (1 / 2) := ⟨.inl rfl, .inr ⟨rfl, rfl⟩, .inr ⟨rfl, rfl⟩, .inl rfl⟩

theorem undo_able : Spec.Undoable (![2, 1, 1 / 2] : Fin 3 → ℚ) (fun _ => 0) (fun _ => 1) (1 / 2) 0 (1 / 2) :=
  ⟨by decide +kernel, by simp, by norm_num, by decide +kernel, by norm_num, by norm_num⟩

theorem straight : Spec.Curve (fun x : ℚ => x) 1 := ⟨fun _ h0 h1 => ⟨h0, h1⟩, fun x y _ _ _ _ => by rw [one_mul]⟩

/-- A half-domain table and then a reverse CDL that undoes slopes 2, 1 and 1/2 and half the saturation, on all `float32` colours up to 1. -/
example {b : Base ℚ} {T : Fin 65536 → Fin 1 → Flt ℚ} (h : Spec.OwnHalves b T) (pixels : List (Fin 3 → ℚ))
    (hp : ∀ p ∈ pixels, ∀ i, Spec.IsSingle (p i) ∧ |p i| ≤ 1) :
    ∃ g : (Fin 3 → ℚ) → Fin 3 → ℚ, processListR ⟨ieee, fun _ => single, ratArith⟩ 0
        [.leaf .lut1d b, .leaf (.cdl false undoValues) (undoBase "Rev")] (Spec.rgb pixels) 3 = .ok (Spec.rgb (pixels.map g)) ∧
      ∀ p ∈ pixels, ∀ i, |g p i - Spec.reversed 1 1 ![2, 1, 1 / 2] (fun _ => 0) (fun _ x => x) (1 / 2) p i| ≤ 1 / 10 ^ 5 := by
  have hfs : (Spec.fullScale (some (.str "16f")) : ℚ) = 1 := by simp [Spec.fullScale, Spec.bits]
  have hb : HalfLut b (.str "16f") (constHalf T) := by
    rw [h.base]
    exact ⟨rfl, rfl, by simp [Base.styleOf, Dict.get?], rfl, rfl, rfl⟩
  obtain ⟨i1, g1⟩ := C153_half ⟨ieee, fun _ => single, ratArith⟩ rfl (.inr (.inl rfl)) hb (ownHalves_table h) (fun n hn _ => isSingle_half hn)
    (ψ := fun _ x => x) (D := 1) (D' := 1) (k := 1) (η := 0) (C := 2) (C' := 1)
    (fun _ => ⟨zero_le_one, fun _ h => h, fun x y _ _ => by rw [one_mul]⟩) (fun _ => ownHalves_curve) zero_le_one le_rfl (by norm_num)
    (.inl ⟨hfs, le_rfl⟩) (by norm_num) rfl
  obtain ⟨i2, g2⟩ := C153_rev ⟨ieee, fun _ => single, ratArith⟩ rfl (ns := false) (b := undoBase "Rev") (din := .str "16f") (dout := .str "16f")
    ⟨rfl, rfl, rfl⟩ undo_is undo_able undo_power (fun _ => straight) (D := 2) zero_le_two rfl rfl
  have hc : Carries ⟨ieee, fun _ => single, ratArith⟩ 0 false none [.leaf .lut1d b, .leaf (.cdl false undoValues) (undoBase "Rev")] _ :=
    .node (.inl (by rw [h.base]; rfl)) i1 (.node (.inl rfl) i2 .nil)
  have hbud := Spec.Budget.cons (e := 0) (g1 1 le_rfl) (.cons (g2 _ (by rw [hfs]; norm_num)) .nil)
  obtain ⟨g, h1, h2⟩ := C148_list _ rfl 0 _ _ hc 1 _ hbud pixels hp
  refine ⟨g, h1, fun p hp' i => ?_⟩
  have h3 := (h2 p hp' i).2
  have e1 : (fun j => min (2 : ℚ) (max (-2) (min 1 (max (-1) (p j)) / Spec.fullScale (some (.str "16f"))))) = p := by
    funext j
    have := (hp p hp' j).2
    rw [hfs, div_one, clampD_id this, clampD_id (this.trans one_le_two)]
  simp only [Spec.evalChain, Spec.Stage.eval, e1] at h3
  rw [hfs] at h3
  refine h3.trans ?_
  norm_num [abs_of_pos]

/-- The cube of `mappedCube`. -/
def firstCube (st : String) : Spec.Stage ℚ :=
  if st = "trilinear" then .cube 1 2 fun ch i j k => rotatedCube i j k ch else .tetra 1 2 fun ch i j k => rotatedCube i j k ch

/-- Code values of 8 bit through index maps and a cube, and through another cube, with either interpolation. -/
example (st : String) (hst : st = "trilinear" ∨ st = "tetrahedral") (lib : Arith ℚ) (pixels : List (Fin 3 → ℚ))
    (hp : ∀ p ∈ pixels, ∀ i, Spec.IsSingle (p i) ∧ |p i| ≤ 255) :
    ∃ g : (Fin 3 → ℚ) → Fin 3 → ℚ, processListR ⟨ieee, fun _ => double, lib⟩ 0
        [.leaf .lut3d (mappedCube st), .leaf .lut3d (rotatedLut "trilinear")] (Spec.rgb pixels) 3 = .ok (Spec.rgb (pixels.map g)) ∧
      ∀ p ∈ pixels, ∀ i, |g p i - Spec.Stage.eval (.cube 1 2 fun ch i j k => rotatedCube i j k ch)
        ((firstCube st).eval fun j => Spec.indexCurve [16, 100, 235] [0, 1, 2] (p j) / 2) i| ≤ 1 / 10 ^ 5 := by
  have hc : Implements ⟨ieee, fun _ => double, lib⟩ (.leaf .lut3d (rotatedLut "trilinear")) (.cube 1 2 fun ch i j k => rotatedCube i j k ch) :=
    .lut3d (din := .str "32f") ⟨rfl, rfl, rfl, rfl, rfl⟩ ⟨⟨[3], rfl⟩, rfl⟩ rotatedCube_single (by norm_num) (by norm_num)
  have hs : ∀ f : Fin 3 → ℚ, |f 1 - f 0| ≤ 1 / 2 → |f 2 - f 1| ≤ 1 / 2 → Spec.StepsWithin f (1 / 2) := by
    intro f h1 h2 k hk
    obtain rfl | rfl : k = 0 ∨ k = 1 := by omega
    · exact h1
    · exact h2
  have s1 : ∀ i g b : Fin 3, Spec.StepsWithin (m := 2) (fun r => rotatedCube r g b i) (1 / 2) :=
    fun i g b => hs _ (by revert i g b; decide +kernel) (by revert i g b; decide +kernel)
  have s2 : ∀ i r b : Fin 3, Spec.StepsWithin (m := 2) (fun g => rotatedCube r g b i) (1 / 2) :=
    fun i g b => hs _ (by revert i g b; decide +kernel) (by revert i g b; decide +kernel)
  have s3 : ∀ i r g : Fin 3, Spec.StepsWithin (m := 2) (fun b => rotatedCube r g b i) (1 / 2) :=
    fun i g b => hs _ (by revert i g b; decide +kernel) (by revert i g b; decide +kernel)
  have s4 : ∀ i r g b : Fin 3, |rotatedCube r g b i| ≤ 1 := by decide +kernel
  have hq : ∀ p ∈ ([([16, 100, 235], [0, 1, 2])] : List (List ℚ × List ℚ)), Spec.SlopesWithin p.1 p.2 (1 / 84) := by
    simp only [List.mem_singleton, forall_eq, Spec.SlopesWithin]
    norm_num
  have hk : ∀ p ∈ ([([16, 100, 235], [0, 1, 2])] : List (List ℚ × List ℚ)), Spec.IndexKnots p.1 p.2 := by simpa using mappedCube_knots
  have hM : ∀ p ∈ ([([16, 100, 235], [0, 1, 2])] : List (List ℚ × List ℚ)), ∀ y ∈ p.2, y ≤ ((2 : ℕ) : ℚ) := by decide +kernel
  have key : ∃ s : Spec.Stage ℚ, Implements ⟨ieee, fun _ => double, lib⟩ (.leaf .lut3d (mappedCube st)) s ∧ ∃ ε B', ε ≤ 1 / 10 ^ 6 * 2 ∧
      Spec.Gauge s 255 (3 * (1 / 2) * (1 / 84)) ε B' ∧
      ∀ p : Fin 3 → ℚ, (∀ j, |p j| ≤ 255) → s.eval p = (firstCube st).eval fun j => Spec.indexCurve [16, 100, 235] [0, 1, 2] (p j) / 2 := by
    have cl : ∀ p : Fin 3 → ℚ, (∀ j, |p j| ≤ 255) → (fun j => min (255 : ℚ) (max (-255) (p j))) = p := fun p h => funext fun j => clampD_id (h j)
    rcases hst with rfl | rfl
    · obtain ⟨i1, g1⟩ := C153_cube ⟨ieee, fun _ => double, lib⟩ rfl (b := mappedCube "trilinear") (maps := [([16, 100, 235], [0, 1, 2])])
        ⟨rfl, rfl, rfl, ⟨[3], rfl, rfl⟩, rfl⟩ (by decide) (.inl rfl) hk (m := 2) hM (V := rotatedCube) ⟨⟨[3], rfl⟩, rfl⟩ rotatedCube_single
        (by norm_num) (by norm_num) s1 s2 s3 s4 hq (D := 255) (by norm_num) rfl rfl
      exact ⟨_, i1, _, _, by norm_num, g1 255 le_rfl, fun p h => by rw [Spec.Stage.eval, cl p h]; rfl⟩
    · obtain ⟨i1, g1⟩ := C153_tetra ⟨ieee, fun _ => double, lib⟩ rfl (b := mappedCube "tetrahedral") (maps := [([16, 100, 235], [0, 1, 2])])
        ⟨rfl, rfl, rfl, ⟨[3], rfl, rfl⟩, rfl⟩ (by decide) (.inl rfl) hk (m := 2) hM (V := rotatedCube) ⟨⟨[3], rfl⟩, rfl⟩ rotatedCube_single
        (by norm_num) (by norm_num) s1 s2 s3 s4 hq (D := 255) (by norm_num) rfl rfl
      exact ⟨_, i1, _, _, by norm_num, g1 255 le_rfl, fun p h => by rw [Spec.Stage.eval, cl p h]; rfl⟩
  obtain ⟨s, i1, ε, B', hε, g1, hs⟩ := key
  have hl : Carries ⟨ieee, fun _ => double, lib⟩ 0 false none [.leaf .lut3d (mappedCube st), .leaf .lut3d (rotatedLut "trilinear")] _ :=
    .node (.inl rfl) i1 (.node (.inl rfl) hc .nil)
  have hbud := Spec.Budget.cons (e := 0) g1 (.cons (.cube (S := 1) (V := fun ch i j k => rotatedCube i j k ch) (J := 1 / 2) (C := 1) s1 s2 s3 s4) .nil)
  obtain ⟨g, h1, h2⟩ := C148_list _ rfl 0 _ _ hl 255 _ hbud pixels hp
  refine ⟨g, h1, fun p hp' i => ?_⟩
  rw [← hs p fun j => (hp p hp' j).2]
  refine ((h2 p hp' i).2).trans ?_
  norm_num at hε ⊢
  linarith

/-- A column of numbers behind one index map. -/
def mappedCurve : Base ℚ where
  attrs := [("inBitDepth", .str "8i"), ("outBitDepth", .str "32f"), ("interpolation", .str "linear")]
  elements := [.indexMap ⟨3, [.fin 16, .fin 100, .fin 235], [.fin 0, .fin 1, .fin 2]⟩, .array { dims := [3, 1], values := [.fin 0, .fin (1 / 4), .fin 1] }]

/-- C153 for it: within 2 parts in a million of the curve at the position that the map gives. -/
example (lib : Arith ℚ) (pixels : List (Fin 3 → ℚ)) (hp : ∀ p ∈ pixels, ∀ i, Spec.IsSingle (p i) ∧ |p i| ≤ 255) :
    ∃ g : (Fin 3 → ℚ) → Fin 3 → ℚ,
      processListR ⟨ieee, fun _ => double, lib⟩ 0 [.leaf .lut1d mappedCurve] (Spec.rgb pixels) 3 = .ok (Spec.rgb (pixels.map g)) ∧
      ∀ p ∈ pixels, ∀ i, |g p i - Spec.polyline ![0, 1 / 4, 1] (Spec.indexCurve [16, 100, 235] [0, 1, 2] (p i) / 2)| ≤ 2 / 10 ^ 6 := by
  obtain ⟨i1, g1⟩ := C153_lut1d ⟨ieee, fun _ => double, lib⟩ rfl (b := mappedCurve) (maps := [([16, 100, 235], [0, 1, 2])])
    (a := { dims := [3, 1], values := [.fin 0, .fin (1 / 4), .fin 1] })
    ⟨rfl, rfl, by simp [mappedCurve, Base.styleOf, Dict.get?], rfl, ⟨[3], rfl, rfl⟩, rfl⟩ (by decide) (.inl rfl) (by simpa using mappedCube_knots)
    (m := 2) (c := 0) (by decide +kernel) (V := fun k _ => ![0, 1 / 4, 1] k) ⟨⟨[], rfl⟩, by simp [Spec.rowMajor, List.ofFn_succ], .inl rfl⟩
    (by unfold Spec.IsSingle; decide +kernel) (by norm_num) (by norm_num) (J := 3 / 4) (C := 1) (q := 1 / 84) (by
      intro i k hk
      obtain rfl | rfl : k = 0 ∨ k = 1 := by omega
      · norm_num
      · norm_num) (by decide +kernel) (by
      simp only [List.mem_singleton, forall_eq, Spec.SlopesWithin]
      norm_num) (D := 255) (by norm_num) rfl rfl
  obtain ⟨g, h1, h2⟩ := C148_list _ rfl 0 [.leaf .lut1d mappedCurve] _ (.node (.inl rfl) i1 .nil) 255 _ (.cons (g1 255 le_rfl) .nil) pixels hp
  refine ⟨g, h1, fun p hp' i => ?_⟩
  have h3 := (h2 p hp' i).2
  rw [Spec.evalChain, Spec.evalChain, Spec.Stage.eval, funext fun j => clampD_id (hp p hp' j).2] at h3
  refine h3.trans ?_
  norm_num

/-- C153 for style `RevNoClamp`, on colours of either sign. -/
example (pixels : List (Fin 3 → ℚ)) (hp : ∀ p ∈ pixels, ∀ i, Spec.IsSingle (p i) ∧ |p i| ≤ 1) :
    ∃ g : (Fin 3 → ℚ) → Fin 3 → ℚ, processListR ⟨ieee, fun _ => single, ratArith⟩ 0
        [.leaf (.cdl false undoValues) (undoBase "RevNoClamp")] (Spec.rgb pixels) 3 = .ok (Spec.rgb (pixels.map g)) ∧
      ∀ p ∈ pixels, ∀ i, |g p i - Spec.reversedFree 1 1 ![2, 1, 1 / 2] (fun _ => 0) (fun _ x => x) (1 / 2) p i| ≤ 1 / 10 ^ 5 := by
  have hfs : (Spec.fullScale (some (.str "16f")) : ℚ) = 1 := by simp [Spec.fullScale, Spec.bits]
  obtain ⟨i2, g2⟩ := C153_free ⟨ieee, fun _ => single, ratArith⟩ rfl (ns := false) (b := undoBase "RevNoClamp") (din := .str "16f") (dout := .str "16f")
    ⟨rfl, rfl, rfl⟩ undo_is undo_able (by norm_num) undo_power (fun e he => by simp [ratArith, he.ne']) (fun _ => straight) rfl rfl
  obtain ⟨g, h1, h2⟩ := C148_list _ rfl 0 [.leaf (.cdl false undoValues) (undoBase "RevNoClamp")] _ (.node (.inl rfl) i2 .nil) 1 _
    (.cons (g2 1 hfs.ge) .nil) pixels hp
  refine ⟨g, h1, fun p hp' i => ?_⟩
  have h3 := (h2 p hp' i).2
  rw [Spec.evalChain, Spec.evalChain, Spec.Stage.eval, hfs, funext fun j => clampD_id (hp p hp' j).2] at h3
  refine h3.trans ?_
  norm_num [abs_of_pos]

/-- A table of the halves of halves, on numbers up to 16. -/
example : Spec.HalfCurve (K := ℚ) (fun n => Spec.halfValue n / 2) (fun x => x / 2) 16 (0 + 1 / 2 * (16 / 2 ^ 11 + 1 / 2 ^ 25)) (32752 + 0) :=
  C153_samples ⟨by norm_num, fun x h => by rw [abs_div, abs_two]; linarith, fun x y _ _ => by rw [← sub_div, abs_div, abs_two]; linarith⟩
    fun n _ => by rw [sub_self, abs_zero]

end CLF
