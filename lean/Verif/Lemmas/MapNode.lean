import Verif.Lemmas.MappedNode
import Verif.Props.RoundedHalf
import Verif.Props.RoundedCdlRev

/-!
# Half-domain LUTs and reverse CDLs as operations on colours, and bounds of operations
-/

set_option linter.unusedSectionVars false

namespace CLF

variable {K : Type} [Field K] [LinearOrder K] [IsStrictOrderedRing K] [FloorRing K]

/-- A half-domain LUT1D. -/
theorem half_near (E : Evaluator K) (hE : E.rounding = ieee) {b : Base K} (ht : E.table b = half ∨ E.table b = single ∨ E.table b = double)
    {din : AVal} {a : Arr K} (h : HalfLut b din a) {c : ℕ} {T : Fin 65536 → Fin (c + 1) → Flt K} {V : ℕ → Fin (c + 1) → K} (hT : HalfTable a T V)
    (hV : ∀ n, Spec.halfFinite n → ∀ j, Spec.IsSingle (V n j)) {ψ : Fin 3 → K → K} {D D' k η C C' : K}
    (hψ : ∀ i, Spec.ToneBounds (ψ i) D' k C') (hH : ∀ i : Fin 3, Spec.HalfCurve (fun n => V n (Spec.column c i)) (ψ i) D' η C)
    (hD : ((Spec.fullScale (some din) : K) = 1 ∧ D ≤ D') ∨ D / Spec.fullScale (some din) * (1 + 1 / 2 ^ 23) + 1 / 2 ^ 100 ≤ D') (hD' : D' ≤ 65504) :
    NodeNear E .lut1d b (fun p i => ψ i (p i / Spec.fullScale (some din))) D
      (k * (D / Spec.fullScale (some din) / 2 ^ 23 + 2 ^ (-148 : ℤ)) + η + C / 2 ^ 23 + 2 ^ (-148 : ℤ)) := by
  intro compat pixels hp
  have hS : (0 : K) < Spec.fullScale (some din) := fullScale_pos _
  obtain ⟨r, F, h1, h2, -, h4⟩ := C130_half (E.table b) ht b din a h T V hT hV 3 (by norm_num) (pixels.map Spec.fins) (by simp [Spec.fins]) (by
    intro q hq x hx
    obtain ⟨p, hp', rfl⟩ := List.mem_map.mp hq
    obtain ⟨i, hi⟩ := List.mem_ofFn.mp hx
    exact Flt.fin.inj hi ▸ (hp p hp' i).1)
  have key : ∀ (i : Fin 3) (x : K), ∃ y, Spec.IsSingle x → |x| ≤ D → F i (.fin x) = .fin y ∧ Spec.IsSingle y ∧
      |y - ψ i (x / Spec.fullScale (some din))| ≤ k * (D / Spec.fullScale (some din) / 2 ^ 23 + 2 ^ (-148 : ℤ)) + η + C / 2 ^ 23 + 2 ^ (-148 : ℤ) := by
    intro i x
    by_cases hx : Spec.IsSingle x ∧ |x| ≤ D
    · obtain ⟨p, -, p2, p3, -, -, p6⟩ := h4 x hx.1
      have hxS : |x / Spec.fullScale (some din)| ≤ D / Spec.fullScale (some din) := by
        rw [abs_div, abs_of_pos hS]
        exact div_le_div_of_nonneg_right hx.2 hS.le
      have hz : (0 : K) < 2 ^ (-148 : ℤ) := by positivity
      have hz' : (2 : K) ^ (-148 : ℤ) ≤ 1 / 2 ^ 100 := by
        rw [show (1 : K) / 2 ^ 100 = 2 ^ (-100 : ℤ) by norm_num]
        exact zpow_le_zpow_right₀ one_le_two (by norm_num)
      generalize (2 : K) ^ (-148 : ℤ) = z at *
      generalize x / Spec.fullScale (some din) = u at *
      have hDS : 0 ≤ D / Spec.fullScale (some din) := (abs_nonneg _).trans hxS
      have hpu : |p - u| ≤ D / Spec.fullScale (some din) / 2 ^ 23 + z := by
        refine p3.trans (add_le_add_left ?_ _)
        calc |u| * (9 / 8 * (1 / 2 ^ 24)) ≤ D / Spec.fullScale (some din) * (9 / 8 * (1 / 2 ^ 24)) :=
              mul_le_mul_of_nonneg_right hxS (by norm_num)
          _ ≤ D / Spec.fullScale (some din) * (1 / 2 ^ 23) := mul_le_mul_of_nonneg_left (by norm_num) hDS
          _ = _ := by ring
      have hin : |p| ≤ D' ∧ |u| ≤ D' := by
        rcases hD with ⟨e, hD⟩ | hD
        · rw [p2 e]
          rw [e, div_one] at hxS
          exact ⟨hx.2.trans hD, hxS.trans hD⟩
        · have := abs_sub_abs_le_abs_sub p u
          have h100 : (0 : K) < 1 / 2 ^ 100 := by positivity
          constructor <;> nlinarith
      obtain ⟨j1, j2, w, hn, -, w0, w1, hv, -, hF⟩ := p6 (lt_of_le_of_lt (hin.1.trans hD') (by norm_num))
      obtain ⟨y, y1, y2, -, y4, -⟩ := hF i
      have hpv := hv (hin.1.trans hD')
      obtain ⟨c1, c2⟩ := (hH i).size j1 j2 w hn w0 w1 (hpv ▸ hin.1)
      have c3 := (hH i).near j1 j2 w hn w0 w1 (hpv ▸ hin.1)
      rw [← hpv] at c3
      have c4 := (hψ i).close p u hin.1 hin.2
      refine ⟨y, fun _ _ => ⟨y1, y2, ?_⟩⟩
      have c5 : max |V j1 (Spec.column c i)| |V j2 (Spec.column c i)| / 2 ^ 23 ≤ C / 2 ^ 23 :=
        div_le_div_of_nonneg_right (max_le c1 c2) (by positivity)
      have c6 := mul_le_mul_of_nonneg_left hpu (hψ i).nonneg
      have c7 := abs_sub_le y ((1 - w) * V j1 (Spec.column c i) + w * V j2 (Spec.column c i)) (ψ i u)
      have c8 := abs_sub_le ((1 - w) * V j1 (Spec.column c i) + w * V j2 (Spec.column c i)) (ψ i p) (ψ i u)
      linarith
    · exact ⟨0, fun a b => absurd ⟨a, b⟩ hx⟩
  choose G hG using key
  refine ⟨r, fun p i => G i (p i), ?_, ?_, fun p hp' i => ?_⟩
  · simpa only [leafProcessR, hE, Spec.rgb] using h1
  · rw [h2, List.map_map, Spec.rgb, List.map_map]
    congr 1
    refine List.map_congr_left fun p hp' => ?_
    have q := fun i => (hG i (p i) (hp p hp' i).1 (hp p hp' i).2).1
    have q0 := q 0
    have q1 := q 1
    have q2 := q 2
    simp only [Fin.val_zero, Fin.val_one, Fin.val_two] at q0 q1 q2
    simp [Spec.mapColour, Spec.fins, List.ofFn_succ, q0, q1, q2]
  · exact (hG i (p i) (hp p hp' i).1 (hp p hp' i).2).2

/-- A CDL node of style `Rev`. -/
theorem rev_near (E : Evaluator K) (hE : E.rounding = ieee) {ns : Bool} {v : CdlValues K} {b : Base K} {din dout : AVal} {s o p : Fin 3 → K}
    {φ : Fin 3 → K → K} {σ O m H : K} (h : StyledNode b din dout (.str "Rev")) (hv : CdlIs v s o p σ) (hu : Spec.Undoable s o p σ O m)
    (hL : ∀ i e, double.round (.fin (1 / p i)) = .fin e → Spec.PowerNear E.library e (φ i))
    (hφ : ∀ i, Spec.Modulus (φ i) ((1 + 2 / |σ|) * (1 / 2 ^ 23)) H) (D : K) :
    NodeNear E (.cdl ns v) b (Spec.reversed (Spec.fullScale (some din)) (Spec.fullScale (some dout)) s o φ σ) D
      (Spec.fullScale (some dout) * ((H + (1 + O) * (1 / 2 ^ 39)) / m + 1 / 2 ^ 22)) := by
  intro compat pixels hp
  obtain ⟨r, g, h1, h2, h3⟩ := C150_rev E.library compat v b din dout s o p φ σ O m H h hv hu hL hφ 3 (pixels.map fun p => (p, []))
    (by simp) le_rfl (by
      intro q hq i
      obtain ⟨p, hp', rfl⟩ := List.mem_map.mp hq
      exact (hp p hp' i).1)
  rw [rgb_image] at h1
  refine ⟨r, g, ?_, ?_, fun p hp' i => ?_⟩
  · simpa only [leafProcessR, hE] using h1
  · rw [h2, List.map_map, ← rgb_image, List.map_map]
    rfl
  · have := h3 (p, []) (List.mem_map.mpr ⟨p, hp', rfl⟩) i
    exact ⟨this.1, this.2.2.2⟩

/-- A CDL node of style `RevNoClamp`, on colours up to full scale. -/
theorem revFree_near (E : Evaluator K) (hE : E.rounding = ieee) {ns : Bool} {v : CdlValues K} {b : Base K} {din dout : AVal} {s o p : Fin 3 → K}
    {φ : Fin 3 → K → K} {σ O m H : K} (h : StyledNode b din dout (.str "RevNoClamp")) (hv : CdlIs v s o p σ) (hu : Spec.Undoable s o p σ O m)
    (hm : 1 / 2 ^ 60 ≤ m) (hL : ∀ i e, double.round (.fin (1 / p i)) = .fin e → Spec.PowerNear E.library e (φ i))
    (hL0 : ∀ e : K, 0 < e → E.library.pow (.fin 0) (.fin e) = .fin 0) (hφ : ∀ i, Spec.Modulus (φ i) ((1 + 2 / |σ|) * (1 / 2 ^ 23)) H) :
    NodeNear E (.cdl ns v) b (Spec.reversedFree (Spec.fullScale (some din)) (Spec.fullScale (some dout)) s o φ σ) (Spec.fullScale (some din))
      (Spec.fullScale (some dout) * ((H + (1 + O) * (5 / 2 ^ 22)) / m)) := by
  intro compat pixels hp
  obtain ⟨r, g, h1, h2, h3⟩ := C150_free E.library compat v b din dout s o p φ σ O m H h hv hu hm hL hL0 hφ 3 (pixels.map fun p => (p, []))
    (by simp) le_rfl (by
      intro q hq i
      obtain ⟨p, hp', rfl⟩ := List.mem_map.mp hq
      exact hp p hp' i)
  rw [rgb_image] at h1
  refine ⟨r, g, ?_, ?_, fun p hp' i => ?_⟩
  · simpa only [leafProcessR, hE] using h1
  · rw [h2, List.map_map, ← rgb_image, List.map_map]
    rfl
  · exact h3 (p, []) (List.mem_map.mpr ⟨p, hp', rfl⟩) i

/-! ## Bounds -/

theorem polyline_abs {m : ℕ} {f : Fin (m + 1) → K} {C : K} (h : ∀ i, |f i| ≤ C) (x : K) : |Spec.polyline f x| ≤ C := by
  rw [polyline_eq]
  exact lerpRow_abs f C h _

theorem simplicial_abs {m : ℕ} (hm : 0 < m) {V : Fin (m + 1) → Fin (m + 1) → Fin (m + 1) → K} {C : K} (h : ∀ i j k, |V i j k| ≤ C) (v : Fin 3 → K) :
    |Spec.simplicial V v| ≤ C := by
  rw [simplicial_eq hm, ← tetra_row (fun i j k _ => V i j k) _ _ _ 0]
  obtain ⟨s1, s2, s3⟩ := tetraOrder_sorted (Int.fract (min 1 (max 0 (v 0)) * (m : K))) (Int.fract (min 1 (max 0 (v 1)) * (m : K)))
    (Int.fract (min 1 (max 0 (v 2)) * (m : K)))
  refine _root_.abs_le.mpr (tetra_mem _ _ _ s3 (fun a => ?_) (fun a => ?_) s1 s2 _ _ fun e _ => _root_.abs_le.mp (h _ _ _))
  · fin_cases a <;> exact Int.fract_nonneg _
  · fin_cases a <;> exact (Int.fract_lt_one _).le

/-- Positions through index maps. -/
theorem position_close {m : ℕ} (hm0 : 0 < m) {maps : List (List K × List K)} (hpos : 0 < maps.length) (hmaps : ∀ p ∈ maps, Spec.IndexKnots p.1 p.2)
    {q : K} (hq : ∀ p ∈ maps, Spec.SlopesWithin p.1 p.2 q) {u v : Fin 3 → K} {d : K} (h : ∀ j, |u j - v j| ≤ d) :
    Off (q / m * d) (fun i : Fin 3 => Spec.indexCurve (Spec.mapOf maps hpos i).1 (Spec.mapOf maps hpos i).2 (u i) / m)
      (fun i : Fin 3 => Spec.indexCurve (Spec.mapOf maps hpos i).1 (Spec.mapOf maps hpos i).2 (v i) / m) := by
  intro i
  have hm' : (0 : K) < m := Nat.cast_pos.mpr hm0
  have hk := hmaps (Spec.mapOf maps hpos i) (List.getElem_mem _)
  have hs := hq (Spec.mapOf maps hpos i) (List.getElem_mem _)
  have h1 := indexCurve_lipschitz hk.length hk.increasing hk.monotone hs (u i) (v i)
  have hq0 : 0 ≤ q := by
    have := indexCurve_lipschitz hk.length hk.increasing hk.monotone hs 1 0
    rw [sub_zero, abs_one, mul_one] at this
    exact (abs_nonneg _).trans this
  simp only
  rw [← sub_div, abs_div, abs_of_pos hm', div_mul_eq_mul_div]
  exact div_le_div_of_nonneg_right (h1.trans (mul_le_mul_of_nonneg_left (h i) hq0)) hm'.le

theorem slope_nonneg {maps : List (List K × List K)} (hpos : 0 < maps.length) (hmaps : ∀ p ∈ maps, Spec.IndexKnots p.1 p.2)
    {q : K} (hq : ∀ p ∈ maps, Spec.SlopesWithin p.1 p.2 q) : 0 ≤ q := by
  have hk := hmaps (Spec.mapOf maps hpos 0) (List.getElem_mem _)
  have := indexCurve_lipschitz hk.length hk.increasing hk.monotone (hq (Spec.mapOf maps hpos 0) (List.getElem_mem _)) 1 0
  rw [sub_zero, abs_one, mul_one] at this
  exact (abs_nonneg _).trans this

theorem step_nonneg {m : ℕ} (hm0 : 0 < m) {f : Fin (m + 1) → K} {J : K} (h : Spec.StepsWithin f J) : 0 ≤ J := (abs_nonneg _).trans (h 0 hm0)

theorem mapped_bounds {m : ℕ} (hm0 : 0 < m) {maps : List (List K × List K)} (hpos : 0 < maps.length) (hmaps : ∀ p ∈ maps, Spec.IndexKnots p.1 p.2)
    {q : K} (hq : ∀ p ∈ maps, Spec.SlopesWithin p.1 p.2 q) {W : Fin 3 → Fin (m + 1) → K} {J C : K} (hJ : ∀ i, Spec.StepsWithin (W i) J)
    (hC : ∀ i k, |W i k| ≤ C) (D : K) :
    Spec.MapBounds (fun p i => Spec.polyline (W i)
      (Spec.indexCurve (Spec.mapOf maps hpos i).1 (Spec.mapOf maps hpos i).2 (p i) / m)) D (J * q) C where
  nonneg := mul_nonneg (step_nonneg hm0 (hJ 0)) (slope_nonneg hpos hmaps hq)
  size u _ i := polyline_abs (hC i) _
  close u v _ _ d hd i := by
    have hm' : (m : K) ≠ 0 := (Nat.cast_pos.mpr hm0).ne'
    have := stage_lipschitz (s := .curves 1 m W) (.curves (B := 0) hJ hC) ⟨one_pos, hm0⟩ (position_close hm0 hpos hmaps hq hd) i
    simp only [Spec.Stage.eval, div_one] at this
    refine this.trans_eq ?_
    field_simp

theorem mapped_cube_bounds {m : ℕ} (hm0 : 0 < m) {maps : List (List K × List K)} (hpos : 0 < maps.length)
    (hmaps : ∀ p ∈ maps, Spec.IndexKnots p.1 p.2) {q : K} (hq : ∀ p ∈ maps, Spec.SlopesWithin p.1 p.2 q)
    {W : Fin 3 → Fin (m + 1) → Fin (m + 1) → Fin (m + 1) → K} {J C : K} (hr : ∀ i g b, Spec.StepsWithin (fun r => W i r g b) J)
    (hg : ∀ i r b, Spec.StepsWithin (fun g => W i r g b) J) (hb : ∀ i r g, Spec.StepsWithin (fun b => W i r g b) J)
    (hC : ∀ i r g b, |W i r g b| ≤ C) (D : K) :
    Spec.MapBounds (fun p => Spec.Stage.eval (.cube 1 m W) fun i =>
      Spec.indexCurve (Spec.mapOf maps hpos i).1 (Spec.mapOf maps hpos i).2 (p i) / m) D (3 * J * q) C := by
  have h0 : 0 ≤ 3 * J * q := mul_nonneg (mul_nonneg zero_le_three (step_nonneg hm0 (hr 0 0 0))) (slope_nonneg hpos hmaps hq)
  have hm' : (m : K) ≠ 0 := (Nat.cast_pos.mpr hm0).ne'
  have e : ∀ d, 3 * J * m / 1 * (q / m * d) = 3 * J * q * d := fun d => by field_simp
  have hs : ∀ u i, |Spec.Stage.eval (.cube 1 m W) u i| ≤ C := fun u i => by
    simp only [Spec.Stage.eval]
    exact polyline_abs (fun _ => polyline_abs (fun _ => polyline_abs (fun _ => hC i _ _ _) _) _) _
  have hl : ∀ (u v : Fin 3 → K) d, Off (q / m * d) u v → Off (3 * J * q * d) (Spec.Stage.eval (.cube 1 m W) u) (Spec.Stage.eval (.cube 1 m W) v) :=
    fun u v d h => e d ▸ stage_lipschitz (s := .cube 1 m W) (.cube (B := 0) hr hg hb hC) ⟨one_pos, hm0⟩ h
  generalize Spec.Stage.eval (.cube 1 m W) = Ψ at *
  exact ⟨h0, fun u _ i => hs _ i, fun u v _ _ d hd i => hl _ _ d (position_close hm0 hpos hmaps hq hd) i⟩

theorem mapped_tetra_bounds {m : ℕ} (hm0 : 0 < m) {maps : List (List K × List K)} (hpos : 0 < maps.length)
    (hmaps : ∀ p ∈ maps, Spec.IndexKnots p.1 p.2) {q : K} (hq : ∀ p ∈ maps, Spec.SlopesWithin p.1 p.2 q)
    {W : Fin 3 → Fin (m + 1) → Fin (m + 1) → Fin (m + 1) → K} {J C : K} (hr : ∀ i g b, Spec.StepsWithin (fun r => W i r g b) J)
    (hg : ∀ i r b, Spec.StepsWithin (fun g => W i r g b) J) (hb : ∀ i r g, Spec.StepsWithin (fun b => W i r g b) J)
    (hC : ∀ i r g b, |W i r g b| ≤ C) (D : K) :
    Spec.MapBounds (fun p => Spec.Stage.eval (.tetra 1 m W) fun i =>
      Spec.indexCurve (Spec.mapOf maps hpos i).1 (Spec.mapOf maps hpos i).2 (p i) / m) D (3 * J * q) C := by
  have h0 : 0 ≤ 3 * J * q := mul_nonneg (mul_nonneg zero_le_three (step_nonneg hm0 (hr 0 0 0))) (slope_nonneg hpos hmaps hq)
  have hm' : (m : K) ≠ 0 := (Nat.cast_pos.mpr hm0).ne'
  have e : ∀ d, 3 * J * m / 1 * (q / m * d) = 3 * J * q * d := fun d => by field_simp
  have hs : ∀ u i, |Spec.Stage.eval (.tetra 1 m W) u i| ≤ C := fun u i => by
    simp only [Spec.Stage.eval]
    exact simplicial_abs hm0 (fun _ _ _ => hC i _ _ _) _
  have hl : ∀ (u v : Fin 3 → K) d, Off (q / m * d) u v → Off (3 * J * q * d) (Spec.Stage.eval (.tetra 1 m W) u) (Spec.Stage.eval (.tetra 1 m W) v) :=
    fun u v d h => e d ▸ stage_lipschitz (s := .tetra 1 m W) (.tetra (B := 0) hr hg hb hC) ⟨one_pos, hm0⟩ h
  generalize Spec.Stage.eval (.tetra 1 m W) = Ψ at *
  exact ⟨h0, fun u _ i => hs _ i, fun u v _ _ d hd i => hl _ _ d (position_close hm0 hpos hmaps hq hd) i⟩

theorem half_bounds {S D D' k C : K} (hS : 0 < S) {ψ : Fin 3 → K → K} (hψ : ∀ i, Spec.ToneBounds (ψ i) D' k C) (hD : D / S ≤ D') :
    Spec.MapBounds (fun p i => ψ i (p i / S)) D (k / S) C where
  nonneg := div_nonneg (hψ 0).nonneg hS.le
  size u hu i := (hψ i).size _ (by
    rw [abs_div, abs_of_pos hS]
    exact (div_le_div_of_nonneg_right (hu i) hS.le).trans hD)
  close u v hu hv d hd i := by
    have q : ∀ w : Fin 3 → K, (∀ j, |w j| ≤ D) → |w i / S| ≤ D' := fun w hw => by
      rw [abs_div, abs_of_pos hS]
      exact (div_le_div_of_nonneg_right (hw i) hS.le).trans hD
    refine ((hψ i).close _ _ (q u hu) (q v hv)).trans ?_
    rw [← sub_div, abs_div, abs_of_pos hS, div_mul_eq_mul_div, mul_div_assoc]
    exact mul_le_mul_of_nonneg_left (div_le_div_of_nonneg_right (hd i) hS.le) (hψ i).nonneg

theorem curve_nonneg {φ : K → K} {k : K} (h : Spec.Curve φ k) : 0 ≤ k := by
  have := h.close 1 0 zero_le_one le_rfl le_rfl zero_le_one
  rw [sub_zero, abs_one, mul_one] at this
  exact (abs_nonneg _).trans this

theorem curve_modulus {φ : K → K} {k : K} (h : Spec.Curve φ k) (δ : K) : Spec.Modulus φ δ (k * δ) :=
  ⟨h.mem, fun x y a b c d e => (h.close x y a b c d).trans (mul_le_mul_of_nonneg_left e (curve_nonneg h))⟩

theorem rev_bounds {S T : K} (hS : 0 < S) (hT : 0 < T) {s o : Fin 3 → K} {φ : Fin 3 → K → K} {σ m k : K} (hm0 : 0 < m) (hm : ∀ i, m ≤ |s i|)
    (hφ : ∀ i, Spec.Curve (φ i) k) (D : K) :
    Spec.MapBounds (Spec.reversed S T s o φ σ) D (T * (k * (1 + 2 / |σ|) / (m * S))) T where
  nonneg := by
    have := curve_nonneg (hφ 0)
    positivity
  size u _ i := by
    unfold Spec.reversed
    obtain ⟨h0, h1⟩ := clip_mem ((φ i (Spec.clip (Spec.unsaturated (fun j => Spec.clip (u j / S)) σ i)) - o i) / s i)
    rw [abs_of_nonneg (mul_nonneg h0 hT.le)]
    exact mul_le_of_le_one_left hT.le h1
  close u v _ _ d hd i := by
    refine (reversed_close hS hT hm0 hm (fun i => curve_modulus (hφ i) _) hd i).trans_eq ?_
    have := hS.ne'
    have := hm0.ne'
    field_simp

theorem revFree_bounds {S T : K} (hS : 0 < S) (hT : 0 < T) {s o : Fin 3 → K} {φ : Fin 3 → K → K} {σ m k O : K} (hm0 : 0 < m) (hm : ∀ i, m ≤ |s i|)
    (ho : ∀ i, |o i| ≤ O) (hφ : ∀ i, Spec.Curve (φ i) k) (D : K) :
    Spec.MapBounds (Spec.reversedFree S T s o φ σ) D (T * (k * (1 + 2 / |σ|) / (m * S))) (T * ((1 + O) / m)) where
  nonneg := by
    have := curve_nonneg (hφ 0)
    positivity
  size u _ i := by
    unfold Spec.reversedFree
    obtain ⟨h0, h1⟩ := (hφ i).mem _ (clip_mem (Spec.unsaturated (fun j => u j / S) σ i)).1 (clip_mem _).2
    generalize φ i (Spec.clip (Spec.unsaturated (fun j => u j / S) σ i)) = w at *
    rw [abs_mul, abs_of_pos hT, mul_comm, abs_div]
    have h2 : |w - o i| ≤ 1 + O := (abs_sub _ _).trans (add_le_add (by rw [abs_of_nonneg h0]; exact h1) (ho i))
    exact mul_le_mul_of_nonneg_left (div_le_div₀ ((abs_nonneg _).trans h2) h2 hm0 (hm i)) hT.le
  close u v _ _ d hd i := by
    have h1 : ∀ j, |u j / S - v j / S| ≤ d / S := fun j => by
      rw [← sub_div, abs_div, abs_of_pos hS]
      exact div_le_div_of_nonneg_right (hd j) hS.le
    have hd0 : 0 ≤ d / S := (abs_nonneg _).trans (h1 0)
    have h3 : |Spec.unsaturated (fun j => u j / S) σ i - Spec.unsaturated (fun j => v j / S) σ i| ≤ (1 + 2 / |σ|) * (d / S) := by
      have h2 := saturate_close (σ := 1 / σ) h1 i
      unfold Spec.unsaturated
      simp only [div_eq_mul_one_div (_ - _) σ, mul_comm (_ - _) (1 / σ)]
      refine h2.trans (mul_le_mul_of_nonneg_right ?_ hd0)
      have h4 := abs_sub 1 (1 / σ)
      have h5 : 2 / |σ| = 2 * |1 / σ| := by rw [abs_div, abs_one]; ring
      rw [abs_one] at h4
      rw [h5]
      linarith
    have h6 := (curve_modulus (hφ i) _).close _ _ (clip_mem _).1 (clip_mem _).2 (clip_mem _).1 (clip_mem _).2 ((clip_close _ _).trans h3)
    unfold Spec.reversedFree
    rw [← sub_mul, abs_mul, abs_of_pos hT, mul_comm, ← sub_div, sub_sub_sub_cancel_right, abs_div]
    refine (mul_le_mul_of_nonneg_left (div_le_div₀ ((abs_nonneg _).trans h6) h6 hm0 (hm i)) hT.le).trans_eq ?_
    have := hS.ne'
    have := hm0.ne'
    field_simp

end CLF
