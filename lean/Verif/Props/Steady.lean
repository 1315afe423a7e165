import Verif.Props.Baked
import Verif.Props.CubeOrder
import Verif.Props.RoundedTree

/-! # Property C159: nearby colours stay near: no lookup jumps -/

set_option linter.unusedSectionVars false

namespace CLF

variable {K : Type} [Field K] [LinearOrder K] [IsStrictOrderedRing K] [FloorRing K]

/-- Pixels of `stride` channels are taken to pixels, one by one, and colours whose channels are at most `d` apart to colours whose channels are at
most `L * d` apart. -/
def Spec.Steady (L : K) (stride : ℕ) (f : List (Flt K) → Py (List (Flt K))) : Prop :=
  ∃ g : (Fin 3 → K) → Fin 3 → K, (∀ x y d, (∀ i, |x i - y i| ≤ d) → ∀ i, |g x i - g y i| ≤ L * d) ∧
    ∀ pixels : List ((Fin 3 → K) × List (Flt K)), (∀ p ∈ pixels, p.2.length + 3 = stride) →
      f (Spec.image pixels) = .ok (Spec.image (pixels.map fun p => (g p.1, p.2)))

/-- Entries of a cube that are neighbours along an axis differ by at most `J`. -/
def Spec.Even {m : ℕ} (V : Fin (m + 1) → Fin (m + 1) → Fin (m + 1) → Fin 3 → K) (J : K) : Prop :=
  ∀ ch, (∀ j k, Spec.StepsWithin (fun i => V i j k ch) J) ∧ (∀ i k, Spec.StepsWithin (fun j => V i j k ch) J) ∧
    ∀ i j, Spec.StepsWithin (fun k => V i j k ch) J

theorem unit_near {x y : K} : |Spec.unit (.fin x) - Spec.unit (.fin y)| ≤ |x - y| := by
  refine (abs_min_sub_min_le_max 1 (max 0 x) 1 (max 0 y)).trans ?_
  rw [sub_self, abs_zero]
  refine max_le (abs_nonneg _) ((abs_max_sub_max_le_max 0 x 0 y).trans ?_)
  rw [sub_self, abs_zero]
  exact max_le (abs_nonneg _) le_rfl

theorem unit_times (m : ℕ) (x : Flt K) : 0 ≤ Spec.unit x * (m : K) ∧ Spec.unit x * (m : K) ≤ m :=
  ⟨mul_nonneg (unit_mem x).1 (Nat.cast_nonneg m), mul_le_of_le_one_left (Nat.cast_nonneg m) (unit_mem x).2⟩

theorem scaled_near {S x y d : K} (hS : 0 < S) (m : ℕ) (h : |x - y| ≤ d) :
    |Spec.unit (.fin (x / S)) * m - Spec.unit (.fin (y / S)) * m| ≤ m / S * d := by
  rw [← sub_mul, abs_mul, Nat.abs_cast]
  have e : |x / S - y / S| = |x - y| / S := by rw [← sub_div, abs_div, abs_of_pos hS]
  have := (unit_near (x := x / S) (y := y / S)).trans_eq e
  have := mul_le_mul_of_nonneg_right (this.trans (div_le_div_of_nonneg_right h hS.le)) (Nat.cast_nonneg (α := K) m)
  calc _ ≤ _ := this
    _ = _ := by ring

theorem Spec.Even.smooth {m : ℕ} {V : Fin (m + 1) → Fin (m + 1) → Fin (m + 1) → Fin 3 → K} {J : K} (h : Spec.Even V J) (ch : Fin 3) :
    Spec.Smooth (fun i j k => V i j k ch) J :=
  fun n hn i j => ⟨(h ch).1 i j n hn, (h ch).2.1 i j n hn, (h ch).2.2 i j n hn⟩

/-- C159: 3D LUTs. -/
theorem C159_cube (A : Arith K) (hA : A.Exact) (b : Base K) (din st : AVal) (hst : st = .str "trilinear" ∨ st = .str "tetrahedral") (a : Arr K)
    (h : PlainLut3 b din st a) {m : ℕ} (V : Fin (m + 1) → Fin (m + 1) → Fin (m + 1) → Fin 3 → K) (ht : Table3D a V) (J : K) (hJ0 : 0 ≤ J)
    (hJ : Spec.Even V J) (stride : ℕ) (hs : 3 ≤ stride) :
    Spec.Steady (3 * J * m / Spec.fullScale (some din)) stride fun x => outOf (lut3dProcess A b x stride) := by
  have hS : (0 : K) < Spec.fullScale (some din) := fullScale_pos _
  have fin : ∀ (x y : Fin 3 → K) (d : K), (∀ i, |x i - y i| ≤ d) → ∀ w : K,
      w ≤ J * |Spec.unit (.fin (x 0 / Spec.fullScale (some din))) * (m : K) - Spec.unit (.fin (y 0 / Spec.fullScale (some din))) * m|
        + J * |Spec.unit (.fin (x 1 / Spec.fullScale (some din))) * (m : K) - Spec.unit (.fin (y 1 / Spec.fullScale (some din))) * m|
        + J * |Spec.unit (.fin (x 2 / Spec.fullScale (some din))) * (m : K) - Spec.unit (.fin (y 2 / Spec.fullScale (some din))) * m| →
      w ≤ 3 * J * m / Spec.fullScale (some din) * d := by
    intro x y d hd w hw
    have k := fun i => mul_le_mul_of_nonneg_left (scaled_near hS m (hd i)) hJ0
    have e : 3 * J * m / Spec.fullScale (some din) * d = 3 * (J * (m / Spec.fullScale (some din) * d)) := by ring
    rw [e]
    linarith [k 0, k 1, k 2]
  rcases hst with rfl | rfl
  · refine ⟨fun p ch => triRow (fun i j k => V i j k ch) (Spec.unit (.fin (p 0 / Spec.fullScale (some din))) * m)
      (Spec.unit (.fin (p 1 / Spec.fullScale (some din))) * m) (Spec.unit (.fin (p 2 / Spec.fullScale (some din))) * m), fun x y d hd i => fin x y d hd _ ?_,
      cube_applies hA b din _ a h (fun r g b ch => triRow (fun i j k => V i j k ch) (Spec.unit r * m) (Spec.unit g * m) (Spec.unit b * m)) (.inl ⟨rfl, ?_⟩)
      stride hs⟩
    · exact triRow_lipschitz (fun i' j k => V i' j k i) J (hJ.smooth i) (unit_times m _) (unit_times m _) (unit_times m _) (unit_times m _)
        (unit_times m _) (unit_times m _)
    · intro r g b extra
      rw [trilinear_table ht]
      simp only [axL_eq_lerpRow]
      rfl
  · refine ⟨fun p ch => tetRow (fun i j k => V i j k ch) (Spec.unit (.fin (p 0 / Spec.fullScale (some din))) * m)
      (Spec.unit (.fin (p 1 / Spec.fullScale (some din))) * m) (Spec.unit (.fin (p 2 / Spec.fullScale (some din))) * m), fun x y d hd i => fin x y d hd _ ?_,
      cube_applies hA b din _ a h (fun r g b ch => tetRow (fun i j k => V i j k ch) (Spec.unit r * m) (Spec.unit g * m) (Spec.unit b * m)) (.inr ⟨rfl, ?_⟩)
      stride hs⟩
    · exact tetRow_lipschitz (fun i' j k => V i' j k i) J (hJ.smooth i) (unit_times m _) (unit_times m _) (unit_times m _) (unit_times m _)
        (unit_times m _) (unit_times m _)
    · intro r g b extra
      rw [tetrahedral_table ht _ _ _ _ _ _ _ rfl rfl rfl]
      simp only [tetra_row]

theorem lerpRow_unit {m : ℕ} (f : Fin (m + 1) → K) (t : K) : lerpRow f (t * m) = lerpRow f (Spec.unit (.fin t) * m) := by
  show _ = lerpRow f (min 1 (max 0 t) * m)
  have hm : (0 : K) ≤ m := Nat.cast_nonneg m
  rcases le_total t 0 with h | h
  · rw [max_eq_left h, min_eq_right zero_le_one, zero_mul, lerpRow_below f (mul_nonpos_of_nonpos_of_nonneg h hm), lerpRow_below f le_rfl]
  · rw [max_eq_right h]
    rcases le_total t 1 with h1 | h1
    · rw [min_eq_right h1]
    · rw [min_eq_left h1, one_mul, lerpRow_above f (le_mul_of_one_le_left hm h1), lerpRow_above f le_rfl]

/-- C159: 1D LUTs. -/
theorem C159_curve (A : Arith K) (hA : A.Exact) (b : Base K) (din : AVal) (a : Arr K) (h : PlainLut b din a) {m c : ℕ}
    (V : Fin (m + 1) → Fin (c + 1) → K) (ht : Table1D a V) (J : K) (hJ0 : 0 ≤ J) (hJ : ∀ k, Spec.StepsWithin (fun i => V i k) J) (stride : ℕ)
    (hs : 3 ≤ stride) : Spec.Steady (J * m / Spec.fullScale (some din)) stride fun x => outOf (lut1dProcess A b x stride) := by
  have hS : (0 : K) < Spec.fullScale (some din) := fullScale_pos _
  refine ⟨fun x i => lerpRow (fun k => V k (Spec.column c i)) (x i / Spec.fullScale (some din) * m), fun x y d hd i => ?_,
    curve_applies hA b din a h V ht stride hs⟩
  simp only
  rw [lerpRow_unit _ (x i / _), lerpRow_unit _ (y i / _)]
  refine (lerpRow_lipschitz (fun k => V k (Spec.column c i)) J (hJ (Spec.column c i)) (unit_times m _).1 (unit_times m _).2 (unit_times m _).1 (unit_times m _).2).trans ?_
  refine (mul_le_mul_of_nonneg_left (scaled_near hS m (hd i)) hJ0).trans_eq ?_
  ring

theorem mulVec_near {M : Matrix (Fin 3) (Fin 3) K} {N d : K} (hM : ∀ i, ∑ j, |M i j| ≤ N) {x y : Fin 3 → K} (h : ∀ i, |x i - y i| ≤ d) (i : Fin 3) :
    |M.mulVec x i - M.mulVec y i| ≤ N * d := by
  have hd : 0 ≤ d := (abs_nonneg _).trans (h 0)
  rw [Matrix.mulVec, Matrix.mulVec, dotProduct, dotProduct, ← Finset.sum_sub_distrib]
  refine (Finset.abs_sum_le_sum_abs _ _).trans (le_trans ?_ (mul_le_mul_of_nonneg_right (hM i) hd))
  rw [Finset.sum_mul]
  refine Finset.sum_le_sum fun j _ => ?_
  rw [← mul_sub, abs_mul]
  exact mul_le_mul_of_nonneg_left (h j) (abs_nonneg _)

/-- C159: matrices. -/
theorem C159_matrix (A : Arith K) (hA : A.Exact) (b : Base K) (M : Matrix (Fin 3) (Fin 3) K) (h : MatrixNode b M) (N : K) (hM : ∀ i, ∑ j, |M i j| ≤ N)
    (stride : ℕ) (hs : 3 ≤ stride) : Spec.Steady N stride fun x => outOf (matrixProcess A b x stride) := by
  refine ⟨fun x => M.mulVec x, fun x y d hd i => mulVec_near hM hd i, fun pixels hp => ?_⟩
  show outOf (matrixProcess A b (Spec.image pixels) stride) = _
  rw [C10_linear A hA b M h stride (by omega) pixels fun p hpm => by have := hp p hpm; omega]
  rfl

/-- C159: also with offsets. -/
theorem C159_affine (A : Arith K) (hA : A.Exact) (b : Base K) (M : Matrix (Fin 3) (Fin 3) K) (t : Fin 3 → K) (h : AffineNode b M t) (N : K)
    (hM : ∀ i, ∑ j, |M i j| ≤ N) (stride : ℕ) (hs : 3 ≤ stride) : Spec.Steady N stride fun x => outOf (matrixProcess A b x stride) := by
  refine ⟨fun x i => M.mulVec x i + t i, fun x y d hd i => ?_, fun pixels hp => ?_⟩
  · rw [add_sub_add_right_eq_sub]
    exact mulVec_near hM hd i
  · show outOf (matrixProcess A b (Spec.image pixels) stride) = _
    rw [C10_affine A hA b M t h stride (by omega) pixels fun p hpm => by have := hp p hpm; omega]
    rfl

/-- C159: Ranges, on pixels of three channels, clamping or not. -/
theorem C159_range (A : Arith K) (hA : A.Exact) (b : Base K) (din dout : AVal) (minIn maxIn minOut maxOut : K)
    (h : FullRange b din dout minIn maxIn minOut maxOut) (hcl : Clamps b ∨ NoClamp b) (hi : minIn ≠ maxIn) :
    Spec.Steady |(maxOut - minOut) / (maxIn - minIn)| 3 fun x => outOf (rangeProcess A b x) := by
  have lin : ∀ x y d : K, |x - y| ≤ d → |Spec.affine minIn maxIn minOut maxOut x - Spec.affine minIn maxIn minOut maxOut y| ≤
      |(maxOut - minOut) / (maxIn - minIn)| * d := by
    intro x y d hd
    have e : Spec.affine minIn maxIn minOut maxOut x - Spec.affine minIn maxIn minOut maxOut y = (maxOut - minOut) / (maxIn - minIn) * (x - y) := by
      unfold Spec.affine
      ring
    rw [e, abs_mul]
    exact mul_le_mul_of_nonneg_left hd (abs_nonneg _)
  rcases hcl with hcl | hcl
  · refine ⟨fun x i => min maxOut (max minOut (Spec.affine minIn maxIn minOut maxOut (x i))), fun x y d hd i => ?_, fun pixels hp => ?_⟩
    · refine (abs_min_sub_min_le_max _ _ _ _).trans (max_le ?_ ((abs_max_sub_max_le_max _ _ _ _).trans (max_le ?_ (lin _ _ _ (hd i)))))
      all_goals
        rw [sub_self, abs_zero]
        exact mul_nonneg (abs_nonneg _) ((abs_nonneg _).trans (hd i))
    · obtain ⟨xs, e1, e2⟩ := range_flat pixels (fun x => min maxOut (max minOut (Spec.affine minIn maxIn minOut maxOut x))) hp
      obtain ⟨r, k1, k2⟩ := C07_affine_clamped A hA b din dout minIn maxIn minOut maxOut h hcl hi xs
      show outOf (rangeProcess A b (Spec.image pixels)) = _
      rw [e1, outOf, k1, py_ok_bind, py_pure, k2, ← e2]
  · refine ⟨fun x i => Spec.affine minIn maxIn minOut maxOut (x i), fun x y d hd i => lin _ _ _ (hd i), fun pixels hp => ?_⟩
    obtain ⟨xs, e1, e2⟩ := range_flat pixels (Spec.affine minIn maxIn minOut maxOut) hp
    obtain ⟨r, k1, k2⟩ := C07_affine A hA b din dout minIn maxIn minOut maxOut h hcl hi xs
    show outOf (rangeProcess A b (Spec.image pixels)) = _
    rw [e1, outOf, k1, py_ok_bind, py_pure, k2, ← e2]

/-- C159: the factors of a list multiply. -/
theorem C159_list (A : Arith K) (hA : A.Exact) (compat stride : ℕ) (ns : List (Node K)) (Ls : List K) (hby : ∀ n ∈ ns, n.attr "bypass" = none)
    (h : List.Forall₂ (fun n L => Spec.Steady L stride fun x => outOf (n.process A compat stride x)) ns Ls) :
    Spec.Steady Ls.prod stride fun x => processList A compat ns x stride := by
  have main : ∃ g : (Fin 3 → K) → Fin 3 → K, (∀ x y d, (∀ i, |x i - y i| ≤ d) → ∀ i, |g x i - g y i| ≤ Ls.prod * d) ∧
        ∀ (pixels : List ((Fin 3 → K) × List (Flt K))) (s : Res K) (prev : Option Depth), (∀ p ∈ pixels, p.2.length + 3 = stride) →
          s.out = Spec.image pixels → outOf (runNodes A compat stride false prev ns s)
            = .ok (Spec.image (pixels.map fun p => (g p.1, p.2))) := by
    induction h with
    | nil =>
      refine ⟨fun x => x, fun _ _ d h i => ?_, fun pixels s prev _ hs => ?_⟩
      · rw [List.prod_nil, one_mul]
        exact h i
      · simp only [outOf, runNodes, py_ok_bind, py_pure, hs, Prod.mk.eta, List.map_id']
    | @cons n L ns Ls hn _ ih =>
      obtain ⟨g1, m1, f1⟩ := hn
      obtain ⟨g2, m2, f2⟩ := ih (fun n hn => hby n (by simp [hn]))
      refine ⟨fun x => g2 (g1 x), fun x y d hd i => ?_, fun pixels s prev hp hs => ?_⟩
      · refine (m2 _ _ _ (m1 x y d hd) i).trans_eq ?_
        rw [List.prod_cons]
        ring
      have e1 := f1 pixels hp
      rw [← hs] at e1
      rw [runNodes.eq_def]
      cases hr : n.process A compat stride s.out with
      | error e => simp [outOf, hr, bind, Except.bind] at e1
      | ok r =>
        simp only [outOf, hr, py_ok_bind, py_pure, Except.ok.injEq] at e1
        have := f2 (pixels.map fun p => (g1 p.1, p.2)) (s.step r) (some n.outDepth) (by
          intro q hq
          obtain ⟨q', hq', rfl⟩ := List.mem_map.mp hq
          exact hp q' hq') e1
        rw [List.map_map] at this
        simp only [hby n (by simp), Option.isNone_none, Bool.true_or, if_true, py_ok_bind, py_pure, hr]
        exact this
  obtain ⟨g, m, f⟩ := main
  refine ⟨g, m, fun pixels hp => ?_⟩
  have e : (Spec.image pixels).map A.f32 = Spec.image pixels := by
    conv_rhs => rw [← List.map_id (Spec.image pixels)]
    exact List.map_congr_left fun x _ => hA x
  exact f pixels ⟨(Spec.image pixels).map A.f32, (Spec.image pixels).map A.f32, true⟩ none hp e

/-- C159: in IEEE arithmetic, two pixels of one image or of two whose channels are at most `d` apart have results whose channels are at most `l * d`
apart, up to rounding. -/
theorem C159_ieee (E : Evaluator K) (hE : E.rounding = ieee) (compat : ℕ) (ns : List (Node K)) (ss : List (Spec.Stage K))
    (h : Carries E compat false none ns ss) (B e l : K) (hb : Spec.Budget ss B 0 e) (hl : Spec.Slope ss B l) (xs ys : List (Fin 3 → K))
    (hx : ∀ p ∈ xs, ∀ i, Spec.IsSingle (p i) ∧ |p i| ≤ B) (hy : ∀ p ∈ ys, ∀ i, Spec.IsSingle (p i) ∧ |p i| ≤ B) :
    ∃ g k : (Fin 3 → K) → Fin 3 → K, processListR E compat ns (Spec.rgb xs) 3 = .ok (Spec.rgb (xs.map g)) ∧
      processListR E compat ns (Spec.rgb ys) 3 = .ok (Spec.rgb (ys.map k)) ∧
      ∀ x ∈ xs, ∀ y ∈ ys, ∀ d, (∀ i, |x i - y i| ≤ d) → ∀ i, |g x i - k y i| ≤ l * d + 2 * e := by
  obtain ⟨g, g1, g2⟩ := C148_list E hE compat ns ss h B e hb xs hx
  obtain ⟨k, k1, k2⟩ := C148_list E hE compat ns ss h B e hb ys hy
  refine ⟨g, k, g1, k1, fun x hx' y hy' d hd i => ?_⟩
  have a := abs_le.mp (g2 x hx' i).2
  have b := abs_le.mp (k2 y hy' i).2
  have c := abs_le.mp (chain_slope hl h.wf hd i)
  exact abs_le.mpr ⟨by linarith [a.1, b.2, c.1], by linarith [a.2, b.1, c.2]⟩

/-- C159: the reverse monitor curve jumps, by an amount that does not depend on how near the two colours are. -/
theorem C159_moncurveRev_false (A : Arith ℝ) (hA : Spec.RealArith A) (g o : ℝ) (hg : 1 < g) (ho : 0 < o) (hne : o ≠ g - 1) (b : Base ℝ)
    (d1 d2 : AVal) (hb : StyledNode b d1 d2 (.str "moncurveRev")) :
    ∃ jump > (0 : ℝ), ∀ δ > (0 : ℝ), ∃ x y u v : ℝ, x < y ∧ y ≤ x + δ ∧ v + jump ≤ u ∧
      outOf (gammaProcess A [⟨.fin g, .fin o, none⟩] b [.fin x, .fin x, .fin x] 3) = .ok [.fin u, .fin u, .fin u] ∧
      outOf (gammaProcess A [⟨.fin g, .fin o, none⟩] b [.fin y, .fin y, .fin y] 3) = .ok [.fin v, .fin v, .fin v] := by
  have hd1 : (0 : ℝ) < Spec.fullScale (some d1) := fullScale_pos _
  have hd2 : (0 : ℝ) < Spec.fullScale (some d2) := fullScale_pos _
  have hP := monBreak_pos hg ho
  have ho1 : (0 : ℝ) < 1 + o := by linarith
  have hg0 : (0 : ℝ) < g := by linarith
  obtain ⟨t, ht, hlt⟩ := mon_counter hg ho hne
  have hc : 0 < ((Spec.monBreak g o + o) / (1 + o)) ^ g / Spec.monBreak g o :=
    div_pos (Real.rpow_pos_of_pos (div_pos (by linarith) ho1) _) hP
  have htP : Spec.monBreak g o < t := by
    by_contra hn
    rw [Spec.moncurve, if_pos (not_lt.mp hn)] at ht
    rw [lt_div_iff₀ hc] at hlt
    linarith
  rw [Spec.moncurve, if_neg (not_le.mpr htP)] at ht
  generalize hcc : ((Spec.monBreak g o + o) / (1 + o)) ^ g / Spec.monBreak g o = c at *
  obtain ⟨m, hm1, hm2⟩ := exists_between hlt
  have hy : Spec.monBreak g o < ((m + o) / (1 + o)) ^ g := by
    rw [← ht]
    exact Real.rpow_lt_rpow (div_nonneg (by linarith) ho1.le) (div_lt_div_of_pos_right (by linarith) ho1) hg0
  have good : Spec.GoodLetters GammaParam.channel [(⟨.fin g, .fin o, none⟩ : GammaParam ℝ)] := by
    intro p hp; simp only [List.mem_singleton] at hp; subst hp; exact .inl rfl
  have run : ∀ z : ℝ, outOf (gammaProcess A [⟨.fin g, .fin o, none⟩] b
      [.fin (z * Spec.fullScale (some d1)), .fin (z * Spec.fullScale (some d1)), .fin (z * Spec.fullScale (some d1))] 3)
      = .ok (Spec.fins fun _ : Fin 3 => (if z ≤ Spec.monBreak g o then z / c else z ^ (1 / g) * (1 + o) - o) * Spec.fullScale (some d2)) := by
    intro z
    have := gammaProcess_image A hA.exact _ good b d1 d2 _ hb _ rfl 3 le_rfl [(fun _ => z * Spec.fullScale (some d1), [])] (by simp)
      (fun _ y => if y ≤ Spec.monBreak g o then y / c else y ^ (1 / g) * (1 + o) - o) (by
        intro p _ i
        rw [← hcc]
        exact moncurveRev_fin hA hg ho _)
    have e : Spec.image [((fun _ => z * Spec.fullScale (some d1) : Fin 3 → ℝ), ([] : List (Flt ℝ)))]
        = [.fin (z * Spec.fullScale (some d1)), .fin (z * Spec.fullScale (some d1)), .fin (z * Spec.fullScale (some d1))] := rfl
    rw [e] at this
    rw [this]
    simp [outOf, Spec.image, mul_div_cancel_right₀ _ hd1.ne']
  refine ⟨(Spec.monBreak g o / c - m) * Spec.fullScale (some d2), mul_pos (by linarith) hd2, fun δ hδ => ?_⟩
  have hδ' : 0 < δ / Spec.fullScale (some d1) := div_pos hδ hd1
  have hz : Spec.monBreak g o < min (Spec.monBreak g o + δ / Spec.fullScale (some d1)) (((m + o) / (1 + o)) ^ g) := lt_min (by linarith) hy
  have hz1 : min (Spec.monBreak g o + δ / Spec.fullScale (some d1)) (((m + o) / (1 + o)) ^ g) ≤ Spec.monBreak g o + δ / Spec.fullScale (some d1) := min_le_left _ _
  have hz2 : min (Spec.monBreak g o + δ / Spec.fullScale (some d1)) (((m + o) / (1 + o)) ^ g) ≤ ((m + o) / (1 + o)) ^ g := min_le_right _ _
  generalize min (Spec.monBreak g o + δ / Spec.fullScale (some d1)) (((m + o) / (1 + o)) ^ g) = z at *
  refine ⟨_, _, _, _, ?_, ?_, ?_, (run (Spec.monBreak g o)).trans rfl, (run z).trans rfl⟩
  · exact mul_lt_mul_of_pos_right hz hd1
  · have := mul_le_mul_of_nonneg_right hz1 hd1.le
    rwa [add_mul, div_mul_cancel₀ _ hd1.ne'] at this
  · rw [if_pos le_rfl, if_neg (not_le.mpr hz), ← add_mul]
    refine mul_le_mul_of_nonneg_right ?_ hd2.le
    have : z ^ (1 / g) * (1 + o) ≤ m + o := by
      rw [← le_div_iff₀ ho1]
      refine (Real.rpow_le_rpow (by linarith) hz2 (by positivity)).trans_eq ?_
      rw [one_div, Real.rpow_rpow_inv (div_nonneg (by linarith) ho1.le) hg0.ne']
    linarith

/-! ### Examples -/

/-- Neighbours of the cube of C158's example differ by at most 3. -/
example : Spec.Even (m := 2) risingCube 3 := by
  intro ch
  refine ⟨fun j k n hn => ?_, fun j k n hn => ?_, fun j k n hn => ?_⟩ <;> have : n = 0 ∨ n = 1 := by omega
  all_goals rcases this with rfl | rfl <;> fin_cases ch <;> norm_num [risingCube]

/-- A matrix and a curve: factors 3 and 4, together 12. -/
example (compat : ℕ) :
    let m : Base ℚ := { attrs := [("inBitDepth", .str "16f"), ("outBitDepth", .str "16f")], elements := [.array { dims := [3, 3, 3], values := [.fin 1, .fin (-2), .fin 0, .fin 0, .fin 1,
      .fin 1, .fin 0, .fin 0, .fin 1] }] }
    Spec.Steady (K := ℚ) 12 4 fun x => processList ratArith compat [.leaf .matrix m,
      .leaf .lut1d (plainBase (.str "linear") { dims := [3, 1], values := [.fin 0, .fin 2, .fin 1] })] x 4 := by
  intro m
  have := C159_list ratArith (fun _ => rfl) compat 4 [.leaf .matrix m,
      .leaf .lut1d (plainBase (.str "linear") { dims := [3, 1], values := [.fin 0, .fin 2, .fin 1] })] [3, 2 * (2 : ℕ) / Spec.fullScale (some (.str "32f"))] (by
    intro n hn
    simp only [List.mem_cons, List.not_mem_nil, or_false] at hn
    rcases hn with rfl | rfl <;> rfl) (.cons ?_ (.cons ?_ .nil))
  · rw [float_scale] at this
    norm_num at this ⊢
    exact this
  · refine C159_matrix ratArith (fun _ => rfl) m !![1, -2, 0; 0, 1, 1; 0, 0, 1] ⟨rfl, rfl, _, [3], rfl, rfl, rfl⟩ 3 ?_ 4 (by norm_num)
    decide +kernel
  · refine C159_curve ratArith (fun _ => rfl) _ _ _ (plainBase_lut (by decide)) (m := 2) (c := 0) ![![0], ![2], ![1]] ⟨⟨[], rfl⟩, rfl, .inl rfl⟩ 2 (by norm_num) ?_ 4
      (by norm_num)
    intro k n hn
    have : n = 0 ∨ n = 1 := by omega
    rcases this with rfl | rfl <;> fin_cases k <;> norm_num

/-- The matrix of C152's example, as read from its file, in IEEE arithmetic: colours of [-1, 1] do not move apart by more than the rounding. -/
example (lib : Arith ℚ) (xs : List (Fin 3 → ℚ)) (hx : ∀ p ∈ xs, ∀ i, Spec.IsSingle (p i) ∧ |p i| ≤ 1) : ∃ (l : PList ℚ) (g k : (Fin 3 → ℚ) → Fin 3 → ℚ),
    readFile storedArith 0 bakedFiles 1 false "a.clf" = .ok l ∧ processListR ⟨ieee, fun _ => single, lib⟩ 0 l.processes (Spec.rgb xs) 3 = .ok (Spec.rgb (xs.map g)) ∧
      processListR ⟨ieee, fun _ => single, lib⟩ 0 l.processes (Spec.rgb xs) 3 = .ok (Spec.rgb (xs.map k)) ∧ ∀ x ∈ xs, ∀ y ∈ xs, ∀ d, (∀ i, |x i - y i| ≤ d) → ∀ i, |g x i - k y i| ≤ d + 1 / 2 ^ 18 := by
  obtain ⟨l, b, h1, h2, h3, h4⟩ := baked_read
  have hc : Carries ⟨ieee, fun _ => single, lib⟩ 0 false none l.processes [.linear bakedMatrix fun _ => (0 : ℚ)] := by
    rw [h2]
    exact .node (.inl h4) (.matrix h3 (.inr (.inl rfl))) .nil
  obtain ⟨g, k, g1, g2, h⟩ := C159_ieee _ rfl 0 _ _ hc 1 _ _ (.cons baked_gauge .nil) baked_slope xs xs hx hx
  refine ⟨l, g, k, h1, g1, g2, fun x hx y hy d hd i => (h x hx y hy d hd i).trans ?_⟩
  rw [mul_one, one_mul]
  refine add_le_add le_rfl ?_
  norm_num

end CLF
