import Verif.Lemmas.CubeOrder
import Verif.Lemmas.MappedNode
import Verif.Props.Lut3d
import Verif.Props.Matrix
import Verif.Props.Range
import Verif.Props.ToneOrder

/-! # Property C158: rising tables, rising cubes and matrices without negative entries keep the order of colours -/

set_option linter.unusedSectionVars false

namespace CLF

section

variable {K : Type} [Field K] [LinearOrder K] [IsStrictOrderedRing K] [FloorRing K]

/-- The entries of a cube never fall when an index rises. -/
def Spec.Rises {m : ℕ} (V : Fin (m + 1) → Fin (m + 1) → Fin (m + 1) → Fin 3 → K) : Prop :=
  ∀ i i' j j' k k' ch, i ≤ i' → j ≤ j' → k ≤ k' → V i j k ch ≤ V i' j' k' ch

theorem unit_mono {x y : K} (h : x ≤ y) : Spec.unit (.fin x) ≤ Spec.unit (.fin y) := min_le_min le_rfl (max_le_max le_rfl h)

theorem cube_lookup {m : ℕ} (a : Arr K) (V : Fin (m + 1) → Fin (m + 1) → Fin (m + 1) → Fin 3 → K) (h : Table3D a V) (hV : Spec.Rises V) :
    ∃ T S : Flt K → Flt K → Flt K → Fin 3 → K,
      (∀ r g b extra, a.lookup3DTrilinear (r :: g :: b :: extra) = .ok (Spec.fins (T r g b))) ∧
      (∀ r g b extra, a.lookup3DTetrahedral (r :: g :: b :: extra) = .ok (Spec.fins (S r g b))) ∧
      ∀ r g b r' g' b' : K, r ≤ r' → g ≤ g' → b ≤ b' → ∀ ch, T (.fin r) (.fin g) (.fin b) ch ≤ T (.fin r') (.fin g') (.fin b') ch ∧
        S (.fin r) (.fin g) (.fin b) ch ≤ S (.fin r') (.fin g') (.fin b') ch := by
  refine ⟨_, _, fun r g b extra => trilinear_table h r g b extra, fun r g b extra => tetrahedral_table h r g b extra _ _ _ rfl rfl rfl, ?_⟩
  intro r g b r' g' b' hr hg hb ch
  have hm : (0 : K) ≤ m := Nat.cast_nonneg m
  have u := fun {x y : K} (h : x ≤ y) => mul_le_mul_of_nonneg_right (unit_mono h) hm
  constructor
  · simp only [axL_eq_lerpRow]
    exact triRow_rises (fun i j k => V i j k ch) (fun i i' j j' k k' => hV i i' j j' k k' ch) (u hr) (u hg) (u hb)
  · rw [tetra_row, tetra_row]
    exact tetRow_rises (fun i j k => V i j k ch) (fun i i' j j' k k' => hV i i' j j' k k' ch) (u hr) (u hg) (u hb)

/-- C158: of two positions, the one that is nowhere smaller is looked up in a rising cube as the colour that is nowhere smaller, by both interpolations. -/
theorem C158_lookup {m : ℕ} (a : Arr K) (V : Fin (m + 1) → Fin (m + 1) → Fin (m + 1) → Fin 3 → K) (h : Table3D a V) (hV : Spec.Rises V)
    (p q : Fin 3 → K) (hpq : p ≤ q) (e e' : List (Flt K)) :
    (∃ u v : Fin 3 → K, a.lookup3DTrilinear (Spec.fins p ++ e) = .ok (Spec.fins u) ∧ a.lookup3DTrilinear (Spec.fins q ++ e') = .ok (Spec.fins v) ∧ u ≤ v) ∧
    ∃ u v : Fin 3 → K, a.lookup3DTetrahedral (Spec.fins p ++ e) = .ok (Spec.fins u) ∧ a.lookup3DTetrahedral (Spec.fins q ++ e') = .ok (Spec.fins v) ∧ u ≤ v := by
  obtain ⟨T, S, hT, hS, hm⟩ := cube_lookup a V h hV
  have e3 : ∀ (p : Fin 3 → K) e, Spec.fins p ++ e = .fin (p 0) :: .fin (p 1) :: .fin (p 2) :: e := fun p e => by simp [Spec.fins, List.ofFn_succ]
  have := hm (p 0) (p 1) (p 2) (q 0) (q 1) (q 2) (hpq 0) (hpq 1) (hpq 2)
  rw [e3, e3]
  exact ⟨⟨_, _, hT _ _ _ _, hT _ _ _ _, fun ch => (this ch).1⟩, ⟨_, _, hS _ _ _ _, hS _ _ _ _, fun ch => (this ch).2⟩⟩

theorem image_pixels (pixels : List ((Fin 3 → K) × List (Flt K))) :
    Spec.image pixels = ((pixels.map fun p => (⟨.fin (p.1 0), .fin (p.1 1), .fin (p.1 2), p.2⟩ : Spec.Pixel K)).map Spec.Pixel.toList).flatten := by
  rw [Spec.image, List.map_map]
  congr 2

theorem cube_applies {A : Arith K} (hA : A.Exact) (b : Base K) (din st : AVal) (a : Arr K) (h : PlainLut3 b din st a) (F : Flt K → Flt K → Flt K → Fin 3 → K)
    (hF : (st = .str "trilinear" ∧ ∀ r g bl rest, a.lookup3DTrilinear (r :: g :: bl :: rest) = .ok (Spec.fins (F r g bl))) ∨
      (st = .str "tetrahedral" ∧ ∀ r g bl rest, a.lookup3DTetrahedral (r :: g :: bl :: rest) = .ok (Spec.fins (F r g bl))))
    (stride : ℕ) (hs : 3 ≤ stride) (pixels : List ((Fin 3 → K) × List (Flt K))) (hp : ∀ p ∈ pixels, p.2.length + 3 = stride) :
    outOf (lut3dProcess A b (Spec.image pixels) stride) = .ok (Spec.image (pixels.map fun p => (F (.fin (p.1 0 / Spec.fullScale (some din)))
      (.fin (p.1 1 / Spec.fullScale (some din))) (.fin (p.1 2 / Spec.fullScale (some din))), p.2))) := by
  obtain ⟨res, e1, e2⟩ := C22_node A hA b din st a h F hF stride
    (pixels.map fun p => (⟨.fin (p.1 0), .fin (p.1 1), .fin (p.1 2), p.2⟩ : Spec.Pixel K)) (by omega) (by
      intro q hq
      obtain ⟨p, hpm, rfl⟩ := List.mem_map.mp hq
      have := hp p hpm
      simp [Spec.Pixel.toList]
      omega)
  rw [image_pixels, outOf, e1, py_ok_bind, py_pure, e2, Spec.image, List.map_map, List.map_map]
  have one : (Spec.fullScale none : K) = 1 := rfl
  congr 3
  funext p
  simp only [Function.comp, Spec.convert, one, mul_one]

theorem curve_applies {A : Arith K} (hA : A.Exact) (b : Base K) (din : AVal) (a : Arr K) (h : PlainLut b din a) {m c : ℕ}
    (V : Fin (m + 1) → Fin (c + 1) → K) (ht : Table1D a V) (stride : ℕ) (hs : 3 ≤ stride) (pixels : List ((Fin 3 → K) × List (Flt K)))
    (hp : ∀ p ∈ pixels, p.2.length + 3 = stride) : outOf (lut1dProcess A b (Spec.image pixels) stride) = .ok (Spec.image (pixels.map fun p =>
      ((fun i : Fin 3 => lerpRow (fun k => V k (Spec.column c i)) (p.1 i / Spec.fullScale (some din) * m)), p.2))) := by
  have hF := ht.total
  choose F hF using hF
  obtain ⟨r, hr, ho⟩ := C14_node A hA b din a h F hF stride (by omega) (pixels.map fun p => Spec.fins p.1 ++ p.2) (by
    intro q hq
    obtain ⟨p, hpm, rfl⟩ := List.mem_map.mp hq
    have := hp p hpm
    simp [Spec.fins]
    omega)
  have val : ∀ (i : ℕ) (x : K), F i (Spec.convert (some din) none (.fin x)) = .fin (lerpRow (fun k => V k (Spec.column c i)) (x / Spec.fullScale (some din) * m)) := by
    intro i x
    have one : (Spec.fullScale none : K) = 1 := rfl
    have := hF i (.fin (x / Spec.fullScale (some din)))
    rw [ht.lookup] at this
    rw [Spec.convert, one, mul_one]
    exact (Except.ok.inj this).symm
  show outOf (lut1dProcess A b (pixels.map fun p => Spec.fins p.1 ++ p.2).flatten stride) = _
  rw [outOf, hr, py_ok_bind, py_pure, ho, Spec.image, List.map_map, List.map_map]
  congr 3
  funext p
  simp only [Function.comp, Spec.fins, List.ofFn_succ, List.ofFn_zero, List.cons_append, List.nil_append, Spec.mapColour, List.mapIdx_cons]
  have tail : ∀ l : List (Flt K), (l.mapIdx fun i x => if i + 1 + 1 + 1 < 3 then F (i + 1 + 1 + 1) (Spec.convert (some din) none x) else x) = l := by
    intro l
    apply List.ext_getElem (by simp)
    intro i h1 h2
    rw [List.getElem_mapIdx, if_neg (by omega)]
  rw [tail]
  simp only [val]
  norm_num

theorem range_flat (pixels : List ((Fin 3 → K) × List (Flt K))) (f : K → K) (hp : ∀ p ∈ pixels, p.2.length + 3 = 3) :
    ∃ xs : List K, Spec.image pixels = xs.map .fin ∧ Spec.image (pixels.map fun p => ((fun i => f (p.1 i) : Fin 3 → K), p.2)) = xs.map fun x => .fin (f x) := by
  induction pixels with
  | nil => exact ⟨[], rfl, rfl⟩
  | cons p ps ih =>
    obtain ⟨xs, e1, e2⟩ := ih fun q hq => hp q (by simp [hq])
    have : p.2 = [] := List.length_eq_zero_iff.mp (by have := hp p (by simp); omega)
    refine ⟨p.1 0 :: p.1 1 :: p.1 2 :: xs, ?_, ?_⟩
    · simp only [Spec.image, List.map_cons, List.flatten_cons] at e1 ⊢
      rw [e1, this]
      simp [Spec.fins, List.ofFn_succ]
    · simp only [Spec.image, List.map_cons, List.flatten_cons] at e2 ⊢
      rw [e2, this]
      simp [Spec.fins, List.ofFn_succ]

end

/-- C158: 3D LUTs with rising cubes, trilinear or tetrahedral. -/
theorem C158_cube (A : Arith ℝ) (hA : A.Exact) (b : Base ℝ) (din st : AVal) (hst : st = .str "trilinear" ∨ st = .str "tetrahedral") (a : Arr ℝ)
    (h : PlainLut3 b din st a) {m : ℕ} (V : Fin (m + 1) → Fin (m + 1) → Fin (m + 1) → Fin 3 → ℝ) (ht : Table3D a V) (hV : Spec.Rises V)
    (stride : ℕ) (hs : 3 ≤ stride) : Spec.OrderKept stride fun x => outOf (lut3dProcess A b x stride) := by
  obtain ⟨T, S, hT, hS, hm⟩ := cube_lookup a V ht hV
  have d : ∀ {x y : ℝ}, x ≤ y → x / Spec.fullScale (some din) ≤ y / Spec.fullScale (some din) := fun h => div_le_div_of_nonneg_right h (fullScale_pos _).le
  rcases hst with rfl | rfl
  · exact ⟨_, fun x y hxy i => (hm _ _ _ _ _ _ (d (hxy 0)) (d (hxy 1)) (d (hxy 2)) i).1,
      cube_applies hA b din _ a h T (.inl ⟨rfl, hT⟩) stride hs⟩
  · exact ⟨_, fun x y hxy i => (hm _ _ _ _ _ _ (d (hxy 0)) (d (hxy 1)) (d (hxy 2)) i).2,
      cube_applies hA b din _ a h S (.inr ⟨rfl, hS⟩) stride hs⟩

/-- C158: and only these. -/
theorem C158_cube_only (A : Arith ℝ) (hA : A.Exact) (b : Base ℝ) (din st : AVal) (hst : st = .str "trilinear" ∨ st = .str "tetrahedral") (a : Arr ℝ)
    (h : PlainLut3 b din st a) {m : ℕ} (hm0 : 0 < m) (V : Fin (m + 1) → Fin (m + 1) → Fin (m + 1) → Fin 3 → ℝ) (ht : Table3D a V)
    (stride : ℕ) (hs : 3 ≤ stride) (hk : Spec.OrderKept stride fun x => outOf (lut3dProcess A b x stride)) : Spec.Rises V := by
  obtain ⟨G, hmono, hG⟩ := hk
  have hd : (0 : ℝ) < Spec.fullScale (some din) := fullScale_pos _
  have hm' : (0 : ℝ) < m := Nat.cast_pos.mpr hm0
  have at_lattice : ∀ i j k : Fin (m + 1), G ![(i : ℕ) / m * Spec.fullScale (some din), (j : ℕ) / m * Spec.fullScale (some din),
      (k : ℕ) / m * Spec.fullScale (some din)] = V i j k := by
    intro i j k
    have e := hG [(![(i : ℕ) / m * Spec.fullScale (some din), (j : ℕ) / m * Spec.fullScale (some din), (k : ℕ) / m * Spec.fullScale (some din)],
      List.replicate (stride - 3) .nan)] (by simp; omega)
    have fins_inj : ∀ (u w : Fin 3 → ℝ) l, Spec.image [(u, l)] = Spec.image [(w, l)] → u = w := by
      intro u w l he
      simp [Spec.image, Spec.fins, List.ofFn_succ] at he
      funext c
      fin_cases c
      · exact he.1
      · exact he.2.1
      · exact he.2.2
    obtain ⟨F, hF, hFV⟩ : ∃ F : Flt ℝ → Flt ℝ → Flt ℝ → Fin 3 → ℝ,
        ((st = .str "trilinear" ∧ ∀ r g bl rest, a.lookup3DTrilinear (r :: g :: bl :: rest) = .ok (Spec.fins (F r g bl))) ∨
        (st = .str "tetrahedral" ∧ ∀ r g bl rest, a.lookup3DTetrahedral (r :: g :: bl :: rest) = .ok (Spec.fins (F r g bl)))) ∧
        F (.fin ((i : ℕ) / m)) (.fin ((j : ℕ) / m)) (.fin ((k : ℕ) / m)) = V i j k := by
      have inj : ∀ u w : Fin 3 → ℝ, Spec.fins u = Spec.fins w → u = w := fun u w he => fins_inj u w [] (by simp [Spec.image, he])
      obtain ⟨l1, l2⟩ := C21_lattice hm0 a V ht i j k []
      rcases hst with rfl | rfl
      · refine ⟨_, .inl ⟨rfl, fun r g b extra => trilinear_table ht r g b extra⟩, ?_⟩
        rw [trilinear_table ht] at l1
        exact inj _ _ (Except.ok.inj l1)
      · refine ⟨_, .inr ⟨rfl, fun r g b extra => tetrahedral_table ht r g b extra _ _ _ rfl rfl rfl⟩, ?_⟩
        rw [tetrahedral_table ht _ _ _ _ _ _ _ rfl rfl rfl] at l2
        exact inj _ _ (Except.ok.inj l2)
    have e' := cube_applies hA b din st a h F hF stride hs [(![(i : ℕ) / m * Spec.fullScale (some din), (j : ℕ) / m * Spec.fullScale (some din),
      (k : ℕ) / m * Spec.fullScale (some din)], List.replicate (stride - 3) .nan)] (by simp; omega)
    have := fins_inj _ _ _ (Except.ok.inj (e.symm.trans e'))
    rw [this, ← hFV]
    show F (.fin ((i : ℕ) / m * Spec.fullScale (some din) / Spec.fullScale (some din))) (.fin ((j : ℕ) / m * Spec.fullScale (some din) / Spec.fullScale (some din)))
      (.fin ((k : ℕ) / m * Spec.fullScale (some din) / Spec.fullScale (some din))) = _
    rw [mul_div_cancel_right₀ _ hd.ne', mul_div_cancel_right₀ _ hd.ne', mul_div_cancel_right₀ _ hd.ne']
  intro i i' j j' k k' ch hi hj hk
  rw [← at_lattice i j k, ← at_lattice i' j' k']
  have step : ∀ {a b : Fin (m + 1)}, a ≤ b → ((a : ℕ) : ℝ) / m * Spec.fullScale (some din) ≤ ((b : ℕ) : ℝ) / m * Spec.fullScale (some din) := fun h =>
    mul_le_mul_of_nonneg_right (div_le_div_of_nonneg_right (by exact_mod_cast h) hm'.le) hd.le
  refine hmono _ _ ?_ ch
  intro c
  fin_cases c
  · exact step hi
  · exact step hj
  · exact step hk

/-- C158: 1D LUTs with rising columns. -/
theorem C158_curve (A : Arith ℝ) (hA : A.Exact) (b : Base ℝ) (din : AVal) (a : Arr ℝ) (h : PlainLut b din a) {m c : ℕ}
    (V : Fin (m + 1) → Fin (c + 1) → ℝ) (ht : Table1D a V) (hV : ∀ i j k, i ≤ j → V i k ≤ V j k) (stride : ℕ) (hs : 3 ≤ stride) :
    Spec.OrderKept stride fun x => outOf (lut1dProcess A b x stride) := by
  refine ⟨fun x i => lerpRow (fun k => V k (Spec.column c i)) (x i / Spec.fullScale (some din) * m), ?_, ?_⟩
  · intro x y hxy i
    exact lerpRow_mono _ (fun k k' hk => hV _ _ _ hk) (mul_le_mul_of_nonneg_right (div_le_div_of_nonneg_right (hxy i) (fullScale_pos _).le) (Nat.cast_nonneg m))
  · exact curve_applies hA b din a h V ht stride hs

theorem mulVec_rises {M : Matrix (Fin 3) (Fin 3) ℝ} (hM : ∀ i j, 0 ≤ M i j) {x y : Fin 3 → ℝ} (h : ∀ i, x i ≤ y i) (i : Fin 3) : M.mulVec x i ≤ M.mulVec y i := by
  rw [Matrix.mulVec, Matrix.mulVec, dotProduct, dotProduct]
  exact Finset.sum_le_sum fun j _ => mul_le_mul_of_nonneg_left (h j) (hM i j)

/-- C158: matrices without negative entries. -/
theorem C158_matrix (A : Arith ℝ) (hA : A.Exact) (b : Base ℝ) (M : Matrix (Fin 3) (Fin 3) ℝ) (h : MatrixNode b M) (hM : ∀ i j, 0 ≤ M i j)
    (stride : ℕ) (hs : 3 ≤ stride) : Spec.OrderKept stride fun x => outOf (matrixProcess A b x stride) := by
  refine ⟨fun x => M.mulVec x, fun x y hxy i => mulVec_rises hM hxy i, fun pixels hp => ?_⟩
  show outOf (matrixProcess A b (Spec.image pixels) stride) = _
  rw [C10_linear A hA b M h stride (by omega) pixels fun p hpm => by have := hp p hpm; omega]
  rfl

/-- C158: also with offsets. -/
theorem C158_affine (A : Arith ℝ) (hA : A.Exact) (b : Base ℝ) (M : Matrix (Fin 3) (Fin 3) ℝ) (t : Fin 3 → ℝ) (h : AffineNode b M t)
    (hM : ∀ i j, 0 ≤ M i j) (stride : ℕ) (hs : 3 ≤ stride) : Spec.OrderKept stride fun x => outOf (matrixProcess A b x stride) := by
  refine ⟨fun x i => M.mulVec x i + t i, fun x y hxy i => add_le_add (mulVec_rises hM hxy i) le_rfl,
    fun pixels hp => ?_⟩
  show outOf (matrixProcess A b (Spec.image pixels) stride) = _
  rw [C10_affine A hA b M t h stride (by omega) pixels fun p hpm => by have := hp p hpm; omega]
  rfl

/-- C158: and only these. -/
theorem C158_matrix_only (A : Arith ℝ) (hA : A.Exact) (b : Base ℝ) (M : Matrix (Fin 3) (Fin 3) ℝ) (h : MatrixNode b M) (stride : ℕ) (hs : 3 ≤ stride)
    (hk : Spec.OrderKept stride fun x => outOf (matrixProcess A b x stride)) : ∀ i j, 0 ≤ M i j := by
  obtain ⟨G, hmono, hG⟩ := hk
  have lin : ∀ u : Fin 3 → ℝ, G u = M.mulVec u := by
    intro u
    have e := hG [(u, List.replicate (stride - 3) .nan)] (by simp; omega)
    simp only [outOf, C10_linear A hA b M h stride (by omega) [(u, List.replicate (stride - 3) .nan)] (by simp; omega), py_ok_bind, py_pure] at e
    have e := Except.ok.inj e
    simp [Spec.image, Spec.fins, List.ofFn_succ] at e
    funext c
    fin_cases c
    · exact e.1.symm
    · exact e.2.1.symm
    · exact e.2.2.symm
  intro i j
  have := hmono 0 (Pi.single j 1) (fun c => by
    rw [Pi.zero_apply, Pi.single_apply]
    split_ifs <;> norm_num) i
  rw [lin, lin, Matrix.mulVec_zero, Matrix.mulVec_single_one] at this
  exact this

/-- C158: Ranges, on pixels of three channels, clamping or not. -/
theorem C158_range (A : Arith ℝ) (hA : A.Exact) (b : Base ℝ) (din dout : AVal) (minIn maxIn minOut maxOut : ℝ)
    (h : FullRange b din dout minIn maxIn minOut maxOut) (hcl : Clamps b ∨ NoClamp b) (hi : minIn < maxIn) (ho : minOut ≤ maxOut) :
    Spec.OrderKept 3 fun x => outOf (rangeProcess A b x) := by
  have mono := (C07_map hi ho).2.2.1
  rcases hcl with hcl | hcl
  · refine ⟨fun x i => min maxOut (max minOut (Spec.affine minIn maxIn minOut maxOut (x i))),
      fun x y hxy i => min_le_min le_rfl (max_le_max le_rfl (mono _ _ (hxy i))), fun pixels hp => ?_⟩
    obtain ⟨xs, e1, e2⟩ := range_flat pixels (fun x => min maxOut (max minOut (Spec.affine minIn maxIn minOut maxOut x))) hp
    obtain ⟨r, k1, k2⟩ := C07_affine_clamped A hA b din dout minIn maxIn minOut maxOut h hcl hi.ne xs
    show outOf (rangeProcess A b (Spec.image pixels)) = _
    rw [e1, outOf, k1, py_ok_bind, py_pure, k2, ← e2]
  · refine ⟨fun x i => Spec.affine minIn maxIn minOut maxOut (x i), fun x y hxy i => mono _ _ (hxy i), fun pixels hp => ?_⟩
    obtain ⟨xs, e1, e2⟩ := range_flat pixels (Spec.affine minIn maxIn minOut maxOut) hp
    obtain ⟨r, k1, k2⟩ := C07_affine A hA b din dout minIn maxIn minOut maxOut h hcl hi.ne xs
    show outOf (rangeProcess A b (Spec.image pixels)) = _
    rw [e1, outOf, k1, py_ok_bind, py_pure, k2, ← e2]

/-! ### Examples -/

/-- The cube of three points per axis with the entries i², i + j and k. -/
def risingCube : Fin 3 → Fin 3 → Fin 3 → Fin 3 → ℝ := fun i j k => ![(i : ℕ) ^ 2, (i : ℕ) + (j : ℕ), (k : ℕ)]

theorem risingCube_rises : Spec.Rises (m := 2) risingCube := by
  intro i i' j j' k k' ch hi hj hk
  have a : ((i : ℕ) : ℝ) ≤ (i' : ℕ) := by exact_mod_cast hi
  have b : ((j : ℕ) : ℝ) ≤ (j' : ℕ) := by exact_mod_cast hj
  have c : ((k : ℕ) : ℝ) ≤ (k' : ℕ) := by exact_mod_cast hk
  fin_cases ch
  · exact pow_le_pow_left₀ (Nat.cast_nonneg _) a 2
  · exact add_le_add a b
  · exact c

def risingCubeArr : Arr ℝ := { dims := [3, 3, 3, 3], values := Spec.cube fun i j k ch => .fin (risingCube i j k ch) }

theorem risingCube_table : Table3D (m := 2) risingCubeArr risingCube := ⟨⟨[3], rfl⟩, rfl⟩

/-- A matrix, a curve, a cube and a clamping Range, one after the other. -/
example (A : Arith ℝ) (hA : Spec.RealArith A) (compat : ℕ) :
    let r : Base ℝ := ⟨[("inBitDepth", .str "10i"), ("outBitDepth", .str "8i")],
      [("minInValue", .fin 64), ("maxInValue", .fin 940), ("minOutValue", .fin 0), ("maxOutValue", .fin 255)], [], []⟩
    let m : Base ℝ := { attrs := [("inBitDepth", .str "16f"), ("outBitDepth", .str "16f")], elements := [.array { dims := [3, 3, 3], values := [.fin 1, .fin 2, .fin 0, .fin 0, .fin 1,
      .fin 3, .fin 0, .fin 0, .fin 1] }] }
    Spec.OrderKept 3 fun x => processList A compat [.leaf .matrix m,
      .leaf .lut1d (plainBase (.str "linear") { dims := [3, 1], values := [.fin 0, .fin 1, .fin 5] }),
      .leaf .lut3d (plainBase (.str "tetrahedral") risingCubeArr), .leaf .range r] x 3 := by
  intro r m
  refine C156_list A hA compat 3 _ ?_ ?_
  · intro n hn
    simp only [List.mem_cons, List.not_mem_nil, or_false] at hn
    rcases hn with rfl | rfl | rfl | rfl <;> rfl
  · intro n hn
    simp only [List.mem_cons, List.not_mem_nil, or_false] at hn
    rcases hn with rfl | rfl | rfl | rfl
    · refine C158_matrix A hA.exact m !![1, 2, 0; 0, 1, 3; 0, 0, 1] ⟨rfl, rfl, _, [3], rfl, rfl, rfl⟩ ?_ 3 le_rfl
      intro i j
      fin_cases i <;> fin_cases j <;> simp
    · refine C158_curve A hA.exact _ _ _ (plainBase_lut (by decide)) (m := 2) (c := 0) ![![0], ![1], ![5]] ⟨⟨[], rfl⟩, rfl, .inl rfl⟩ ?_ 3 le_rfl
      intro i j k h
      fin_cases i <;> fin_cases j <;> fin_cases k <;> simp at h ⊢
    · exact C158_cube A hA.exact _ _ _ (.inr rfl) _ (plainBase_lut3 _ _) risingCube risingCube_table risingCube_rises 3 le_rfl
    · exact C158_range A hA.exact r (.str "10i") (.str "8i") 64 940 0 255 (by constructor <;> rfl) (.inl (.inl rfl)) (by norm_num) (by norm_num)

/-- Two positions in it. -/
example : (![1 / 3, 1 / 2, 0] : Fin 3 → ℝ) ≤ ![1 / 2, 1 / 2, 1] := by
  intro i
  fin_cases i <;> norm_num

/-- An offset matrix. -/
example : AffineNode (n := 3) ({ attrs := [("inBitDepth", .str "16f"), ("outBitDepth", .str "16f")], elements := [.array { dims := [3, 4, 3], values := [.fin 1, .fin 2, .fin 0, .fin 7, .fin 0, .fin 1,
      .fin 3, .fin 8, .fin 0, .fin 0, .fin 1, .fin 9] }] } : Base ℝ) !![1, 2, 0; 0, 1, 3; 0, 0, 1] ![7, 8, 9] := ⟨rfl, rfl, _, [3], rfl, rfl, rfl⟩

/-- The inverse of the matrix above has negative entries, and so does not keep the order. -/
example (A : Arith ℝ) (hA : A.Exact) : ¬ Spec.OrderKept 3 fun x => outOf (matrixProcess A
    ({ attrs := [("inBitDepth", .str "16f"), ("outBitDepth", .str "16f")], elements := [.array { dims := [3, 3, 3], values := [.fin 1, .fin (-2), .fin 6, .fin 0, .fin 1,
      .fin (-3), .fin 0, .fin 0, .fin 1] }] } : Base ℝ) x 3) := by
  intro hk
  have := C158_matrix_only A hA _ !![1, -2, 6; 0, 1, -3; 0, 0, 1] ⟨rfl, rfl, _, [3], rfl, rfl, rfl⟩ 3 le_rfl hk 0 1
  norm_num at this

end CLF
