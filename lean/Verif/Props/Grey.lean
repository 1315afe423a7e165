import Verif.Lemmas.Grey
import Verif.Props.RoundedList
import Verif.Props.Matrix
import Verif.Props.Nodes

/-! # C157: greys stay grey -/

set_option linter.unusedSectionVars false

namespace CLF

variable {K : Type} [Field K] [LinearOrder K] [IsStrictOrderedRing K] [FloorRing K]

/-- C157: a list of nodes that treat red, green and blue alike takes grey pixels to grey pixels, to the last bit: whatever the rounding (if it leaves 0 alone)
and whatever the library of powers and logarithms. -/
theorem C157_list (E : Evaluator K) (h0 : E.rounding double (.fin 0) = .fin 0) (compat : ℕ) (ns : List (Node K)) (hns : ∀ n ∈ ns, Spec.Colourless n)
    (s : ℕ) (hs : 3 ≤ s) (v out : List (Flt K)) (hv : Spec.GreyImage s v) (h : processListR E compat ns v s = .ok out) : Spec.GreyImage s out := by
  unfold processListR at h
  obtain ⟨r, hr, h⟩ := py_bind_eq_ok.mp h
  cases h
  exact grey_nodes E h0 compat hs ns hns false none _ r (grey_map _ hv) hr

/-- C157 in IEEE arithmetic. -/
theorem C157_ieee (t : Base K → Fmt) (L : Arith K) (compat : ℕ) (ns : List (Node K)) (hns : ∀ n ∈ ns, Spec.Colourless n)
    (s : ℕ) (hs : 3 ≤ s) (v out : List (Flt K)) (hv : Spec.GreyImage s v) (h : processListR ⟨ieee, t, L⟩ compat ns v s = .ok out) : Spec.GreyImage s out :=
  C157_list _ (by
    show ieee double (.fin 0) = .fin 0
    rw [double_fin (by rw [abs_zero]; exact le_trans (by norm_num) (thousand_le (K := K))), Fmt.near_zero]) compat ns hns s hs v out hv h

/-- C157 in exact arithmetic. -/
theorem C157_exact (A : Arith K) (hA : A.Exact) (compat : ℕ) (ns : List (Node K)) (hns : ∀ n ∈ ns, Spec.Colourless n)
    (s : ℕ) (hs : 3 ≤ s) (v out : List (Flt K)) (hv : Spec.GreyImage s v) (h : processList A compat ns v s = .ok out) : Spec.GreyImage s out :=
  C157_list ⟨unrounded, fun _ => single, A⟩ rfl compat ns hns s hs v out hv (by rw [C133_exact A hA]; exact h)

/-- C157: in exact arithmetic a Matrix with rows of the same sum multiplies greys by that sum. -/
theorem C157_matrix (A : Arith K) (hA : A.Exact) {n : ℕ} (b : Base K) (M : Matrix (Fin n) (Fin n) K) (h : MatrixNode b M) (ρ : K)
    (hM : ∀ i, ∑ j, M i j = ρ) (stride : ℕ) (hs : 0 < stride) (pixels : List (K × List (Flt K))) (hp : ∀ p ∈ pixels, n + p.2.length = stride) :
    (matrixProcess A b (Spec.image (pixels.map fun p => (fun _ : Fin n => p.1, p.2))) stride).map (·.out) =
      .ok (Spec.image (pixels.map fun p => (fun _ : Fin n => ρ * p.1, p.2))) := by
  rw [C10_linear A hA b M h stride hs _ (by
    intro q hq
    obtain ⟨p, hpm, rfl⟩ := List.mem_map.mp hq
    exact hp p hpm)]
  show Except.ok (Spec.image _) = _
  rw [List.map_map]
  congr 3
  funext p
  show (_, p.2) = (_, p.2)
  congr 1
  funext i
  rw [Matrix.mulVec, dotProduct, ← Finset.sum_mul, hM]

/-- C157: and only these keep white grey. -/
theorem C157_matrix_only (A : Arith K) (hA : A.Exact) {n : ℕ} (b : Base K) (M : Matrix (Fin n) (Fin n) K) (h : MatrixNode b M) (hn : 0 < n) (g : K)
    (hw : (matrixProcess A b (Spec.fins fun _ : Fin n => (1 : K)) n).map (·.out) = .ok (Spec.fins fun _ : Fin n => g)) : ∀ i, ∑ j, M i j = g := by
  have k := C10_linear A hA b M h n hn [(fun _ => 1, [])] (by simp)
  have e : ∀ f : Fin n → K, Spec.image [(f, ([] : List (Flt K)))] = Spec.fins f := fun f => by simp [Spec.image]
  rw [List.map_cons, List.map_nil, e, e] at k
  rw [k] at hw
  have hw := Except.ok.inj hw
  intro i
  have := congrArg (fun l : List (Flt K) => l[(i : ℕ)]?) hw
  simpa [Spec.fins, Matrix.mulVec, dotProduct] using this

/-- A cube of two entries per axis that is black but for red, which stays red, and white, which stays white. -/
def redCube : Arr ℚ where
  dims := [2, 2, 2, 3]
  values := [[0, 0, 0], [0, 0, 0], [0, 0, 0], [0, 0, 0], [1, 0, 0], [0, 0, 0], [0, 0, 0], [1, 1, 1]].flatten.map Flt.fin

theorem redCube_diagonal : Spec.GreyDiagonal redCube :=
  ⟨⟨2, [3], by norm_num, rfl, by decide +kernel⟩, by
    intro x hx
    obtain ⟨q, -, rfl⟩ := List.mem_map.mp hx
    exact ⟨q, rfl⟩⟩

/-- A CDL that takes half the colour away, a 1D LUT, that cube, and a Range. -/
def greyNodes : List (Node ℚ) :=
  [.leaf (.cdl false { slope := some [.fin 2, .fin 2, .fin 2], saturation := some (.fin (1 / 2)) })
      { attrs := [("inBitDepth", .str "32f"), ("outBitDepth", .str "32f"), ("style", .str "Fwd")] },
    .group { attrs := [("inBitDepth", .str "32f"), ("outBitDepth", .str "32f")] }
      [.leaf .lut1d { attrs := [("inBitDepth", .str "32f"), ("outBitDepth", .str "32f")], elements := [.array { dims := [3, 1], values := [.fin 0, .fin (1 / 8), .fin 1] }] },
       .leaf .lut3d { attrs := [("inBitDepth", .str "32f"), ("outBitDepth", .str "32f"), ("interpolation", .str "tetrahedral")], elements := [.array redCube] }],
    .leaf .range { attrs := [("inBitDepth", .str "32f"), ("outBitDepth", .str "8i")] }]

theorem greyNodes_colourless : ∀ n ∈ greyNodes, Spec.Colourless n := by
  intro n hn
  simp only [greyNodes, List.mem_cons, List.not_mem_nil, or_false] at hn
  rcases hn with rfl | rfl | rfl
  · refine .cdl ?_ ?_ ?_
    · rintro v ⟨⟩; exact ⟨_, rfl⟩
    · rintro v ⟨⟩
    · rintro v ⟨⟩
  · refine .group ?_
    intro m hm
    simp only [List.mem_cons, List.not_mem_nil, or_false] at hm
    rcases hm with rfl | rfl
    · refine .lut1d ?_ (by decide)
      intro a ha
      cases ha
      exact .inl (by decide)
    · refine .lut3d (by decide) ?_ (by decide)
      intro a ha
      cases ha
      exact redCube_diagonal
  · exact .range

theorem greyImage_ok (x y : Flt K) : Spec.GreyImage 4 [x, x, x, y] := by
  intro k hk c hc
  have : k = 0 := by simp at hk; omega
  subst this
  match c, hc with
  | 0, _ => rfl
  | 1, _ => rfl
  | 2, _ => rfl

example : processListR ⟨ieee, fun _ => single, ratArith⟩ autodesk greyNodes [.fin (1 / 3), .fin (1 / 3), .fin (1 / 3), .fin 1] 4
    = .ok [.fin (13926401 / 131072), .fin (13926401 / 131072), .fin (13926401 / 131072), .fin 255] := by decide +kernel

example (out : List (Flt ℚ)) (h : processListR ⟨ieee, fun _ => single, ratArith⟩ autodesk greyNodes [.fin (1 / 3), .fin (1 / 3), .fin (1 / 3), .fin 1] 4 = .ok out) :
    Spec.GreyImage 4 out := C157_ieee _ _ _ _ greyNodes_colourless 4 (by norm_num) _ _ (greyImage_ok _ _) h

example (out : List (Flt ℚ)) (h : processList ratArith autodesk greyNodes [.fin (1 / 3), .fin (1 / 3), .fin (1 / 3), .fin 1] 4 = .ok out) :
    Spec.GreyImage 4 out := C157_exact ratArith (fun _ => rfl) _ _ greyNodes_colourless 4 (by norm_num) _ _ (greyImage_ok _ _) h

/-- C157 is false of trilinear cubes: with black and white in the corners of the cube, the grey in the middle comes out reddish. -/
theorem C157_trilinear_false : ∃ (b : Base ℚ) (out : List (Flt ℚ)), (∀ a, b.array = .ok a → Spec.GreyDiagonal a) ∧ b.indexMaps = [] ∧
    b.styleOf "interpolation" = .str "trilinear" ∧ Spec.GreyImage 3 [.fin (1 / 2 : ℚ), .fin (1 / 2), .fin (1 / 2)] ∧
    (lut3dProcessR ieee b [.fin (1 / 2), .fin (1 / 2), .fin (1 / 2)] 3).map (·.out) = .ok out ∧ ¬ Spec.GreyImage 3 out :=
  ⟨{ attrs := [("inBitDepth", .str "32f"), ("outBitDepth", .str "32f"), ("interpolation", .str "trilinear")], elements := [.array redCube] },
    [.fin (1 / 4), .fin (1 / 8), .fin (1 / 8)], by
      intro a ha
      cases ha
      exact redCube_diagonal, rfl, rfl, by
      intro k hk c hc
      have : k = 0 := by simp at hk; omega
      subst this
      match c, hc with
      | 0, _ => rfl
      | 1, _ => rfl
      | 2, _ => rfl, by decide +kernel, by
      intro h
      have := h 0 (by norm_num) 1 (by norm_num)
      revert this
      decide +kernel⟩

/-- A Matrix node whose rows have the same sum. -/
def evenMatrix : Base ℚ :=
  { attrs := [("inBitDepth", .str "32f"), ("outBitDepth", .str "32f")]
    elements := [.array { dims := [3, 3], values := [[1, 1 / 2 ^ 24, 1 / 2 ^ 24], [1 / 2 ^ 24, 1 / 2 ^ 24, 1], [1, 1 / 2 ^ 24, 1 / 2 ^ 24]].flatten.map Flt.fin }] }

theorem evenMatrix_node : MatrixNode evenMatrix !![1, 1 / 2 ^ 24, 1 / 2 ^ 24; 1 / 2 ^ 24, 1 / 2 ^ 24, 1; 1, 1 / 2 ^ 24, 1 / 2 ^ 24] :=
  ⟨rfl, rfl, _, [], rfl, rfl, by decide +kernel⟩

example : ∀ i, ∑ j, (!![1, 1 / 2 ^ 24, 1 / 2 ^ 24; 1 / 2 ^ 24, 1 / 2 ^ 24, 1; 1, 1 / 2 ^ 24, 1 / 2 ^ 24] : Matrix (Fin 3) (Fin 3) ℚ) i j = 1 + 1 / 2 ^ 23 :=
  C157_matrix_only ratArith (fun _ => rfl) evenMatrix _ evenMatrix_node (by norm_num) _ (by decide +kernel)

example : (matrixProcess ratArith evenMatrix (Spec.image [(fun _ : Fin 3 => 8, [Flt.fin 5])]) 4).map (·.out) =
    .ok (Spec.image [(fun _ : Fin 3 => (1 + 1 / 2 ^ 23) * 8, [.fin 5])]) :=
  C157_matrix ratArith (fun _ => rfl) evenMatrix _ evenMatrix_node _ (by decide +kernel) 4 (by norm_num) [(8, [.fin 5])] (by simp)

/-- C157 is false of Matrix nodes in IEEE arithmetic: the rows of this one have the same sum, all entries are in `float32`, and white comes out greenish
by a bit. -/
theorem C157_matrix_false : ∃ (b : Base ℚ) (M : Matrix (Fin 3) (Fin 3) ℚ) (ρ : ℚ) (out : List (Flt ℚ)), MatrixNode b M ∧ (∀ i, ∑ j, M i j = ρ) ∧
    (∀ i j, Spec.IsSingle (M i j)) ∧ (matrixProcessR ieee single b [.fin 1, .fin 1, .fin 1] 3).map (·.out) = .ok out ∧ ¬ Spec.GreyImage 3 out := by
  refine ⟨evenMatrix, _, 1 + 1 / 2 ^ 23, [.fin 1, .fin (1 + 1 / 2 ^ 23), .fin 1], evenMatrix_node, by decide +kernel, ?_, by decide +kernel, ?_⟩
  · unfold Spec.IsSingle
    decide +kernel
  · intro h
    have := h 0 (by norm_num) 1 (by norm_num)
    revert this
    decide +kernel

end CLF
