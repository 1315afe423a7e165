import Verif.Lemmas.Matrix
import Mathlib.LinearAlgebra.Matrix.Notation

/-! # Properties C10, C11: the Matrix node -/

set_option linter.unusedSectionVars false

namespace CLF

variable {K : Type} [Field K] [LinearOrder K] [IsStrictOrderedRing K] [FloorRing K]

/-- `b` is a Matrix node whose array holds the `n × n` matrix `M`, row by row. -/
structure MatrixNode {n : ℕ} (b : Base K) (M : Matrix (Fin n) (Fin n) K) : Prop where
  inDepth : (b.attrs.get? "inBitDepth").isSome
  outDepth : (b.attrs.get? "outBitDepth").isSome
  array : ∃ a rest, b.array = .ok a ∧ a.dims = n :: n :: rest ∧
    a.values = Spec.rowMajor fun i j => .fin (M i j)

/-- `b` is a Matrix node whose array holds the `n × (n+1)` matrix `[M | t]`. -/
structure AffineNode {n : ℕ} (b : Base K) (M : Matrix (Fin n) (Fin n) K) (t : Fin n → K) :
    Prop where
  inDepth : (b.attrs.get? "inBitDepth").isSome
  outDepth : (b.attrs.get? "outBitDepth").isSome
  array : ∃ a rest, b.array = .ok a ∧ a.dims = n :: (n + 1) :: rest ∧
    a.values = Spec.rowMajorAug (fun i j => .fin (M i j)) fun i => .fin (t i)

theorem attrE_of_isSome {b : Base K} {k : String} (h : (b.attrs.get? k).isSome) :
    ∃ v, b.attrE k = .ok v := by
  obtain ⟨v, hv⟩ := Option.isSome_iff_exists.mp h
  exact ⟨some v, by simp [Base.attrE, Dict.getE, hv]⟩

/-- Shared proof of C10: the node's rows compute `f`. -/
theorem matrixProcess_image (A : Arith K) {n : ℕ} (b : Base K) (a : Arr K) (d1 : ℕ)
    (rest : List ℕ) (h1 : (b.attrs.get? "inBitDepth").isSome)
    (h2 : (b.attrs.get? "outBitDepth").isSome) (ha : b.array = .ok a)
    (hd : a.dims = n :: d1 :: rest) (f : (Fin n → K) → Fin n → K)
    (hrow : ∀ v extra (i : Fin n),
      matrixRow A n d1 a.values (Spec.fins v ++ extra) i = .ok (.fin (f v i)))
    (stride : ℕ) (hs : 0 < stride) (pixels : List ((Fin n → K) × List (Flt K)))
    (hp : ∀ p ∈ pixels, n + p.2.length = stride) :
    matrixProcess A b (Spec.image pixels) stride
    = .ok ⟨Spec.image (pixels.map fun p => (f p.1, p.2)), Spec.image pixels, false⟩ := by
  obtain ⟨v1, e1⟩ := attrE_of_isSome h1
  obtain ⟨v2, e2⟩ := attrE_of_isSome h2
  have hbody : ∀ p ∈ pixels, (do
      let rows ← (List.range (min n (Spec.fins p.1 ++ p.2).length)).mapM
        (matrixRow A n d1 a.values (Spec.fins p.1 ++ p.2))
      (.ok (rows ++ (Spec.fins p.1 ++ p.2).drop (min n (Spec.fins p.1 ++ p.2).length)) :
        Py (List (Flt K)))) = .ok (Spec.fins (f p.1) ++ p.2) := by
    intro p _
    have hmin : min n (Spec.fins p.1 ++ p.2).length = n := by simp [Spec.fins]
    rw [hmin, range_mapM_ofFn n _ (fun i => .fin (f p.1 i)) (fun i => hrow p.1 p.2 i)]
    simp only [py_ok_bind]
    rw [List.drop_left' (by simp [Spec.fins])]; rfl
  unfold matrixProcess
  simp only [e1, e2, ha, hd, py_ok_bind]
  have hget0 : pyGet (n :: d1 :: rest) 0 = .ok n := rfl
  have hget1 : pyGet (n :: d1 :: rest) 1 = .ok d1 := rfl
  simp only [hget0, hget1, py_ok_bind]
  have hm := pixelLoop_chunks stride hs (fun value => do
      let rows ← (List.range (min n value.length)).mapM (matrixRow A n d1 a.values value)
      pure (value, rows ++ value.drop (min n value.length)))
    (pixels.map fun p => Spec.fins p.1 ++ p.2) [] (by
      intro c hc
      obtain ⟨p, hp', rfl⟩ := List.mem_map.mp hc
      simpa [Spec.fins] using hp p hp') (by simpa) (by
      intro c hc v o h
      obtain ⟨p, hp', rfl⟩ := List.mem_map.mp hc
      have hb := hbody p hp'
      obtain ⟨rows, hr, hb⟩ := py_bind_eq_ok.mp hb
      simp only [hr, py_ok_bind, py_pure, Except.ok.injEq, Prod.mk.injEq] at h hb
      obtain ⟨rfl, rfl⟩ := h
      rw [hb]
      constructor <;> simpa [Spec.fins] using hp p hp')
  rw [List.append_nil] at hm
  unfold Spec.image
  refine hm.trans ?_
  have : ∀ c ∈ pixels, (fun value => (do
      let rows ← (List.range (min n value.length)).mapM (matrixRow A n d1 a.values value)
      pure (value, rows ++ value.drop (min n value.length)) :
        Py (List (Flt K) × List (Flt K)))) (Spec.fins c.1 ++ c.2)
      = .ok (Spec.fins c.1 ++ c.2, Spec.fins (f c.1) ++ c.2) := by
    intro c hc
    have hb := hbody c hc
    obtain ⟨rows, hr, hb⟩ := py_bind_eq_ok.mp hb
    simp only [Except.ok.injEq] at hb
    simp only [hr, py_ok_bind, py_pure, hb]
  have e := py_mapM_ok _ (fun p : (Fin n → K) × List (Flt K) =>
    (Spec.fins p.1 ++ p.2, Spec.fins (f p.1) ++ p.2)) pixels this
  rw [List.mapM_map]
  refine (congrArg (· >>= _) e).trans ?_
  simp [Function.comp_def]

/-- C10: an `n × n` Matrix node maps the first `n` channels `v` of each pixel to
`M v` and returns the other channels unchanged. -/
theorem C10_linear (A : Arith K) (hA : A.Exact) {n : ℕ} (b : Base K) (M : Matrix (Fin n) (Fin n) K)
    (h : MatrixNode b M) (stride : ℕ) (hs : 0 < stride)
    (pixels : List ((Fin n → K) × List (Flt K))) (hp : ∀ p ∈ pixels, n + p.2.length = stride) :
    matrixProcess A b (Spec.image pixels) stride
    = .ok ⟨Spec.image (pixels.map fun p => (M.mulVec p.1, p.2)), Spec.image pixels, false⟩ := by
  obtain ⟨a, rest, ha, hd, hv⟩ := h.array
  exact matrixProcess_image A b a n rest h.inDepth h.outDepth ha hd _
    (fun v e i => by rw [hv]; exact matrixRow_linear A hA M v e i) stride hs pixels hp

/-- C10: an `n × (n+1)` Matrix node maps the first `n` channels `v` of each pixel
to `M v + t` and returns the other channels unchanged. -/
theorem C10_affine (A : Arith K) (hA : A.Exact) {n : ℕ} (b : Base K) (M : Matrix (Fin n) (Fin n) K)
    (t : Fin n → K) (h : AffineNode b M t) (stride : ℕ) (hs : 0 < stride)
    (pixels : List ((Fin n → K) × List (Flt K))) (hp : ∀ p ∈ pixels, n + p.2.length = stride) :
    matrixProcess A b (Spec.image pixels) stride
    = .ok ⟨Spec.image (pixels.map fun p => (fun i => M.mulVec p.1 i + t i, p.2)),
        Spec.image pixels, false⟩ := by
  obtain ⟨a, rest, ha, hd, hv⟩ := h.array
  exact matrixProcess_image A b a (n + 1) rest h.inDepth h.outDepth ha hd _
    (fun v e i => by rw [hv]; exact matrixRow_affine A hA M t v e i) stride hs pixels hp

/-- C10: with stride 0 the whole array is one pixel. -/
theorem C10_single (A : Arith K) (hA : A.Exact) {n : ℕ} (b : Base K) (M : Matrix (Fin n) (Fin n) K)
    (h : MatrixNode b M) (v : Fin n → K) (extra : List (Flt K)) (hne : 0 < n + extra.length) :
    matrixProcess A b (Spec.fins v ++ extra) 0
    = .ok ⟨Spec.fins (M.mulVec v) ++ extra, Spec.fins v ++ extra, false⟩ := by
  have := C10_linear A hA b M h (n + extra.length) hne [(v, extra)] (by simp)
  simp only [Spec.image, List.map_cons, List.map_nil, List.flatten_cons, List.flatten_nil,
    List.append_nil] at this
  rw [← this]
  unfold matrixProcess
  simp only [pixelLoop_zero]
  simp [Spec.fins]

/-- C11: Matrix `M` followed by Matrix `N` gives what the Matrix `N * M` gives. -/
theorem C11_composition (A : Arith K) (hA : A.Exact) {n : ℕ} (bM bN bP : Base K)
    (M N : Matrix (Fin n) (Fin n) K) (hM : MatrixNode bM M) (hN : MatrixNode bN N)
    (hP : MatrixNode bP (N * M)) (stride : ℕ) (hs : 0 < stride)
    (pixels : List ((Fin n → K) × List (Flt K))) (hp : ∀ p ∈ pixels, n + p.2.length = stride) :
    ∃ r1 r2 rp, matrixProcess A bM (Spec.image pixels) stride = .ok r1 ∧
      matrixProcess A bN r1.out stride = .ok r2 ∧
      matrixProcess A bP (Spec.image pixels) stride = .ok rp ∧ r2.out = rp.out := by
  refine ⟨_, _, _, C10_linear A hA bM M hM stride hs pixels hp,
    C10_linear A hA bN N hN stride hs _ (by
      rintro p' hp'
      obtain ⟨p, h', rfl⟩ := List.mem_map.mp hp'
      exact hp p h'),
    C10_linear A hA bP _ hP stride hs pixels hp, ?_⟩
  simp [Matrix.mulVec_mulVec, Function.comp_def]

/-- C11: and the affine version, `v ↦ N (M v + t) + u`. -/
theorem C11_composition_affine (A : Arith K) (hA : A.Exact) {n : ℕ} (bM bN bP : Base K)
    (M N : Matrix (Fin n) (Fin n) K) (t u : Fin n → K) (hM : AffineNode bM M t)
    (hN : AffineNode bN N u) (hP : AffineNode bP (N * M) (N.mulVec t + u)) (stride : ℕ)
    (hs : 0 < stride)
    (pixels : List ((Fin n → K) × List (Flt K))) (hp : ∀ p ∈ pixels, n + p.2.length = stride) :
    ∃ r1 r2 rp, matrixProcess A bM (Spec.image pixels) stride = .ok r1 ∧
      matrixProcess A bN r1.out stride = .ok r2 ∧
      matrixProcess A bP (Spec.image pixels) stride = .ok rp ∧ r2.out = rp.out := by
  refine ⟨_, _, _, C10_affine A hA bM M t hM stride hs pixels hp,
    C10_affine A hA bN N u hN stride hs _ (by
      rintro p' hp'
      obtain ⟨p, h', rfl⟩ := List.mem_map.mp hp'
      exact hp p h'),
    C10_affine A hA bP _ _ hP stride hs pixels hp, ?_⟩
  simp only [List.map_map, Function.comp_def]
  congr 1
  apply List.map_congr_left
  intro p _
  refine Prod.ext_iff.mpr ⟨?_, rfl⟩
  funext i
  have e : (fun i => M.mulVec p.1 i + t i) = M.mulVec p.1 + t := rfl
  simp only [e, Matrix.mulVec_add, Matrix.mulVec_mulVec, Pi.add_apply]
  rw [add_assoc]

/-! ### C78 -/

/-- `b` is a Matrix node whose array holds the `n × m` matrix `M`, row by row. -/
structure WideNode {n m : ℕ} (b : Base K) (M : Fin n → Fin m → K) : Prop where
  inDepth : (b.attrs.get? "inBitDepth").isSome
  outDepth : (b.attrs.get? "outBitDepth").isSome
  array : ∃ a rest, b.array = .ok a ∧ a.dims = n :: m :: rest ∧
    a.values = Spec.rowMajor fun i j => .fin (M i j)

/-- C78: a Matrix with more columns than rows, but not one more, uses the first `n`
columns and no offset. -/
theorem C78_wide (A : Arith K) (hA : A.Exact) {n m : ℕ} (hnm : n ≤ m) (hm : m ≠ n + 1) (b : Base K)
    (M : Fin n → Fin m → K) (h : WideNode b M) (stride : ℕ) (hs : 0 < stride)
    (pixels : List ((Fin n → K) × List (Flt K))) (hp : ∀ p ∈ pixels, n + p.2.length = stride) :
    matrixProcess A b (Spec.image pixels) stride
    = .ok ⟨Spec.image (pixels.map fun p =>
        (fun i => ∑ j, M i (Fin.castLE hnm j) * p.1 j, p.2)), Spec.image pixels, false⟩ := by
  obtain ⟨a, rest, ha, hd, hv⟩ := h.array
  refine matrixProcess_image A b a m rest h.inDepth h.outDepth ha hd
    (fun v i => ∑ j, M i (Fin.castLE hnm j) * v j) (fun v e i => ?_) stride hs pixels hp
  rw [hv]
  unfold matrixRow
  simp only [hm, if_false]
  rw [dot_loop A hA _ _ _ (fun j => if h : j < m then M i ⟨j, h⟩ else 0)
    (fun j => if h : j < n then v ⟨j, h⟩ else 0)]
  · simp only [py_ok_bind, py_pure, zero_add]
    rw [Finset.sum_range]
    congr 2
    refine Finset.sum_congr rfl fun j _ => ?_
    have : (j : ℕ) < m := by omega
    simp [this, Fin.castLE]
  · intro j hj
    have hj' : j < m := by omega
    rw [rowMajor_get _ _ _ i.2 hj']; simp [hj']
  · intro j hj
    rw [pyGet_eq_ok, Spec.fins, List.getElem?_append_left (by simpa using hj)]
    simp [hj]

/-! ### Instances -/


/-- A Matrix node as built by `setMatrix` from nine coefficients. -/
def exampleMatrixBase (vs : List ℚ) (d : List ℕ) : Base ℚ where
  attrs := [("inBitDepth", .str "16f"), ("outBitDepth", .str "16f")]
  elements := [.array { dims := d, values := vs.map .fin }]

example : MatrixNode (exampleMatrixBase [1, 2, 3, 4, 5, 6, 7, 8, 10] [3, 3, 3])
    !![1, 2, 3; 4, 5, 6; 7, 8, 10] :=
  ⟨rfl, rfl, _, [3], rfl, rfl, rfl⟩
example : WideNode (exampleMatrixBase [1, 2, 5, 7, 3, 4, 6, 8] [2, 4, 2])
    ![![1, 2, 5, 7], ![3, 4, 6, 8]] := ⟨rfl, rfl, _, [2], rfl, rfl, rfl⟩
example : AffineNode (exampleMatrixBase [1, 2, 5, 3, 4, 6] [2, 3, 2]) !![1, 2; 3, 4] ![5, 6] :=
  ⟨rfl, rfl, _, [2], rfl, rfl, rfl⟩

end CLF
