import Verif.Model.Ocio
import Verif.Props.Matrix
import Verif.Props.Convert

/-!
# OpenColorIO conversion (C63, C64)
-/

set_option linter.unusedSectionVars false

namespace CLF

variable {K : Type} [Field K] [LinearOrder K] [IsStrictOrderedRing K] [FloorRing K]

/-- What OpenColorIO computes for a colour with its alpha: the first three components of
`M p + o`. -/
def Spec.ocioMatrix (M : Fin 4 → Fin 4 → K) (o : Fin 4 → K) (p : Fin 4 → K) (i : Fin 3) : K :=
  (∑ j, M i.castSucc j * p j) + o i.castSucc

/-- The entries of a matrix as OpenColorIO lists them. -/
def Spec.entries (M : Fin 4 → Fin 4 → K) : List (Flt K) := Spec.rowMajor fun i j => .fin (M i j)

/-- The matrix passes the test for a hidden 3×3 matrix. -/
def Spec.Passes (M : Fin 4 → Fin 4 → K) : Prop :=
  M 0 3 = 0 ∧ M 1 3 = 0 ∧ M 0 0 ≠ 0 ∧ M 3 0 = 0 ∧ M 3 1 = 0

theorem entries_eq (M : Fin 4 → Fin 4 → K) : Spec.entries M =
    [.fin (M 0 0), .fin (M 0 1), .fin (M 0 2), .fin (M 0 3),
     .fin (M 1 0), .fin (M 1 1), .fin (M 1 2), .fin (M 1 3),
     .fin (M 2 0), .fin (M 2 1), .fin (M 2 2), .fin (M 2 3),
     .fin (M 3 0), .fin (M 3 1), .fin (M 3 2), .fin (M 3 3)] := by
  simp [Spec.entries, Spec.rowMajor, List.ofFn_succ]

theorem fins4_eq (o : Fin 4 → K) : Spec.fins o = [.fin (o 0), .fin (o 1), .fin (o 2), .fin (o 3)] := by
  simp [Spec.fins, List.ofFn_succ]

theorem looksLike33_eq (M : Fin 4 → Fin 4 → K) [Decidable (Spec.Passes M)] :
    looksLike33 (Spec.entries M) = .ok (decide (Spec.Passes M)) := by
  rw [entries_eq]
  show Except.ok (decide _) = _
  congr 1
  apply decide_eq_decide.mpr
  simp only [Flt.fin.injEq, ne_eq, Spec.Passes]
  tauto

/-- The node of a matrix. -/
def ocioMatrixNode (dims : List ℕ) (vs : List (Flt K)) : Node K :=
  .leaf .matrix (setMatrix (newBase float16 float16 (.str "matrix1") (.str "matrix1")) dims vs)

theorem convertMatrix_kept (M : Fin 4 → Fin 4 → K) (o : Fin 4 → K) (h : ¬ Spec.Passes M) :
    convertMatrix (Spec.entries M) (Spec.fins o) true
      = .ok (some (ocioMatrixNode [4, 4, 3] (Spec.entries M))) := by
  classical
  have hl : (Spec.entries M).length = 16 := by rw [entries_eq]; rfl
  unfold convertMatrix matrixEntries
  simp only [if_true, hl, looksLike33_eq, py_ok_bind, h, decide_false, Bool.false_eq_true, if_false,
    py_pure, matrixResolution]
  rfl

theorem convertMatrix_small (M : Fin 4 → Fin 4 → K) (o : Fin 4 → K) (h : Spec.Passes M)
    (h0 : o 0 = 0) (h1 : o 1 = 0) (h2 : o 2 = 0) :
    convertMatrix (Spec.entries M) (Spec.fins o) true
      = .ok (some (ocioMatrixNode [3, 3, 3]
        (Spec.rowMajor fun (i j : Fin 3) => .fin (M i.castSucc j.castSucc)))) := by
  classical
  have hl : (Spec.entries M).length = 16 := by rw [entries_eq]; rfl
  have g0 : pyGet (Spec.fins o) 0 = .ok (.fin 0) := by rw [fins4_eq, h0]; rfl
  have g1 : pyGet (Spec.fins o) 1 = .ok (.fin 0) := by rw [fins4_eq, h1]; rfl
  have g2 : pyGet (Spec.fins o) 2 = .ok (.fin 0) := by rw [fins4_eq, h2]; rfl
  unfold convertMatrix matrixEntries
  simp only [if_true, hl, looksLike33_eq, py_ok_bind, h, decide_true, g0, g1, g2, py_pure,
    ne_eq, not_true_eq_false, or_self, if_false]
  rw [entries_eq]
  simp [Spec.rowMajor, List.ofFn_succ, ocioMatrixNode, pySlice]

/-- The entries after the offset has been stored. -/
def withOffset (M : Fin 4 → Fin 4 → K) (o : Fin 4 → K) : List (Flt K) :=
  (Spec.rowMajorAug (fun (i j : Fin 3) => .fin (M i.castSucc j.castSucc)) fun i => .fin (o i.castSucc)) ++
    [.fin (M 3 0), .fin (M 3 1), .fin (M 3 2), .fin (M 3 3)]

theorem convertMatrix_offset (M : Fin 4 → Fin 4 → K) (o : Fin 4 → K) (h : Spec.Passes M)
    (ho : o 0 ≠ 0 ∨ o 1 ≠ 0 ∨ o 2 ≠ 0) :
    convertMatrix (Spec.entries M) (Spec.fins o) true
      = .ok (some (ocioMatrixNode [3, 4, 3] (withOffset M o))) := by
  classical
  have hl : (Spec.entries M).length = 16 := by rw [entries_eq]; rfl
  have g0 : pyGet (Spec.fins o) 0 = .ok (.fin (o 0)) := by rw [fins4_eq]; rfl
  have g1 : pyGet (Spec.fins o) 1 = .ok (.fin (o 1)) := by rw [fins4_eq]; rfl
  have g2 : pyGet (Spec.fins o) 2 = .ok (.fin (o 2)) := by rw [fins4_eq]; rfl
  have hc : Flt.fin (o 0) ≠ Flt.fin 0 ∨ Flt.fin (o 1) ≠ Flt.fin 0 ∨ Flt.fin (o 2) ≠ Flt.fin 0 := by
    simpa using ho
  unfold convertMatrix matrixEntries
  simp only [if_true, hl, looksLike33_eq, py_ok_bind, h, decide_true, g0, g1, g2, py_pure, hc]
  rw [entries_eq]
  simp [withOffset, Spec.rowMajorAug, List.ofFn_succ, ocioMatrixNode, pySet, py_ok_bind]

theorem ocioMatrixNode_bypass (dims : List ℕ) (vs : List (Flt K)) :
    (ocioMatrixNode dims vs).attr "bypass" = none := rfl

/-- A matrix node as a list. -/
theorem ocioMatrixNode_list (A : Arith K) (hA : A.Exact) (compat stride : ℕ) (dims : List ℕ)
    (vs v out : List (Flt K)) (arg : List (Flt K)) (same : Bool)
    (h : matrixProcess A (setMatrix (newBase float16 float16 (.str "matrix1") (.str "matrix1")) dims vs) v
      stride = .ok ⟨out, arg, same⟩) :
    processList A compat [ocioMatrixNode dims vs] v stride = .ok out := by
  rw [processList_one A hA compat stride _ (ocioMatrixNode_bypass dims vs)]
  unfold ocioMatrixNode
  rw [outOf_leaf]
  show (do let r ← matrixProcess A _ v stride; .ok r.out) = _
  rw [h]
  rfl

/-- Entries after those of the rows do not matter. -/
theorem matrixRow_append (A : Arith K) {d0 : ℕ} (m rest value : List (Flt K)) (i n : ℕ)
    (hl : m.length = n * (d0 + 1)) (hi : i < n) :
    matrixRow A d0 (d0 + 1) (m ++ rest) value i = matrixRow A d0 (d0 + 1) m value i := by
  have hin : i * (d0 + 1) + (d0 + 1) ≤ m.length := by
    rw [hl, ← Nat.succ_mul]
    exact Nat.mul_le_mul_right _ hi
  have hget : ∀ k, k < i * (d0 + 1) + (d0 + 1) → pyGet (m ++ rest) k = pyGet m k := by
    intro k hk
    unfold pyGet
    rw [List.getElem?_append_left (by omega)]
  unfold matrixRow
  have hlast : pyGet (m ++ rest) (i * (d0 + 1) + (d0 + 1) - 1) = pyGet m (i * (d0 + 1) + (d0 + 1) - 1) :=
    hget _ (by omega)
  simp only [if_true, hlast]
  congr 1
  have : ∀ (l : List ℕ) (a : Flt K), (∀ j ∈ l, j < d0) → l.foldlM (init := a) (fun acc j => do
      let c ← pyGet (m ++ rest) (j + i * (d0 + 1))
      let v ← pyGet value j
      (pure (A.f32 (acc + c * v)) : Py (Flt K)))
    = l.foldlM (init := a) (fun acc j => do
      let c ← pyGet m (j + i * (d0 + 1))
      let v ← pyGet value j
      pure (A.f32 (acc + c * v))) := by
    intro l
    induction l with
    | nil => intros; rfl
    | cons j l ih =>
      intro a hj
      simp only [List.foldlM_cons]
      have := hj j (by simp)
      rw [hget _ (by omega)]
      congr 1
      funext x
      exact ih x fun k hk => hj k (by simp [hk])
  exact this _ _ fun j hj => by simpa using hj

/-- C63, as far as it holds: a matrix that acts on red, green and blue alone (with an upper
left entry other than 0) converts to a node that maps every pixel as OpenColorIO does,
whatever the alpha, and passes further channels on.  Missing: matrices that use the alpha, or
whose upper left entry is 0 (`C63_offset_lost`, `C63_alpha_lost`, `C63_rgb_raises`). -/
theorem C63_colour_partial (A : Arith K) (hA : A.Exact) (compat : ℕ) (M : Fin 4 → Fin 4 → K)
    (o : Fin 4 → K) (h : Spec.Passes M) (h23 : M 2 3 = 0) :
    ∃ n, convertMatrix (Spec.entries M) (Spec.fins o) true = .ok (some n) ∧
      ∀ (stride : ℕ) (pixels : List ((Fin 3 → K) × List (Flt K))) (alpha : K),
        0 < stride → (∀ p ∈ pixels, 3 + p.2.length = stride) →
        processList A compat [n] (Spec.image pixels) stride
          = .ok (Spec.image (pixels.map fun p => (Spec.ocioMatrix M o (Fin.snoc p.1 alpha), p.2))) := by
  have hcol : ∀ i : Fin 3, M i.castSucc 3 = 0 := by
    intro i
    fin_cases i
    · exact h.1
    · exact h.2.1
    · exact h23
  have hspec : ∀ (v : Fin 3 → K) (alpha : K) (i : Fin 3), Spec.ocioMatrix M o (Fin.snoc v alpha) i
      = (Matrix.of fun (i j : Fin 3) => M i.castSucc j.castSucc).mulVec v i + o i.castSucc := by
    intro v alpha i
    unfold Spec.ocioMatrix
    rw [Fin.sum_univ_castSucc]
    simp only [Fin.snoc_castSucc, Fin.snoc_last]
    have : M i.castSucc (Fin.last 3) = 0 := hcol i
    rw [this, zero_mul, add_zero]
    rfl
  by_cases ho : o 0 ≠ 0 ∨ o 1 ≠ 0 ∨ o 2 ≠ 0
  · refine ⟨_, convertMatrix_offset M o h ho, fun stride pixels alpha hs hp => ?_⟩
    refine ocioMatrixNode_list A hA compat stride _ _ _ _ _ _
      (matrixProcess_image A _ ⟨[3, 4, 3], withOffset M o, false, false, "string"⟩ 4 [3] rfl rfl rfl rfl
        (fun v => Spec.ocioMatrix M o (Fin.snoc v alpha)) (fun v extra i => ?_) stride hs pixels hp)
    rw [hspec]
    have := matrixRow_affine A hA (Matrix.of fun (i j : Fin 3) => M i.castSucc j.castSucc)
      (fun i => o i.castSucc) v extra i
    rw [← this]
    exact matrixRow_append A _ _ _ _ _ (by simp [Spec.rowMajorAug, List.ofFn_succ]) i.2
  · simp only [not_or, not_not] at ho
    refine ⟨_, convertMatrix_small M o h ho.1 ho.2.1 ho.2.2, fun stride pixels alpha hs hp => ?_⟩
    refine ocioMatrixNode_list A hA compat stride _ _ _ _ _ _
      (matrixProcess_image A _ ⟨[3, 3, 3], _, false, false, "string"⟩ 3 [3] rfl rfl rfl rfl
        (fun v => Spec.ocioMatrix M o (Fin.snoc v alpha)) (fun v extra i => ?_) stride hs pixels hp)
    rw [hspec]
    have hz : o i.castSucc = 0 := by
      fin_cases i
      · exact ho.1
      · exact ho.2.1
      · exact ho.2.2
    rw [hz, add_zero]
    exact matrixRow_linear A hA (Matrix.of fun (i j : Fin 3) => M i.castSucc j.castSucc) v extra i

example : Spec.Passes (K := ℚ) ![![2, 1, 0, 0], ![0, 1, 3, 0], ![1, 0, 1, 0], ![0, 0, 5, 7]] ∧
    (![![2, 1, 0, 0], ![0, 1, 3, 0], ![1, 0, 1, 0], ![0, 0, 5, 7]] : Fin 4 → Fin 4 → ℚ) 2 3 = 0 := by
  simp [Spec.Passes]

/-- C63, for matrices that fail the test: without an offset, four-channel pixels are mapped as
OpenColorIO maps them, and their alpha by the last row. -/
theorem C63_kept_partial (A : Arith K) (hA : A.Exact) (compat : ℕ) (M : Fin 4 → Fin 4 → K)
    (h : ¬ Spec.Passes M) :
    ∃ n, convertMatrix (Spec.entries M) (Spec.fins (0 : Fin 4 → K)) true = .ok (some n) ∧
      ∀ pixels : List (Fin 4 → K), processList A compat [n] (pixels.flatMap Spec.fins) 4
        = .ok (pixels.flatMap fun p => Spec.fins (Fin.snoc (Spec.ocioMatrix M 0 p) (∑ j, M 3 j * p j))) := by
  refine ⟨_, convertMatrix_kept M 0 h, fun pixels => ?_⟩
  have e1 : pixels.flatMap Spec.fins = Spec.image (pixels.map fun p => (p, ([] : List (Flt K)))) := by
    simp [Spec.image, List.flatMap, Function.comp_def]
  have key := matrixProcess_image A
    (setMatrix (newBase float16 float16 (.str "matrix1") (.str "matrix1")) [4, 4, 3] (Spec.entries M))
    ⟨[4, 4, 3], Spec.entries M, false, false, "string"⟩ 4 [3] rfl rfl rfl rfl
    (fun v => (Matrix.of M).mulVec v) (fun v extra i => matrixRow_linear A hA (Matrix.of M) v extra i) 4
    (by omega) (pixels.map fun p => (p, ([] : List (Flt K)))) (by simp)
  rw [← e1] at key
  rw [ocioMatrixNode_list A hA compat 4 _ _ _ _ _ _ key]
  simp only [Spec.image, List.flatMap, List.map_map, Function.comp_def, List.append_nil]
  congr 2
  apply List.map_congr_left
  intro p _
  congr 1
  funext i
  refine Fin.lastCases ?_ (fun i => ?_) i
  · simp only [Fin.snoc_last]
    rfl
  · simp only [Fin.snoc_castSucc, Spec.ocioMatrix, Pi.zero_apply, add_zero]
    rfl

/-- C63 is false: every matrix that fails the test gives a node that raises for three-channel
pixels. -/
theorem C63_rgb_raises (A : Arith K) (hA : A.Exact) (compat : ℕ) (M : Fin 4 → Fin 4 → K) (o : Fin 4 → K)
    (h : ¬ Spec.Passes M) :
    ∃ n, convertMatrix (Spec.entries M) (Spec.fins o) true = .ok (some n) ∧
      ∀ (p : Fin 3 → K) (pixels : List (Fin 3 → K)),
        processList A compat [n] (pixelValues (p :: pixels)) 3 = .error .indexError := by
  refine ⟨_, convertMatrix_kept M o h, fun p pixels => ?_⟩
  rw [processList_one A hA compat 3 _ (ocioMatrixNode_bypass _ _)]
  unfold ocioMatrixNode
  rw [outOf_leaf]
  show (do let r ← matrixProcess A _ _ 3; .ok r.out) = _
  have hlen : (pixelValues (p :: pixels)).length = (pixels.length + 1) * 3 := by
    simp [pixelValues, Spec.fins, List.length_flatMap]
    omega
  have hslice : pySlice (pixelValues (p :: pixels)) 0 3 = [.fin (p 0), .fin (p 1), .fin (p 2)] := by
    simp [pixelValues, Spec.fins, pySlice, List.ofFn_succ]
  have hbody : ((List.range (min 4 [Flt.fin (p 0), .fin (p 1), .fin (p 2)].length)).mapM fun i => do
      let d1 ← pyGet [4, 4, 3] 1
      matrixRow A 4 d1 (Spec.entries M) [Flt.fin (p 0), .fin (p 1), .fin (p 2)] i) = .error .indexError := by
    rw [entries_eq]
    rfl
  have hmp : matrixProcess A (setMatrix (newBase float16 float16 (.str "matrix1") (.str "matrix1"))
      [4, 4, 3] (Spec.entries M)) (pixelValues (p :: pixels)) 3 = .error .indexError := by
    show pixelLoop 3 (pixelValues (p :: pixels)) (fun _ value => do
      let rows ← (List.range (min 4 value.length)).mapM fun i => do
        let d1 ← pyGet [4, 4, 3] 1
        matrixRow A 4 d1 (Spec.entries M) value i
      pure (value, rows ++ value.drop (min 4 value.length))) = _
    unfold pixelLoop
    simp only [show ¬ (3 : ℕ) = 0 by omega, if_false, pyDivNat, hlen,
      Nat.mul_div_cancel _ (show 0 < 3 by omega), py_ok_bind, List.range_succ_eq_map,
      List.foldlM_cons, Nat.zero_mul, Nat.zero_add, Nat.one_mul, hslice, hbody, py_error_bind]
  rw [hmp]
  rfl

example : ¬ Spec.Passes (K := ℚ) ![![0, 1, 0, 0], ![1, 0, 0, 0], ![0, 0, 1, 0], ![0, 0, 0, 1]] := by
  simp [Spec.Passes]

/-- C63 is false: the offset of a matrix that fails the test is lost, here that of the exchange
of red and green. -/
theorem C63_offset_lost : ∃ (M : Fin 4 → Fin 4 → ℚ) (o : Fin 4 → ℚ) (n : Node ℚ) (p : Fin 4 → ℚ),
    convertMatrix (Spec.entries M) (Spec.fins o) true = .ok (some n) ∧
      processList ratArith 0 [n] (Spec.fins p) 4 = .ok (Spec.fins (![0, 0, 0, 0] : Fin 4 → ℚ)) ∧
      Spec.ocioMatrix M o p 0 = 1 :=
  ⟨![![0, 1, 0, 0], ![1, 0, 0, 0], ![0, 0, 1, 0], ![0, 0, 0, 1]], ![1, 0, 0, 0], _, 0,
    convertMatrix_kept _ _ (by simp [Spec.Passes]), by decide +kernel, by decide +kernel⟩

/-- C63 is false: the share of the alpha in the blue of a matrix that passes the test is
lost. -/
theorem C63_alpha_lost : ∃ (M : Fin 4 → Fin 4 → ℚ) (n : Node ℚ) (p : Fin 4 → ℚ),
    convertMatrix (Spec.entries M) (Spec.fins (![0, 0, 0, 0] : Fin 4 → ℚ)) true = .ok (some n) ∧
      processList ratArith 0 [n] (Spec.fins p) 4 = .ok (Spec.fins (![0, 0, 0, 1] : Fin 4 → ℚ)) ∧
      Spec.ocioMatrix M ![0, 0, 0, 0] p 2 = 1 :=
  ⟨![![1, 0, 0, 0], ![0, 1, 0, 0], ![0, 0, 1, 1], ![0, 0, 0, 1]], _, ![0, 0, 0, 1],
    convertMatrix_small _ _ (by simp [Spec.Passes]) rfl rfl rfl, by decide +kernel, by decide +kernel⟩

/-! ## Order -/

mutual

/-- The transforms of a tree of groups, in order. -/
def Spec.leaves : Ocio K → List (Ocio K)
  | .group _ children => Spec.leavesAll children
  | .file s i f => [.file s i f]
  | .matrix m o f => [.matrix m o f]
  | .log b f => [.log b f]
  | .other => [.other]

/-- The transforms of several trees. -/
def Spec.leavesAll : List (Ocio K) → List (Ocio K)
  | [] => []
  | t :: ts => Spec.leaves t ++ Spec.leavesAll ts

end

/-- The nodes of transforms that are no groups: each as it is converted by itself, one after
another. -/
def Spec.Converts (env : OcioEnv K) (ts : List (Ocio K)) (ns : List (Node K)) : Prop :=
  ∃ parts, List.Forall₂ (fun t part => convertTransform env t = .ok part) ts parts ∧ ns = parts.flatten

theorem converts_append (env : OcioEnv K) (ts us : List (Ocio K)) (ns : List (Node K)) :
    Spec.Converts env (ts ++ us) ns ↔
      ∃ a b, Spec.Converts env ts a ∧ Spec.Converts env us b ∧ ns = a ++ b := by
  constructor
  · rintro ⟨parts, h, rfl⟩
    have h' := h.flip
    exact ⟨_, _, ⟨_, (List.forall₂_take_append _ _ _ h').flip, rfl⟩,
      ⟨_, (List.forall₂_drop_append _ _ _ h').flip, rfl⟩, by rw [← List.flatten_append, List.take_append_drop]⟩
  · rintro ⟨a, b, ⟨p, hp, rfl⟩, ⟨q, hq, rfl⟩, rfl⟩
    exact ⟨p ++ q, List.rel_append hp hq, by simp⟩

theorem converts_one (env : OcioEnv K) (t : Ocio K) (ns : List (Node K)) :
    Spec.Converts env [t] ns ↔ convertTransform env t = .ok ns := by
  constructor
  · rintro ⟨parts, h, rfl⟩
    cases h with
    | cons h1 h2 =>
      cases h2
      simpa using h1
  · intro h
    exact ⟨[ns], .cons h .nil, by simp⟩

mutual

theorem converts_tree (env : OcioEnv K) : ∀ (t : Ocio K) (ns : List (Node K)),
    convertTransform env t = .ok ns ↔ Spec.Converts env (Spec.leaves t) ns
  | .group _ cs, ns => by
    unfold convertTransform Spec.leaves
    exact converts_trees env cs ns
  | .file s i f, ns => by
    unfold Spec.leaves
    exact (converts_one env _ ns).symm
  | .matrix m o f, ns => by
    unfold Spec.leaves
    exact (converts_one env _ ns).symm
  | .log b f, ns => by
    unfold Spec.leaves
    exact (converts_one env _ ns).symm
  | .other, ns => by
    unfold Spec.leaves
    exact (converts_one env _ ns).symm

theorem converts_trees (env : OcioEnv K) : ∀ (ts : List (Ocio K)) (ns : List (Node K)),
    convertChildren env ts = .ok ns ↔ Spec.Converts env (Spec.leavesAll ts) ns
  | [], ns => by
    unfold convertChildren Spec.leavesAll
    constructor
    · intro h
      cases h
      exact ⟨[], .nil, rfl⟩
    · rintro ⟨parts, h, rfl⟩
      cases h
      rfl
  | t :: ts, ns => by
    unfold convertChildren Spec.leavesAll
    rw [converts_append]
    constructor
    · intro h
      obtain ⟨a, ha, h⟩ := py_bind_eq_ok.mp h
      obtain ⟨b, hb, h⟩ := py_bind_eq_ok.mp h
      cases h
      exact ⟨a, b, (converts_tree env t a).mp ha, (converts_trees env ts b).mp hb, rfl⟩
    · rintro ⟨a, b, ha, hb, rfl⟩
      rw [(converts_tree env t a).mpr ha, (converts_trees env ts b).mpr hb]
      rfl

end

/-- C64: the nodes of a transform, with groups nested in any way, are those of its transforms
in order, each converted by itself. -/
theorem C64_order (env : OcioEnv K) (t : Ocio K) (ns : List (Node K)) :
    convertTransform env t = .ok ns ↔ Spec.Converts env (Spec.leaves t) ns :=
  converts_tree env t ns

/-- A list of transforms is converted as a group. -/
theorem C64_nesting (env : OcioEnv K) (t u : Ocio K) (h : Spec.leaves t = Spec.leaves u)
    (ns : List (Node K)) : convertTransform env t = .ok ns ↔ convertTransform env u = .ok ns := by
  rw [C64_order, C64_order, h]

/-! ## Colours -/

/-- No node has a `bypass` attribute. -/
def NoBypass (ns : List (Node K)) : Prop := ∀ n ∈ ns, n.attr "bypass" = none

theorem get?_set_ne {α : Type} (d : Dict α) (k k' : String) (v : α) (h : k ≠ k') :
    (d.set k v).get? k' = d.get? k' := by
  induction d with
  | nil => simp [Dict.set, Dict.get?, h]
  | cons p d ih =>
    obtain ⟨a, b⟩ := p
    unfold Dict.set
    by_cases ha : a = k
    · subst ha
      simp [Dict.get?, h]
    · simp only [ha, if_false]
      by_cases hb : a = k'
      · simp [Dict.get?, hb]
      · simp only [Dict.get?, hb, if_false]
        exact ih

theorem setUnlessEmpty_bypass (b : Base K) (k : String) (v : AVal) (hk : k ≠ "bypass") :
    (b.setUnlessEmpty k v).attrs.get? "bypass" = b.attrs.get? "bypass" := by
  unfold Base.setUnlessEmpty
  split
  · rfl
  · exact get?_set_ne _ _ _ _ hk

theorem newLut1d_bypass (inD outD id name i r h : AVal) :
    (newLut1d (K := K) inD outD id name i r h).attrs.get? "bypass" = none := by
  unfold newLut1d
  rw [setUnlessEmpty_bypass _ _ _ (by decide), setUnlessEmpty_bypass _ _ _ (by decide),
    setUnlessEmpty_bypass _ _ _ (by decide)]
  rfl

theorem lut1dSetArray_attrs {b b' : Base K} {d : ℕ} {vs : List (Flt K)} {e : String}
    (h : lut1dSetArray b d vs e = .ok b') : b'.attrs = b.attrs := by
  unfold lut1dSetArray at h
  obtain ⟨r, _, h⟩ := py_bind_eq_ok.mp h
  cases h
  rfl

theorem setIndexMaps_attrs (b : Base K) (r) (gb) : (setIndexMaps b r gb).attrs = b.attrs := by
  unfold setIndexMaps
  cases gb <;> rfl

theorem boundedRange_bypass (id : String) (a b c d : Flt K) :
    (boundedRange id a b c d).attr "bypass" = none := rfl

theorem readSpi1d_noBypass {t : Txt} {inv : Bool} {i : AVal} {im hd : Bool} {ns : List (Node K)}
    (h : readSpi1d t inv i im hd = .ok ns) : NoBypass ns := by
  unfold readSpi1d at h
  obtain ⟨s, _, h⟩ := py_bind_eq_ok.mp h
  have lut : ∀ {b' : Base K} {inD outD id name i r h : AVal} {d vs e},
      lut1dSetArray (newLut1d inD outD id name i r h) d vs e = .ok b' →
      (Node.leaf .lut1d b').attr "bypass" = none := by
    intro b' _ _ _ _ _ _ _ _ _ _ h
    show b'.attrs.get? "bypass" = none
    rw [lut1dSetArray_attrs h, newLut1d_bypass]
  split at h
  · unfold spi1dForward at h
    obtain ⟨l, hl, h⟩ := py_bind_eq_ok.mp h
    cases h
    intro n hn
    rcases List.mem_append.mp hn with hn | hn
    · split at hn
      · rw [List.mem_singleton.mp hn]; rfl
      · simp at hn
    · rw [List.mem_singleton.mp hn]
      exact lut hl
  · split at h
    · unfold inverseIndexMap at h
      obtain ⟨maps, _, h⟩ := py_bind_eq_ok.mp h
      obtain ⟨rows, _, h⟩ := py_bind_eq_ok.mp h
      have fin : ∀ (l1 : Base K), l1.attrs.get? "bypass" = none → (do
          let lut ← lut1dSetArray l1 s.components rows.flatten
          pure (Node.leaf Kind.lut1d lut ::
            if s.lo ≠ Flt.fin 0 ∨ s.hi ≠ Flt.fin 1 then
              [boundedRange "inverse_1d_range_1" (Flt.fin 0) (Flt.fin 1) s.lo s.hi]
            else []) : Py (List (Node K))) = .ok ns → NoBypass ns := by
        intro l1 hl1 h
        obtain ⟨l2, h2, h⟩ := py_bind_eq_ok.mp h
        cases h
        intro n hn
        rcases List.mem_cons.mp hn with rfl | hn
        · show l2.attrs.get? "bypass" = none
          rw [lut1dSetArray_attrs h2, hl1]
        · split at hn
          · rw [List.mem_singleton.mp hn]; rfl
          · simp at hn
      simp only at h
      split at h
      · obtain ⟨r, _, h⟩ := py_bind_eq_ok.mp h
        obtain ⟨g, _, h⟩ := py_bind_eq_ok.mp h
        obtain ⟨b, _, h⟩ := py_bind_eq_ok.mp h
        exact fin _ (by rw [setIndexMaps_attrs, newLut1d_bypass]) h
      · obtain ⟨r, _, h⟩ := py_bind_eq_ok.mp h
        exact fin _ (by rw [setIndexMaps_attrs, newLut1d_bypass]) h
    · split at h
      · unfold inverseHalfDomain at h
        obtain ⟨rows, _, h⟩ := py_bind_eq_ok.mp h
        obtain ⟨l, hl, h⟩ := py_bind_eq_ok.mp h
        cases h
        intro n hn
        rw [List.mem_singleton.mp hn]
        exact lut hl
      · unfold inverseResampled at h
        obtain ⟨_, _, h⟩ := py_bind_eq_ok.mp h
        obtain ⟨_, _, h⟩ := py_bind_eq_ok.mp h
        obtain ⟨_, _, h⟩ := py_bind_eq_ok.mp h
        obtain ⟨_, _, h⟩ := py_bind_eq_ok.mp h
        obtain ⟨_, _, h⟩ := py_bind_eq_ok.mp h
        obtain ⟨l, hl, h⟩ := py_bind_eq_ok.mp h
        cases h
        intro n hn
        simp only [List.mem_cons, List.not_mem_nil, or_false] at hn
        rcases hn with rfl | rfl | rfl
        · rfl
        · exact lut hl
        · rfl

theorem lut3d_bypass (inD outD id name i : AVal) (dims : List ℕ) (vs : List (Flt K)) (e : String) :
    (Node.leaf .lut3d (lut3dSetArray (newLut3d inD outD id name i) dims vs e).1).attr "bypass" = none := by
  show (newLut3d (K := K) inD outD id name i).attrs.get? "bypass" = none
  unfold newLut3d
  rw [setUnlessEmpty_bypass _ _ _ (by decide)]
  rfl

theorem readSpi3d_noBypass {t : Txt} {inv : Bool} {i : AVal} {ns : List (Node K)}
    (h : readSpi3d t inv i = .ok ns) : NoBypass ns := by
  unfold readSpi3d at h
  obtain ⟨s, _, h⟩ := py_bind_eq_ok.mp h
  cases h
  intro n hn
  rw [List.mem_singleton.mp hn]
  exact lut3d_bypass _ _ _ _ _ _ _ _

theorem cspPrelut_noBypass {r g b : Prelut K} {ns : List (Node K)} (h : cspPrelut r g b = .ok ns) :
    NoBypass ns := by
  unfold cspPrelut at h
  obtain ⟨_, _, h⟩ := py_bind_eq_ok.mp h
  obtain ⟨_, _, h⟩ := py_bind_eq_ok.mp h
  obtain ⟨_, _, h⟩ := py_bind_eq_ok.mp h
  obtain ⟨_, _, h⟩ := py_bind_eq_ok.mp h
  obtain ⟨_, _, h⟩ := py_bind_eq_ok.mp h
  obtain ⟨_, _, h⟩ := py_bind_eq_ok.mp h
  simp only at h
  split at h
  · obtain ⟨_, _, h⟩ := py_bind_eq_ok.mp h
    obtain ⟨l, hl, h⟩ := py_bind_eq_ok.mp h
    cases h
    intro n hn
    simp only [List.mem_cons, List.not_mem_nil, or_false] at hn
    rcases hn with rfl | rfl
    · rfl
    · show l.attrs.get? "bypass" = none
      rw [lut1dSetArray_attrs hl, newLut1d_bypass]
  · cases h
    intro n hn
    rw [List.mem_singleton.mp hn]
    rfl

theorem readCsp_noBypass {t : Txt} {inv : Bool} {i : AVal} {ns : List (Node K)}
    (h : readCsp t inv i = .ok ns) : NoBypass ns := by
  unfold readCsp at h
  obtain ⟨c, _, h⟩ := py_bind_eq_ok.mp h
  cases c with
  | none =>
    cases h
    intro n hn
    simp at hn
  | some c =>
    simp only at h
    unfold cspNodes at h
    obtain ⟨pre, hp, h⟩ := py_bind_eq_ok.mp h
    split at h
    · cases h
      intro n hn
      rcases List.mem_append.mp hn with hn | hn
      · exact cspPrelut_noBypass hp n hn
      · rw [List.mem_singleton.mp hn]
        exact lut3d_bypass _ _ _ _ _ _ _ _
    · obtain ⟨l, hl, h⟩ := py_bind_eq_ok.mp h
      cases h
      intro n hn
      rcases List.mem_append.mp hn with hn | hn
      · exact cspPrelut_noBypass hp n hn
      · rw [List.mem_singleton.mp hn]
        show l.attrs.get? "bypass" = none
        rw [lut1dSetArray_attrs hl, newLut1d_bypass]

theorem registryRead_noBypass (A : Arith K) (compat : ℕ) (fmt : Flt K → Txt) (cs : List (LutClass K))
    (hcs : ∀ c ∈ cs, c ∈ shippedFormats A compat fmt) {files : Txt → Py Txt} {path : Txt} {a : ReadArgs}
    {ns : List (Node K)} (h : registryRead cs files path a = .ok (some ns)) : NoBypass ns := by
  induction cs with
  | nil => cases h
  | cons c rest ih =>
    unfold registryRead at h
    split at h
    · obtain ⟨ms, hm, h⟩ := py_bind_eq_ok.mp h
      cases ms with
      | nil => exact ih (fun c hc => hcs c (by simp [hc])) h
      | cons m ms =>
        cases h
        have hc := hcs c (by simp)
        simp only [shippedFormats, List.mem_cons, List.not_mem_nil, or_false] at hc
        rcases hc with rfl | rfl | rfl | rfl
        · unfold spiClass at hm
          simp only at hm
          split at hm
          · obtain ⟨t, _, hm⟩ := py_bind_eq_ok.mp hm
            exact readSpi1d_noBypass hm
          · split at hm
            · obtain ⟨t, _, hm⟩ := py_bind_eq_ok.mp hm
              exact readSpi3d_noBypass hm
            · cases hm
        · obtain ⟨t, _, hm⟩ := py_bind_eq_ok.mp hm
          exact readCsp_noBypass hm
        · cases hm
        · cases hm
    · exact ih (fun c hc => hcs c (by simp [hc])) h

theorem convertMatrix_noBypass {m o : List (Flt K)} {f : Bool} {n : Node K}
    (h : convertMatrix m o f = .ok (some n)) : n.attr "bypass" = none := by
  unfold convertMatrix at h
  split at h
  · obtain ⟨⟨r, e⟩, _, h⟩ := py_bind_eq_ok.mp h
    cases r with
    | none => cases h
    | some r =>
      cases h
      rfl
  · cases h

theorem convertLog_noBypass {b : Flt K} {f : Bool} {n : Node K} (h : convertLog b f = some n) :
    n.attr "bypass" = none := by
  unfold convertLog at h
  split at h
  · cases h
    rfl
  · split at h
    · cases h
      rfl
    · cases h

mutual

theorem convertTransform_noBypass (A : Arith K) (compat : ℕ) (fmt : Flt K → Txt) (env : OcioEnv K)
    (henv : env.formats.Perm (shippedFormats A compat fmt)) : ∀ (t : Ocio K) (ns : List (Node K)),
    convertTransform env t = .ok ns → NoBypass ns
  | .group _ cs, ns, h => by
    unfold convertTransform at h
    exact convertChildren_noBypass A compat fmt env henv cs ns h
  | .file s i f, ns, h => by
    unfold convertTransform convertFile at h
    obtain ⟨r, hr, h⟩ := py_bind_eq_ok.mp h
    cases r with
    | none => cases h
    | some r =>
      cases h
      exact registryRead_noBypass A compat fmt env.formats (fun c hc => henv.mem_iff.mp hc) hr
  | .matrix m o f, ns, h => by
    unfold convertTransform at h
    obtain ⟨r, hr, h⟩ := py_bind_eq_ok.mp h
    cases h
    intro n hn
    rw [Option.mem_toList] at hn
    cases hn
    exact convertMatrix_noBypass hr
  | .log b f, ns, h => by
    unfold convertTransform at h
    cases h
    intro n hn
    rw [Option.mem_toList] at hn
    exact convertLog_noBypass hn
  | .other, ns, h => by
    unfold convertTransform at h
    cases h
    intro n hn
    simp at hn

theorem convertChildren_noBypass (A : Arith K) (compat : ℕ) (fmt : Flt K → Txt) (env : OcioEnv K)
    (henv : env.formats.Perm (shippedFormats A compat fmt)) : ∀ (ts : List (Ocio K)) (ns : List (Node K)),
    convertChildren env ts = .ok ns → NoBypass ns
  | [], ns, h => by
    unfold convertChildren at h
    cases h
    intro n hn
    simp at hn
  | t :: ts, ns, h => by
    unfold convertChildren at h
    obtain ⟨a, ha, h⟩ := py_bind_eq_ok.mp h
    obtain ⟨b, hb, h⟩ := py_bind_eq_ok.mp h
    cases h
    intro n hn
    rcases List.mem_append.mp hn with hn | hn
    · exact convertTransform_noBypass A compat fmt env henv t a ha n hn
    · exact convertChildren_noBypass A compat fmt env henv ts b hb n hn

end

theorem processList_noBypass (A : Arith K) (hA : A.Exact) (compat stride : ℕ) (ns : List (Node K))
    (h : NoBypass ns) (v : List (Flt K)) : processList A compat ns v stride
      = ns.foldlM (fun v n => n.outOf A compat stride v) v := by
  rw [processList_eq, map_exact hA, runOut_plain _ _ _ _ _ h]

theorem processList_parts (A : Arith K) (hA : A.Exact) (compat stride : ℕ) (parts : List (List (Node K)))
    (h : NoBypass parts.flatten) (v : List (Flt K)) : processList A compat parts.flatten v stride
      = parts.foldlM (fun v part => processList A compat part v stride) v := by
  rw [processList_noBypass A hA compat stride _ h]
  induction parts generalizing v with
  | nil => rfl
  | cons p ps ih =>
    have hp : NoBypass p := fun n hn => h n (by simp [hn])
    have hps : NoBypass ps.flatten := fun n hn => h n (by
      rw [List.flatten_cons]
      exact List.mem_append_right _ hn)
    rw [List.flatten_cons, List.foldlM_append, List.foldlM_cons, processList_noBypass A hA compat stride _ hp]
    congr 1
    funext w
    exact ih hps w

/-- C64: the converted list maps colours as its transforms do, one after another. -/
theorem C64_colours (A : Arith K) (hA : A.Exact) (compat compat' stride : ℕ) (fmt : Flt K → Txt)
    (env : OcioEnv K) (henv : env.formats.Perm (shippedFormats A compat fmt)) (t : Ocio K)
    (ns : List (Node K)) (h : convertTransform env t = .ok ns) (v : List (Flt K)) :
    processList A compat' ns v stride = (Spec.leaves t).foldlM (fun v u => do
      let part ← convertTransform env u
      processList A compat' part v stride) v := by
  have hb := convertTransform_noBypass A compat fmt env henv t ns h
  obtain ⟨parts, hp, rfl⟩ := (C64_order env t ns).mp h
  rw [processList_parts A hA compat' stride parts hb]
  clear hb h
  generalize Spec.leaves t = ts at hp
  induction hp generalizing v with
  | nil => rfl
  | cons h1 _ ih =>
    simp only [List.foldlM_cons, h1, py_ok_bind]
    congr 1
    funext w
    exact ih w

/-- Doubling, then a group of tripling and doubling. -/
example : ∃ (env : OcioEnv ℚ) (t : Ocio ℚ) (ns : List (Node ℚ)),
    env.formats.Perm (shippedFormats ratArith 0 fun x => str12 (.ofFlt x)) ∧ (Spec.leaves t).length = 3 ∧
    convertTransform env t = .ok ns ∧ ns.length = 3 ∧
    processList ratArith 0 ns [.fin 1, .fin 2, .fin 0] 3 = .ok [.fin 12, .fin 24, .fin 0] := by
  let m (k : ℚ) : Ocio ℚ := .matrix (Spec.entries ![![k, 0, 0, 0], ![0, k, 0, 0], ![0, 0, k, 0], ![0, 0, 0, 1]])
    (Spec.fins (0 : Fin 4 → ℚ)) true
  refine ⟨⟨shippedFormats ratArith 0 fun x => str12 (.ofFlt x), fun _ => .error .ioError, none, true, true⟩,
    .group true [m 2, .group true [m 3, m 2]], _, List.Perm.refl _, rfl, rfl, rfl, ?_⟩
  decide +kernel

end CLF
