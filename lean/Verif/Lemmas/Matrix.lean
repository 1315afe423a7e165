import Verif.Lemmas.Range
import Verif.Spec.Layout
import Mathlib.Algebra.BigOperators.Fin

/-! Lemmas about the Matrix node. -/

set_option linter.unusedSectionVars false

namespace CLF

variable {K : Type} [Field K] [LinearOrder K] [IsStrictOrderedRing K] [FloorRing K]

/-- Indexing a list of equally long rows laid end to end. -/
theorem flatten_get? {α : Type} (m : ℕ) (rows : List (List α)) (h : ∀ r ∈ rows, r.length = m)
    (i j : ℕ) (hj : j < m) : rows.flatten[i * m + j]? = rows[i]?.bind (·[j]?) := by
  induction rows generalizing i with
  | nil => simp
  | cons r rows ih =>
    have hr : r.length = m := h r (by simp)
    cases i with
    | zero =>
      simp only [Nat.zero_mul, Nat.zero_add, List.flatten_cons, List.getElem?_cons_zero,
        Option.bind_some]
      rw [List.getElem?_append_left (by omega)]
    | succ i =>
      simp only [List.flatten_cons, List.getElem?_cons_succ]
      rw [List.getElem?_append_right (by rw [Nat.succ_mul]; omega)]
      rw [← ih (fun x hx => h x (by simp [hx])) i]
      congr 1
      rw [Nat.succ_mul]; omega

theorem rowMajor_get {α : Type} {n m : ℕ} (M : Fin n → Fin m → α) (i j : ℕ) (hi : i < n)
    (hj : j < m) : pyGet (Spec.rowMajor M) (j + i * m) = .ok (M ⟨i, hi⟩ ⟨j, hj⟩) := by
  rw [pyGet_eq_ok, Nat.add_comm, Spec.rowMajor, flatten_get? m _ (by simp) i j hj]
  simp [hi, hj]

theorem rowMajorAug_get {α : Type} {n m : ℕ} (M : Fin n → Fin m → α) (t : Fin n → α) (i j : ℕ)
    (hi : i < n) (hj : j < m) :
    pyGet (Spec.rowMajorAug M t) (j + i * (m + 1)) = .ok (M ⟨i, hi⟩ ⟨j, hj⟩) := by
  rw [pyGet_eq_ok, Nat.add_comm, Spec.rowMajorAug, flatten_get? (m + 1) _ (by simp) i j (by omega)]
  simp [hi, List.getElem?_append_left, hj]

theorem rowMajorAug_get_last {α : Type} {n m : ℕ} (M : Fin n → Fin m → α) (t : Fin n → α) (i : ℕ)
    (hi : i < n) : pyGet (Spec.rowMajorAug M t) (i * (m + 1) + (m + 1) - 1) = .ok (t ⟨i, hi⟩) := by
  have : i * (m + 1) + (m + 1) - 1 = i * (m + 1) + m := by omega
  rw [pyGet_eq_ok, this, Spec.rowMajorAug, flatten_get? (m + 1) _ (by simp) i m (by omega)]
  simp [hi]

/-- The accumulation loop of a matrix row is a dot product. -/
theorem dot_loop (A : Arith K) (hA : A.Exact) (m value : List (Flt K)) (offset : ℕ)
    (c v : ℕ → K) (n : ℕ) (a : K)
    (hc : ∀ j < n, pyGet m (j + offset) = .ok (.fin (c j)))
    (hv : ∀ j < n, pyGet value j = .ok (.fin (v j))) :
    (List.range n).foldlM (init := Flt.fin a) (fun acc j => do
      let c ← pyGet m (j + offset)
      let v ← pyGet value j
      pure (A.f32 (acc + c * v)))
    = (.ok (.fin (a + ∑ j ∈ Finset.range n, c j * v j)) : Py (Flt K)) := by
  induction n with
  | zero => simp
  | succ n ih =>
    rw [List.range_succ, List.foldlM_append, ih (fun j hj => hc j (by omega))
      (fun j hj => hv j (by omega))]
    simp only [py_ok_bind, List.foldlM_cons, List.foldlM_nil, hc n (by omega), hv n (by omega),
      hA _, py_pure, Flt.fin_mul, Flt.fin_add, Finset.sum_range_succ, add_assoc]

theorem matrixRow_linear (A : Arith K) (hA : A.Exact) {n : ℕ} (M : Matrix (Fin n) (Fin n) K)
    (v : Fin n → K) (extra : List (Flt K)) (i : Fin n) :
    matrixRow A n n (Spec.rowMajor fun i j => .fin (M i j)) (Spec.fins v ++ extra) i
    = .ok (.fin (M.mulVec v i)) := by
  unfold matrixRow
  have hne : ¬ n = n + 1 := by omega
  simp only [hne, if_false]
  rw [dot_loop A hA _ _ _ (fun j => if h : j < n then M i ⟨j, h⟩ else 0)
    (fun j => if h : j < n then v ⟨j, h⟩ else 0)]
  · simp only [py_ok_bind, py_pure, zero_add, Matrix.mulVec, dotProduct]
    rw [Finset.sum_range]
    simp
  · intro j hj
    rw [rowMajor_get _ _ _ i.2 hj]; simp [hj]
  · intro j hj
    rw [pyGet_eq_ok, Spec.fins, List.getElem?_append_left (by simpa using hj)]
    simp [hj]

theorem matrixRow_affine (A : Arith K) (hA : A.Exact) {n : ℕ} (M : Matrix (Fin n) (Fin n) K)
    (t v : Fin n → K) (extra : List (Flt K)) (i : Fin n) :
    matrixRow A n (n + 1) (Spec.rowMajorAug (fun i j => .fin (M i j)) fun i => .fin (t i))
      (Spec.fins v ++ extra) i
    = .ok (.fin (M.mulVec v i + t i)) := by
  unfold matrixRow
  simp only [if_true]
  rw [dot_loop A hA _ _ _ (fun j => if h : j < n then M i ⟨j, h⟩ else 0)
    (fun j => if h : j < n then v ⟨j, h⟩ else 0)]
  · simp only [py_ok_bind, py_pure, zero_add, Matrix.mulVec, dotProduct,
      rowMajorAug_get_last _ _ _ i.2, hA _, Flt.fin_add]
    rw [Finset.sum_range]
    simp
  · intro j hj
    rw [rowMajorAug_get _ _ _ _ i.2 hj]; simp [hj]
  · intro j hj
    rw [pyGet_eq_ok, Spec.fins, List.getElem?_append_left (by simpa using hj)]
    simp [hj]

theorem range_mapM_ofFn {β : Type} (n : ℕ) (f : ℕ → Py β) (g : Fin n → β)
    (h : ∀ i : Fin n, f i = .ok (g i)) : (List.range n).mapM f = .ok (List.ofFn g) := by
  rw [py_mapM_eq_ok, List.forall₂_iff_get]
  refine ⟨by simp, fun i h1 h2 => ?_⟩
  have hi : i < n := by simpa using h1
  simpa using h ⟨i, hi⟩

end CLF
