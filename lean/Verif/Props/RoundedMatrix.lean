import Verif.Lemmas.RoundedMatrix

/-! # Property C125: the Matrix node in IEEE arithmetic -/

set_option linter.unusedSectionVars false

namespace CLF

variable {K : Type} [Field K] [LinearOrder K] [IsStrictOrderedRing K] [FloorRing K]

/-- A row of numbers, continued with zeros. -/
def padded {n : ℕ} (r : Fin n → K) (j : ℕ) : K := if h : j < n then r ⟨j, h⟩ else 0

theorem padded_fin {n : ℕ} (r : Fin n → K) (j : Fin n) : padded r j = r j := by
  simp [padded]

theorem padded_sum {n : ℕ} (c v : Fin n → K) :
    ∑ j ∈ Finset.range n, padded c j * padded v j = ∑ j, c j * v j := by
  rw [Finset.sum_range]
  simp [padded_fin]

theorem padded_size {n : ℕ} (c v : Fin n → K) : sizeF (padded c) (padded v) n = ∑ j, |c j * v j| := by
  unfold sizeF
  rw [Finset.sum_range]
  simp [padded_fin]

theorem pixel_get {n : ℕ} (v : Fin n → K) (extra : List (Flt K)) (j : ℕ) (hj : j < n) :
    pyGet (Spec.fins v ++ extra) j = .ok (.fin (padded v j)) := by
  rw [pyGet_eq_ok, Spec.fins, List.getElem?_append_left (by simpa using hj)]
  simp [hj, padded]

theorem rowR_linear (R : Rounding K) (t : Fmt) {n : ℕ} (M : Matrix (Fin n) (Fin n) K) (v : Fin n → K) (extra : List (Flt K))
    (i : Fin n) (acc : ℕ → K) (h0 : acc 0 = 0)
    (ha : ∀ j < n, R single (R (t.wider single) (.fin (acc j) + R (t.wider single) (.fin (padded (M i) j) * .fin (padded v j))))
      = .fin (acc (j + 1))) :
    matrixRowR R t n n (Spec.rowMajor fun i j => .fin (M i j)) (Spec.fins v ++ extra) i = .ok (.fin (acc n)) := by
  unfold matrixRowR
  have hne : ¬ n = n + 1 := by omega
  simp only [hne, if_false]
  rw [dotR_loop R (t.wider single) _ _ _ (padded (M i)) (padded v) acc n h0 ?_ (fun j hj => pixel_get v extra j hj) ha]
  · rfl
  · intro j hj
    rw [rowMajor_get _ _ _ i.2 hj]
    simp [padded, hj]

theorem rowR_affine (R : Rounding K) (t : Fmt) {n : ℕ} (M : Matrix (Fin n) (Fin n) K) (s v : Fin n → K) (extra : List (Flt K))
    (i : Fin n) (acc : ℕ → K) (h0 : acc 0 = 0)
    (ha : ∀ j < n, R single (R (t.wider single) (.fin (acc j) + R (t.wider single) (.fin (padded (M i) j) * .fin (padded v j))))
      = .fin (acc (j + 1))) (y : K) (hy : R single (R (t.wider single) (.fin (acc n) + .fin (s i))) = .fin y) :
    matrixRowR R t n (n + 1) (Spec.rowMajorAug (fun i j => .fin (M i j)) fun i => .fin (s i)) (Spec.fins v ++ extra) i = .ok (.fin y) := by
  unfold matrixRowR
  simp only [if_true]
  rw [dotR_loop R (t.wider single) _ _ _ (padded (M i)) (padded v) acc n h0 ?_ (fun j hj => pixel_get v extra j hj) ha]
  · simp only [py_ok_bind, rowMajorAug_get_last _ _ _ i.2, py_pure, hy]
  · intro j hj
    rw [rowMajorAug_get _ _ _ _ i.2 hj]
    simp [padded, hj]

/-- C125: an `n × n` Matrix in IEEE arithmetic, the entries being of any of the three formats.  Unless the products are
huge, the node gives finite values of `float32`, channel `i` within `5 n (S / 2^24 + 2^-150)` of row `i` of the product,
`S` being the sum of the sizes of its summands; other channels are returned as they are. -/
theorem C125_linear (t : Fmt) (ht : t = half ∨ t = single ∨ t = double) {n : ℕ} (hn : n ≤ 2 ^ 17) (b : Base K)
    (M : Matrix (Fin n) (Fin n) K) (h : MatrixNode b M) (stride : ℕ) (hs : 0 < stride)
    (pixels : List ((Fin n → K) × List (Flt K))) (hp : ∀ p ∈ pixels, n + p.2.length = stride)
    (hsz : ∀ p ∈ pixels, ∀ i, ∑ j, |M i j * p.1 j| ≤ 2 ^ 120) :
    ∃ (r : Res K) (f : (Fin n → K) → Fin n → K), matrixProcessR ieee t b (Spec.image pixels) stride = .ok r ∧
      r.out = Spec.image (pixels.map fun p => (f p.1, p.2)) ∧
      ∀ p ∈ pixels, ∀ i, Spec.IsSingle (f p.1 i) ∧
        |f p.1 i - M.mulVec p.1 i| ≤ 5 * n * ((∑ j, |M i j * p.1 j|) / 2 ^ 24 + 2 ^ (-150 : ℤ)) := by
  have hw := wider_single ht
  obtain ⟨a, rest, ha, hd, hv⟩ := h.array
  have hfin := fun (v : Fin n → K) i (hv : ∑ j, |M i j * v j| ≤ 2 ^ 120) =>
    accR_fin hw (padded (M i)) (padded v) n hn ((padded_size (M i) v).trans_le hv)
  refine ⟨_, fun v i => accF (t.wider single) (padded (M i)) (padded v) n,
    matrixR_image ieee t b a n rest h.inDepth h.outDepth ha hd
      (fun v i => accF (t.wider single) (padded (M i)) (padded v) n) stride hs pixels (fun p hp' i => ?_) hp, rfl, fun p hp' i => ⟨?_, ?_⟩⟩
  · rw [hv]
    exact rowR_linear ieee t M p.1 p.2 i (accF (t.wider single) (padded (M i)) (padded p.1)) rfl
      fun j hj => (hfin p.1 i (hsz p hp' i) j hj).1
  · exact accF_single hw _ _ n hn ((padded_size (M i) p.1).trans_le (hsz p hp' i))
  · have := accF_close hw (padded (M i)) (padded p.1) n hn
    rw [padded_sum, padded_size] at this
    rw [div_eq_mul_one_div]
    exact this

/-- C125: an `n × (n+1)` Matrix in IEEE arithmetic. -/
theorem C125_affine (t : Fmt) (ht : t = half ∨ t = single ∨ t = double) {n : ℕ} (hn : n ≤ 2 ^ 17) (b : Base K)
    (M : Matrix (Fin n) (Fin n) K) (s : Fin n → K) (h : AffineNode b M s) (stride : ℕ) (hs : 0 < stride)
    (pixels : List ((Fin n → K) × List (Flt K))) (hp : ∀ p ∈ pixels, n + p.2.length = stride)
    (hsz : ∀ p ∈ pixels, ∀ i, (∑ j, |M i j * p.1 j|) + |s i| ≤ 2 ^ 120) :
    ∃ (r : Res K) (f : (Fin n → K) → Fin n → K), matrixProcessR ieee t b (Spec.image pixels) stride = .ok r ∧
      r.out = Spec.image (pixels.map fun p => (f p.1, p.2)) ∧
      ∀ p ∈ pixels, ∀ i, Spec.IsSingle (f p.1 i) ∧
        |f p.1 i - (M.mulVec p.1 i + s i)| ≤ 5 * (n + 1) * (((∑ j, |M i j * p.1 j|) + |s i|) / 2 ^ 24 + 2 ^ (-150 : ℤ)) := by
  have hw := wider_single ht
  obtain ⟨a, rest, ha, hd, hv⟩ := h.array
  have hfin := fun (v : Fin n → K) i (hv : ∑ j, |M i j * v j| ≤ 2 ^ 120) =>
    accR_fin hw (padded (M i)) (padded v) n hn ((padded_size (M i) v).trans_le hv)
  have hsz1 : ∀ p ∈ pixels, ∀ i, ∑ j, |M i j * p.1 j| ≤ 2 ^ 120 := fun p hp' i => by
    have := hsz p hp' i
    have := abs_nonneg (s i)
    linarith
  have hsz2 : ∀ p ∈ pixels, ∀ i, |s i| ≤ 2 ^ 122 := fun p hp' i => by
    have := hsz p hp' i
    have := Finset.sum_nonneg (s := Finset.univ) fun j (_ : j ∈ Finset.univ) => abs_nonneg (M i j * p.1 j)
    have : (2 : K) ^ 120 ≤ 2 ^ 122 := pow_le_pow_right₀ one_le_two (by norm_num)
    linarith
  have hacc : ∀ p ∈ pixels, ∀ i, |accF (t.wider single) (padded (M i)) (padded p.1) n| ≤ 2 ^ 122 := fun p hp' i => by
    refine (accF_size hw _ _ n hn).trans ?_
    have := (padded_size (M i) p.1).trans_le (hsz1 p hp' i)
    have : 2 * (2 : K) ^ 120 + 1 ≤ 2 ^ 122 := by norm_num
    linarith
  refine ⟨_, fun v i => stepF (t.wider single) (accF (t.wider single) (padded (M i)) (padded v) n) (s i),
    matrixR_image ieee t b a (n + 1) rest h.inDepth h.outDepth ha hd
      (fun v i => stepF (t.wider single) (accF (t.wider single) (padded (M i)) (padded v) n) (s i)) stride hs pixels (fun p hp' i => ?_) hp, rfl, fun p hp' i => ⟨?_, ?_⟩⟩
  · rw [hv]
    exact rowR_affine ieee t M s p.1 p.2 i (accF (t.wider single) (padded (M i)) (padded p.1)) rfl
      (fun j hj => (hfin p.1 i (hsz1 p hp' i) j hj).1) _ (stepR_fin hw (hacc p hp' i) (hsz2 p hp' i)).1
  · exact (stepR_fin hw (hacc p hp' i) (hsz2 p hp' i)).2
  · have h1 := accF_close hw (padded (M i)) (padded p.1) n hn
    have h2 := dot_le_sizeF (padded (M i)) (padded p.1) n
    rw [padded_sum, padded_size] at h1
    rw [padded_sum, padded_size] at h2
    have h3 : |s i - s i| ≤ |s i| * (1 / 2 ^ 24) + 2 ^ (-150 : ℤ) := by
      rw [sub_self, abs_zero]
      have := (two_zpow_pos (K := K) (-150)).le
      positivity
    have := stepF_close hw (Nat.cast_nonneg n) (by exact_mod_cast hn) h2 h1 h3
    rw [div_eq_mul_one_div]
    exact this

/-- C125: where every product and every partial sum of a row is a number of `float32`, the row is exact. -/
theorem C125_exact (t : Fmt) (ht : t = half ∨ t = single ∨ t = double) {n : ℕ} (b : Base K)
    (M : Matrix (Fin n) (Fin n) K) (h : MatrixNode b M) (stride : ℕ) (hs : 0 < stride)
    (pixels : List ((Fin n → K) × List (Flt K))) (hp : ∀ p ∈ pixels, n + p.2.length = stride)
    (hex : ∀ p ∈ pixels, ∀ i j, Spec.IsSingle (M i j * p.1 j) ∧ Spec.IsSingle (∑ k ∈ Finset.univ.filter (· ≤ j), M i k * p.1 k)) :
    matrixProcessR ieee t b (Spec.image pixels) stride
      = .ok ⟨Spec.image (pixels.map fun p => (M.mulVec p.1, p.2)), Spec.image pixels, false⟩ := by
  have hw := wider_single ht
  obtain ⟨a, rest, ha, hd, hv⟩ := h.array
  refine matrixR_image ieee t b a n rest h.inDepth h.outDepth ha hd _ stride hs pixels (fun p hp' i => ?_) hp
  have hsum : ∀ j : Fin n, ∑ k ∈ Finset.univ.filter (· ≤ j), M i k * p.1 k
      = ∑ k ∈ Finset.range ((j : ℕ) + 1), padded (M i) k * padded p.1 k := by
    intro j
    rw [Finset.sum_filter, Finset.range_eq_Ico]
    have e : ∑ k : Fin n, (if k ≤ j then M i k * p.1 k else 0)
        = ∑ k ∈ Finset.range n, if k ≤ (j : ℕ) then padded (M i) k * padded p.1 k else 0 := by
      rw [Finset.sum_range]
      simp only [padded_fin, Fin.le_def]
    rw [e, ← Finset.sum_filter]
    refine Finset.sum_congr ?_ fun _ _ => rfl
    ext k
    have := j.2
    simp only [Finset.mem_filter, Finset.mem_range, Finset.mem_Ico]
    omega
  rw [hv]
  have := rowR_linear ieee t M p.1 p.2 i (fun j => ∑ k ∈ Finset.range j, padded (M i) k * padded p.1 k) (by simp) ?_
  · rw [this, padded_sum]
    rfl
  · intro j hj
    obtain ⟨h1, h2⟩ := hex p hp' i ⟨j, hj⟩
    rw [hsum] at h2
    have e : padded (M i) j * padded p.1 j = M i ⟨j, hj⟩ * p.1 ⟨j, hj⟩ := by simp [padded, hj]
    rw [Flt.fin_mul, e, wide_exact hw h1, Flt.fin_add]
    simp only [Finset.sum_range_succ, e] at h2 ⊢
    rw [wide_exact hw h2]
    exact h2

/-- C125: a Matrix that only rearranges the channels moves every `float32` value unchanged. -/
theorem C125_permutation (t : Fmt) (ht : t = half ∨ t = single ∨ t = double) {n : ℕ} (b : Base K) (σ : Fin n → Fin n)
    (h : MatrixNode b fun i j => if j = σ i then (1 : K) else 0) (stride : ℕ) (hs : 0 < stride)
    (pixels : List ((Fin n → K) × List (Flt K))) (hp : ∀ p ∈ pixels, n + p.2.length = stride)
    (hv : ∀ p ∈ pixels, ∀ i, Spec.IsSingle (p.1 i)) :
    matrixProcessR ieee t b (Spec.image pixels) stride
      = .ok ⟨Spec.image (pixels.map fun p => (fun i => p.1 (σ i), p.2)), Spec.image pixels, false⟩ := by
  have hm : ∀ v : Fin n → K, Matrix.mulVec (fun i j => if j = σ i then (1 : K) else 0) v = fun i => v (σ i) := by
    intro v
    ext i
    simp [Matrix.mulVec, dotProduct]
  rw [C125_exact t ht b _ h stride hs pixels hp fun p hp' i j => ⟨?_, ?_⟩]
  · simp only [hm]
  · split
    · rw [one_mul]; exact hv p hp' j
    · rw [zero_mul]; exact isSingle_zero
  · simp only [ite_mul, one_mul, zero_mul, Finset.sum_ite_eq', Finset.mem_filter, Finset.mem_univ, true_and]
    split
    · exact hv p hp' _
    · exact isSingle_zero

/-! ### Instances -/

/-- The node of a matrix with entries `0.1`, `0.2`, `0.7`: the sum of the products with 1 is not 1 exactly. -/
example : ∃ r, matrixProcessR (K := ℚ) ieee double (exampleMatrixBase [1 / 10, 2 / 10, 3, 4] [2, 2, 2])
    (Spec.image [(![1, 1], [.nan])]) 3 = .ok r ∧
      r.out ≠ Spec.image [((!![1 / 10, 2 / 10; 3, 4] : Matrix (Fin 2) (Fin 2) ℚ).mulVec ![1, 1], [.nan])] :=
  ⟨_, rfl, by decide +kernel⟩

example (t : Fmt) (ht : t = half ∨ t = single ∨ t = double) :
    ∃ (r : Res ℚ) (f : (Fin 3 → ℚ) → Fin 3 → ℚ),
      matrixProcessR ieee t (exampleMatrixBase [1, 2, 3, 4, 5, 6, 7, 8, 10] [3, 3, 3])
        (Spec.image [(![1 / 3, 1 / 5, 2], [.fin 1]), (![0, -7, 2 / 7], [.nan])]) 4 = .ok r ∧
      r.out = Spec.image ([(![1 / 3, 1 / 5, 2], [.fin 1]), (![0, -7, 2 / 7], [.nan])].map fun p => (f p.1, p.2)) ∧
      ∀ p ∈ [((![1 / 3, 1 / 5, 2] : Fin 3 → ℚ), [(.fin 1 : Flt ℚ)]), (![0, -7, 2 / 7], [.nan])], ∀ i, Spec.IsSingle (f p.1 i) ∧
        |f p.1 i - (!![1, 2, 3; 4, 5, 6; 7, 8, 10] : Matrix _ _ ℚ).mulVec p.1 i|
          ≤ 5 * (3 : ℕ) * ((∑ j, |(!![1, 2, 3; 4, 5, 6; 7, 8, 10] : Matrix (Fin 3) (Fin 3) ℚ) i j * p.1 j|) / 2 ^ 24 + 2 ^ (-150 : ℤ)) :=
  C125_linear t ht (by norm_num) _ _ ⟨rfl, rfl, _, [3], rfl, rfl, rfl⟩ 4 (by decide) _ (by simp) (by decide +kernel)

example (t : Fmt) (ht : t = half ∨ t = single ∨ t = double) :
    ∃ (r : Res ℚ) (f : (Fin 2 → ℚ) → Fin 2 → ℚ),
      matrixProcessR ieee t (exampleMatrixBase [1, 2, 5, 3, 4, 6] [2, 3, 2]) (Spec.image [(![1 / 3, -1], [])]) 2 = .ok r ∧
      r.out = Spec.image ([(![1 / 3, -1], [])].map fun p => (f p.1, p.2)) ∧
      ∀ p ∈ [((![1 / 3, -1] : Fin 2 → ℚ), ([] : List (Flt ℚ)))], ∀ i, Spec.IsSingle (f p.1 i) ∧
        |f p.1 i - ((!![1, 2; 3, 4] : Matrix _ _ ℚ).mulVec p.1 i + (![5, 6] : Fin 2 → ℚ) i)|
          ≤ 5 * ((2 : ℕ) + 1) * (((∑ j, |(!![1, 2; 3, 4] : Matrix (Fin 2) (Fin 2) ℚ) i j * p.1 j|) + |(![5, 6] : Fin 2 → ℚ) i|) / 2 ^ 24
            + 2 ^ (-150 : ℤ)) :=
  C125_affine t ht (by norm_num) _ _ _ ⟨rfl, rfl, _, [2], rfl, rfl, rfl⟩ 2 (by decide) _ (by simp) (by decide +kernel)

/-- Two channels exchanged. -/
example (x y : ℚ) (hx : Spec.IsSingle x) (hy : Spec.IsSingle y) :
    matrixProcessR ieee double (exampleMatrixBase [0, 1, 1, 0] [2, 2, 2]) (Spec.image [(![x, y], [.nan])]) 3
      = .ok ⟨Spec.image [(![y, x], [.nan])], Spec.image [(![x, y], [.nan])], false⟩ := by
  have hv : ∀ i, Spec.IsSingle ((![x, y] : Fin 2 → ℚ) i) := by
    intro i; fin_cases i <;> assumption
  have := C125_permutation double (.inr (.inr rfl)) (exampleMatrixBase [0, 1, 1, 0] [2, 2, 2]) (Equiv.swap (0 : Fin 2) 1)
    ⟨rfl, rfl, _, [2], rfl, rfl, by decide +kernel⟩ 3 (by decide) [(![x, y], [.nan])] (by simp) (by simpa using hv)
  rw [this]
  have e : (fun i => (![x, y] : Fin 2 → ℚ) (Equiv.swap (0 : Fin 2) 1 i)) = ![y, x] := by
    ext i; fin_cases i <;> rfl
  simp only [List.map_cons, List.map_nil, e]

/-- Finite values are needed: with the identity matrix an infinite first channel leaves no number in the second. -/
example : (matrixProcessR (K := ℚ) ieee double (exampleMatrixBase [1, 0, 0, 1] [2, 2, 2]) [.inf false, .fin 1] 2).map (·.out)
    = .ok [.inf false, .nan] := by decide +kernel

end CLF
