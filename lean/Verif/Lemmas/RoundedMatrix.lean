import Verif.Lemmas.RoundedCube
import Verif.Props.Matrix

/-! # The Matrix node in IEEE arithmetic -/

set_option linter.unusedSectionVars false

namespace CLF

variable {K : Type} [Field K] [LinearOrder K] [IsStrictOrderedRing K] [FloorRing K]

/-- The loop of a row, for any rounding. -/
theorem dotR_loop (R : Rounding K) (w : Fmt) (m value : List (Flt K)) (offset : ℕ) (c v acc : ℕ → K) (n : ℕ)
    (h0 : acc 0 = 0) (hc : ∀ j < n, pyGet m (j + offset) = .ok (.fin (c j)))
    (hv : ∀ j < n, pyGet value j = .ok (.fin (v j)))
    (ha : ∀ j < n, R single (R w (.fin (acc j) + R w (.fin (c j) * .fin (v j)))) = .fin (acc (j + 1))) :
    (List.range n).foldlM (init := Flt.fin 0) (fun acc j => do
      let c ← pyGet m (j + offset)
      let v ← pyGet value j
      pure (R single (R w (acc + R w (c * v)))))
    = (.ok (.fin (acc n)) : Py (Flt K)) := by
  induction n with
  | zero => simp [h0]
  | succ n ih =>
    rw [List.range_succ, List.foldlM_append, ih (fun j hj => hc j (by omega)) (fun j hj => hv j (by omega))
      (fun j hj => ha j (by omega))]
    simp only [py_ok_bind, List.foldlM_cons, List.foldlM_nil, hc n (by omega), hv n (by omega), py_pure, ha n (by omega)]

/-- The node, for any rounding, in terms of what the rows give. -/
theorem matrixR_image (R : Rounding K) (t : Fmt) {n : ℕ} (b : Base K) (a : Arr K) (d1 : ℕ)
    (rest : List ℕ) (h1 : (b.attrs.get? "inBitDepth").isSome)
    (h2 : (b.attrs.get? "outBitDepth").isSome) (ha : b.array = .ok a)
    (hd : a.dims = n :: d1 :: rest) (f : (Fin n → K) → Fin n → K)
    (stride : ℕ) (hs : 0 < stride) (pixels : List ((Fin n → K) × List (Flt K)))
    (hrow : ∀ p ∈ pixels, ∀ i : Fin n, matrixRowR R t n d1 a.values (Spec.fins p.1 ++ p.2) i = .ok (.fin (f p.1 i)))
    (hp : ∀ p ∈ pixels, n + p.2.length = stride) :
    matrixProcessR R t b (Spec.image pixels) stride
    = .ok ⟨Spec.image (pixels.map fun p => (f p.1, p.2)), Spec.image pixels, false⟩ := by
  obtain ⟨v1, e1⟩ := attrE_of_isSome h1
  obtain ⟨v2, e2⟩ := attrE_of_isSome h2
  have hbody : ∀ p ∈ pixels, (do
      let rows ← (List.range (min n (Spec.fins p.1 ++ p.2).length)).mapM
        (matrixRowR R t n d1 a.values (Spec.fins p.1 ++ p.2))
      (.ok (rows ++ (Spec.fins p.1 ++ p.2).drop (min n (Spec.fins p.1 ++ p.2).length)) :
        Py (List (Flt K)))) = .ok (Spec.fins (f p.1) ++ p.2) := by
    intro p hp'
    have hmin : min n (Spec.fins p.1 ++ p.2).length = n := by simp [Spec.fins]
    rw [hmin, range_mapM_ofFn n _ (fun i => .fin (f p.1 i)) (fun i => hrow p hp' i)]
    simp only [py_ok_bind]
    rw [List.drop_left' (by simp [Spec.fins])]; rfl
  unfold matrixProcessR
  simp only [e1, e2, ha, hd, py_ok_bind]
  have hget0 : pyGet (n :: d1 :: rest) 0 = .ok n := rfl
  have hget1 : pyGet (n :: d1 :: rest) 1 = .ok d1 := rfl
  simp only [hget0, hget1, py_ok_bind]
  have hm := pixelLoop_chunks stride hs (fun value => do
      let rows ← (List.range (min n value.length)).mapM (matrixRowR R t n d1 a.values value)
      pure (value, rows ++ value.drop (min n value.length)))
    (pixels.map fun p => Spec.fins p.1 ++ p.2) [] (by
      intro c hc
      obtain ⟨p, hp', rfl⟩ := List.mem_map.mp hc
      simpa [Spec.fins] using hp p hp') (by simpa) (by
      intro c hc v o h
      obtain ⟨p, hp', rfl⟩ := List.mem_map.mp hc
      have hb := hbody p hp'
      obtain ⟨rows, hr, hb⟩ := py_bind_eq_ok.mp hb
      simp only [hr, py_ok_bind, py_pure, Except.ok.injEq, Prod.mk.injEq] at h hb
      obtain ⟨rfl, rfl⟩ := h
      rw [hb]
      constructor <;> simpa [Spec.fins] using hp p hp')
  rw [List.append_nil] at hm
  unfold Spec.image
  refine hm.trans ?_
  have : ∀ c ∈ pixels, (fun value => (do
      let rows ← (List.range (min n value.length)).mapM (matrixRowR R t n d1 a.values value)
      pure (value, rows ++ value.drop (min n value.length)) :
        Py (List (Flt K) × List (Flt K)))) (Spec.fins c.1 ++ c.2)
      = .ok (Spec.fins c.1 ++ c.2, Spec.fins (f c.1) ++ c.2) := by
    intro c hc
    have hb := hbody c hc
    obtain ⟨rows, hr, hb⟩ := py_bind_eq_ok.mp hb
    simp only [Except.ok.injEq] at hb
    simp only [hr, py_ok_bind, py_pure, hb]
  have e := py_mapM_ok _ (fun p : (Fin n → K) × List (Flt K) =>
    (Spec.fins p.1 ++ p.2, Spec.fins (f p.1) ++ p.2)) pixels this
  rw [List.mapM_map]
  refine (congrArg (· >>= _) e).trans ?_
  simp [Function.comp_def]

/-! ## Formats of products -/

theorem wider_single {t : Fmt} (ht : t = half ∨ t = single ∨ t = double) : t.wider single = single ∨ t.wider single = double := by
  rcases ht with rfl | rfl | rfl
  · exact .inl (by decide)
  · exact .inl (by decide)
  · exact .inr (by decide)

/-- The error of one rounding, whatever the format. -/
theorem wide_err {w : Fmt} (hw : w = single ∨ w = double) (x : K) : |w.near x - x| ≤ |x| * (1 / 2 ^ 24) + 2 ^ (-150 : ℤ) := by
  rcases hw with rfl | rfl
  · exact single_rounder.err x
  · refine (double_rounder.err x).trans (add_le_add (mul_le_mul_of_nonneg_left (by norm_num) (abs_nonneg x)) ?_)
    exact zpow_le_zpow_right₀ one_le_two (by norm_num)

theorem wide_fin {w : Fmt} (hw : w = single ∨ w = double) {x : K} (h : |x| ≤ 2 ^ 125) : ieee w (.fin x) = .fin (w.near x) := by
  rcases hw with rfl | rfl
  · exact single_fin h
  · exact double_fin (h.trans (pow_le_pow_right₀ one_le_two (by norm_num)))

theorem wide_exact {w : Fmt} (hw : w = single ∨ w = double) {x : K} (h : Spec.IsSingle x) : ieee w (.fin x) = .fin x := by
  rcases hw with rfl | rfl
  · exact h
  · rw [double_fin (h.lt.le.trans (pow_le_pow_right₀ one_le_two (by norm_num))), h.double]

/-- One step of a row. -/
def stepF (w : Fmt) (acc p : K) : K := single.near (w.near (acc + p))

theorem stepF_err {w : Fmt} (hw : w = single ∨ w = double) (acc p : K) :
    |stepF w acc p - (acc + p)| ≤ 3 * (|acc + p| * (1 / 2 ^ 24) + 2 ^ (-150 : ℤ)) := by
  have h1 := wide_err hw (acc + p)
  have h2 := single_rounder.err (w.near (acc + p))
  have h3 := abs_add_le (w.near (acc + p) - (acc + p)) (acc + p)
  rw [sub_add_cancel] at h3
  have e : stepF w acc p - (acc + p) = (single.near (w.near (acc + p)) - w.near (acc + p)) + (w.near (acc + p) - (acc + p)) := by
    unfold stepF; ring
  rw [e]
  refine (abs_add_le _ _).trans ?_
  have hμ := (two_zpow_pos (K := K) (-150)).le
  have h0 := abs_nonneg (acc + p)
  generalize |acc + p| = s at *
  generalize (2 : K) ^ (-150 : ℤ) = μ at *
  norm_num at *
  linarith

/-- What a row has summed up. -/
def accF (w : Fmt) (c v : ℕ → K) : ℕ → K
  | 0 => 0
  | j + 1 => stepF w (accF w c v j) (w.near (c j * v j))

/-- The sum of the sizes. -/
def sizeF (c v : ℕ → K) (n : ℕ) : K := ∑ j ∈ Finset.range n, |c j * v j|

theorem sizeF_nonneg (c v : ℕ → K) (n : ℕ) : 0 ≤ sizeF c v n := Finset.sum_nonneg fun _ _ => abs_nonneg _

theorem sizeF_mono (c v : ℕ → K) {j n : ℕ} (h : j ≤ n) : sizeF c v j ≤ sizeF c v n :=
  Finset.sum_le_sum_of_subset_of_nonneg (Finset.range_mono h) fun _ _ _ => abs_nonneg _

theorem dot_le_sizeF (c v : ℕ → K) (n : ℕ) : |∑ j ∈ Finset.range n, c j * v j| ≤ sizeF c v n := Finset.abs_sum_le_sum_abs _ _

/-- The error of one more summand. -/
theorem stepF_close {w : Fmt} (hw : w = single ∨ w = double) {acc S p p' P k : K} (hk0 : 0 ≤ k) (hk : k ≤ 2 ^ 17)
    (hS : |S| ≤ P) (hacc : |acc - S| ≤ 5 * k * (P * (1 / 2 ^ 24) + 2 ^ (-150 : ℤ)))
    (hp : |p' - p| ≤ |p| * (1 / 2 ^ 24) + 2 ^ (-150 : ℤ)) :
    |stepF w acc p' - (S + p)| ≤ 5 * (k + 1) * ((P + |p|) * (1 / 2 ^ 24) + 2 ^ (-150 : ℤ)) := by
  have h := stepF_err hw acc p'
  have e1 : stepF w acc p' - (S + p) = (stepF w acc p' - (acc + p')) + ((acc - S) + (p' - p)) := by ring
  have e2 : acc + p' = (S + p) + ((acc - S) + (p' - p)) := by ring
  have a1 := abs_add_le (S + p) ((acc - S) + (p' - p))
  have a2 := abs_add_le (acc - S) (p' - p)
  have a3 := abs_add_le S p
  have a4 := abs_add_le (stepF w acc p' - (acc + p')) ((acc - S) + (p' - p))
  rw [← e1] at a4
  rw [← e2] at a1
  have hp0 := abs_nonneg p
  have hP0 : 0 ≤ P := (abs_nonneg S).trans hS
  have hμ := (two_zpow_pos (K := K) (-150)).le
  have hq : 0 ≤ P * (1 / 2 ^ 24) + 2 ^ (-150 : ℤ) := add_nonneg (mul_nonneg hP0 (by positivity)) hμ
  have hkq : 5 * k * (P * (1 / 2 ^ 24) + 2 ^ (-150 : ℤ)) ≤ 5 * 2 ^ 17 * (P * (1 / 2 ^ 24) + 2 ^ (-150 : ℤ)) :=
    mul_le_mul_of_nonneg_right (by linarith) hq
  have hkp : 0 ≤ 5 * k * (|p| * (1 / 2 ^ 24)) := by positivity
  have e3 : 5 * (k + 1) * ((P + |p|) * (1 / 2 ^ 24) + 2 ^ (-150 : ℤ))
      = 5 * k * (P * (1 / 2 ^ 24) + 2 ^ (-150 : ℤ)) + 5 * k * (|p| * (1 / 2 ^ 24)) + 5 * ((P + |p|) * (1 / 2 ^ 24) + 2 ^ (-150 : ℤ)) := by
    ring
  rw [e3]
  generalize 5 * k * (P * (1 / 2 ^ 24) + 2 ^ (-150 : ℤ)) = E at *
  generalize 5 * k * (|p| * (1 / 2 ^ 24)) = E' at *
  generalize |p| = q at *
  generalize |acc + p'| = s at *
  generalize |acc - S| = d at *
  generalize |p' - p| = d' at *
  generalize |acc - S + (p' - p)| = d'' at *
  generalize |S + p| = s' at *
  generalize |S| = s'' at *
  generalize |stepF w acc p' - (acc + p')| = g at *
  generalize (2 : K) ^ (-150 : ℤ) = μ at *
  refine a4.trans ?_
  norm_num at *
  linarith

theorem accF_close {w : Fmt} (hw : w = single ∨ w = double) (c v : ℕ → K) (n : ℕ) (hn : n ≤ 2 ^ 17) :
    |accF w c v n - ∑ j ∈ Finset.range n, c j * v j| ≤ 5 * (n : K) * (sizeF c v n * (1 / 2 ^ 24) + 2 ^ (-150 : ℤ)) := by
  induction n with
  | zero => simp [accF]
  | succ n ih =>
    rw [Finset.sum_range_succ, sizeF, Finset.sum_range_succ]
    have := stepF_close hw (Nat.cast_nonneg n) (by exact_mod_cast (by omega : n ≤ 2 ^ 17)) (dot_le_sizeF c v n) (ih (by omega))
      (wide_err hw (c n * v n))
    push_cast
    exact this

theorem accF_size {w : Fmt} (hw : w = single ∨ w = double) (c v : ℕ → K) (n : ℕ) (hn : n ≤ 2 ^ 17) :
    |accF w c v n| ≤ 2 * sizeF c v n + 1 := by
  have h1 := accF_close hw c v n hn
  have h2 := dot_le_sizeF c v n
  have h3 := abs_add_le (accF w c v n - ∑ j ∈ Finset.range n, c j * v j) (∑ j ∈ Finset.range n, c j * v j)
  rw [sub_add_cancel] at h3
  have h0 := sizeF_nonneg c v n
  have hμ := (two_zpow_pos (K := K) (-150)).le
  have hμ2 : (2 : K) ^ (-150 : ℤ) ≤ 1 / 2 ^ 24 := by
    rw [one_div, ← zpow_natCast, ← zpow_neg]
    exact zpow_le_zpow_right₀ one_le_two (by norm_num)
  have hq : 0 ≤ sizeF c v n * (1 / 2 ^ 24) + 2 ^ (-150 : ℤ) := add_nonneg (mul_nonneg h0 (by positivity)) hμ
  have hnK : (n : K) ≤ 2 ^ 17 := by exact_mod_cast hn
  have hkq : 5 * (n : K) * (sizeF c v n * (1 / 2 ^ 24) + 2 ^ (-150 : ℤ)) ≤ 5 * 2 ^ 17 * (sizeF c v n * (1 / 2 ^ 24) + 2 ^ (-150 : ℤ)) :=
    mul_le_mul_of_nonneg_right (by linarith) hq
  generalize sizeF c v n = P at *
  generalize (2 : K) ^ (-150 : ℤ) = μ at *
  norm_num at *
  linarith

theorem wide_size {w : Fmt} (hw : w = single ∨ w = double) (x : K) : |w.near x| ≤ 2 * |x| + 1 := by
  have h1 := wide_err hw x
  have h3 := abs_add_le (w.near x - x) x
  rw [sub_add_cancel] at h3
  have hμ2 : (2 : K) ^ (-150 : ℤ) ≤ 1 := zpow_le_one_of_nonpos₀ one_le_two (by norm_num)
  have := abs_nonneg x
  generalize (2 : K) ^ (-150 : ℤ) = μ at *
  generalize |x| = q at *
  norm_num at *
  linarith

/-- A step does not overflow. -/
theorem stepR_fin {w : Fmt} (hw : w = single ∨ w = double) {acc p : K} (ha : |acc| ≤ 2 ^ 122) (hp : |p| ≤ 2 ^ 122) :
    ieee single (ieee w (.fin acc + .fin p)) = .fin (stepF w acc p) ∧ Spec.IsSingle (stepF w acc p) := by
  have h1 : |acc + p| ≤ 2 ^ 123 := by
    refine (abs_add_le _ _).trans ((add_le_add ha hp).trans ?_)
    norm_num
  have h2 : |w.near (acc + p)| ≤ 2 ^ 125 := by
    refine (wide_size hw _).trans ?_
    have : 2 * (2 : K) ^ 123 + 1 ≤ 2 ^ 125 := by norm_num
    linarith
  have e : ieee single (.fin (w.near (acc + p))) = .fin (single.near (w.near (acc + p))) := single_fin h2
  refine ⟨?_, isSingle_near e⟩
  rw [Flt.fin_add, wide_fin hw (h1.trans (pow_le_pow_right₀ one_le_two (by norm_num))), e]
  rfl

theorem accR_fin {w : Fmt} (hw : w = single ∨ w = double) (c v : ℕ → K) (n : ℕ) (hn : n ≤ 2 ^ 17) (hP : sizeF c v n ≤ 2 ^ 120)
    (j : ℕ) (hj : j < n) :
    ieee single (ieee w (.fin (accF w c v j) + ieee w (.fin (c j) * .fin (v j)))) = .fin (accF w c v (j + 1)) ∧
      Spec.IsSingle (accF w c v (j + 1)) := by
  have hj1 := (sizeF_mono c v hj.le).trans hP
  have hj2 := (sizeF_mono c v (show j + 1 ≤ n from hj)).trans hP
  have hpj : |c j * v j| ≤ 2 ^ 120 := by
    have h0 := sizeF_nonneg c v j
    unfold sizeF at hj2 h0
    rw [Finset.sum_range_succ] at hj2
    linarith
  have b1 : |accF w c v j| ≤ 2 ^ 122 := by
    refine (accF_size hw c v j (by omega)).trans ?_
    have : 2 * (2 : K) ^ 120 + 1 ≤ 2 ^ 122 := by norm_num
    linarith
  have b2 : |w.near (c j * v j)| ≤ 2 ^ 122 := by
    refine (wide_size hw _).trans ?_
    have : 2 * (2 : K) ^ 120 + 1 ≤ 2 ^ 122 := by norm_num
    linarith
  rw [Flt.fin_mul, wide_fin hw (hpj.trans (pow_le_pow_right₀ one_le_two (by norm_num))), (stepR_fin hw b1 b2).1]
  exact ⟨rfl, (stepR_fin hw b1 b2).2⟩

theorem isSingle_zero : Spec.IsSingle (0 : K) := by
  have := single_fin (x := (0 : K)) (by rw [abs_zero]; positivity)
  rwa [Fmt.near_zero] at this

theorem accF_single {w : Fmt} (hw : w = single ∨ w = double) (c v : ℕ → K) (n : ℕ) (hn : n ≤ 2 ^ 17) (hP : sizeF c v n ≤ 2 ^ 120) :
    Spec.IsSingle (accF w c v n) := by
  cases n with
  | zero => exact isSingle_zero
  | succ n => exact (accR_fin hw c v (n + 1) hn hP n (by omega)).2

end CLF
