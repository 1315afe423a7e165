import Verif.Spec.IndexCurve
import Verif.Props.RoundedIndexMap
import Verif.Props.RoundedMapped3d
import Verif.Lemmas.RoundedList

/-!
# Lemmas on the curves of index maps
-/

set_option linter.unusedSectionVars false

namespace CLF

variable {K : Type} [Field K] [LinearOrder K] [IsStrictOrderedRing K] [FloorRing K]

theorem indexCurve_head {x0 y0 : K} (xs ys : List K) {x : K} (h : x ≤ x0) : Spec.indexCurve (x0 :: xs) (y0 :: ys) x = y0 := by
  cases xs with
  | nil => cases ys <;> rfl
  | cons x1 xs =>
    cases ys with
    | nil => rfl
    | cons y1 ys => rw [Spec.indexCurve, if_pos h]

theorem indexCurve_last : ∀ {xs ys : List K} (_ : xs.length = ys.length) (h0 : 0 < xs.length) (h0' : 0 < ys.length) (_ : xs.Pairwise (· < ·)) {x : K},
    xs[xs.length - 1] ≤ x → Spec.indexCurve xs ys x = ys[ys.length - 1]
  | [], _, _, h0, _, _, _, _ => absurd h0 (by simp)
  | [_], [_], _, _, _, _, _, _ => rfl
  | x0 :: x1 :: xs, y0 :: y1 :: ys, hl, _, _, hp, x, hx => by
    have hp' := (List.pairwise_cons.mp hp)
    have h1 : x0 < x1 := hp'.1 x1 (by simp)
    have ex : (x0 :: x1 :: xs)[(x0 :: x1 :: xs).length - 1] = (x1 :: xs)[(x1 :: xs).length - 1] := by simp [List.getElem_cons]
    have ey : (y0 :: y1 :: ys)[(y0 :: y1 :: ys).length - 1] = (y1 :: ys)[(y1 :: ys).length - 1] := by simp [List.getElem_cons]
    rw [ex] at hx
    rw [ey]
    have h2 : x1 ≤ (x1 :: xs)[(x1 :: xs).length - 1] := by
      rcases List.mem_cons.mp (List.getElem_mem (l := x1 :: xs) (n := (x1 :: xs).length - 1) (by simp)) with h | h
      · exact h.ge
      · exact ((List.pairwise_cons.mp hp'.2).1 _ h).le
    have ih := indexCurve_last (xs := x1 :: xs) (ys := y1 :: ys) (by simpa using hl) (by simp) (by simp) hp'.2 hx
    rw [Spec.indexCurve, if_neg (not_le.mpr (h1.trans_le (h2.trans hx)))]
    split_ifs with h
    · have e : x = x1 := le_antisymm h (h2.trans hx)
      rw [← ih, e, affine_right h1.ne, indexCurve_head _ _ le_rfl]
    · exact ih

theorem indexCurve_segment : ∀ {xs ys : List K} (hl : xs.length = ys.length) (_ : xs.Pairwise (· < ·)) {x : K} (k : ℕ) (hk : k + 1 < xs.length)
    (hk' : k + 1 < ys.length), xs[k] ≤ x → x ≤ xs[k + 1] → Spec.indexCurve xs ys x = Spec.affine xs[k] xs[k + 1] ys[k] ys[k + 1] x
  | [], _, _, _, _, _, hk, _, _, _ => absurd hk (by simp)
  | [_], _, _, _, _, _, hk, _, _, _ => absurd hk (by simp)
  | x0 :: x1 :: xs, y0 :: y1 :: ys, hl, hp, x, k, hk, hk', h1, h2 => by
    have hp' := (List.pairwise_cons.mp hp)
    have h01 : x0 < x1 := hp'.1 x1 (by simp)
    cases k with
    | zero =>
      simp only [List.getElem_cons_zero, List.getElem_cons_succ] at h1 h2 ⊢
      rw [Spec.indexCurve]
      split_ifs with h
      · rw [le_antisymm h h1, affine_left]
      · rfl
    | succ k =>
      have ih := indexCurve_segment (xs := x1 :: xs) (ys := y1 :: ys) (by simpa using hl) hp'.2 (x := x) k (by simpa using hk) (by simpa using hk') h1 h2
      have h3 : x1 ≤ (x1 :: xs)[k]'(by simp at hk ⊢; omega) := by
        rcases List.mem_cons.mp (List.getElem_mem (l := x1 :: xs) (n := k) (by simp at hk ⊢; omega)) with h | h
        · exact h.ge
        · exact ((List.pairwise_cons.mp hp'.2).1 _ h).le
      have h4 : x1 ≤ x := h3.trans h1
      rw [Spec.indexCurve, if_neg (not_le.mpr (h01.trans_le h4))]
      split_ifs with h
      · have e : x = x1 := le_antisymm h h4
        rw [e, affine_right h01.ne]
        rw [e, indexCurve_head _ _ le_rfl] at ih
        exact ih
      · exact ih

/-- The curve does not decrease and is not steeper than its segments. -/
theorem indexCurve_steep : ∀ {xs ys : List K} (_ : xs.length = ys.length) (_ : xs.Pairwise (· < ·)) (_ : ys.Pairwise (· ≤ ·)) {q : K}
    (_ : Spec.SlopesWithin xs ys q) {x y : K}, x ≤ y → 0 ≤ Spec.indexCurve xs ys y - Spec.indexCurve xs ys x ∧
      Spec.indexCurve xs ys y - Spec.indexCurve xs ys x ≤ q * (y - x)
  | [], [], _, _, _, q, hq, x, y, h => by
    simp only [Spec.indexCurve, sub_self, le_refl, true_and]
    exact mul_nonneg hq (sub_nonneg.mpr h)
  | [_], [_], _, _, _, q, hq, x, y, h => by
    simp only [Spec.indexCurve, sub_self, le_refl, true_and]
    exact mul_nonneg hq (sub_nonneg.mpr h)
  | x0 :: x1 :: xs, y0 :: y1 :: ys, hl, hp, hy, q, hq, x, y, h => by
    have hp' := (List.pairwise_cons.mp hp)
    have hy' := (List.pairwise_cons.mp hy)
    have h01 : x0 < x1 := hp'.1 x1 (by simp)
    have k01 : y0 ≤ y1 := hy'.1 y1 (by simp)
    obtain ⟨hq1, hq2⟩ := hq
    have ih := fun {x y : K} (h : x ≤ y) => indexCurve_steep (xs := x1 :: xs) (ys := y1 :: ys) (by simpa using hl) hp'.2 hy'.2 hq2 h
    have hd : 0 < x1 - x0 := sub_pos.mpr h01
    have s0 : 0 ≤ (y1 - y0) / (x1 - x0) := div_nonneg (sub_nonneg.mpr k01) hd.le
    have hq0 : 0 ≤ q := s0.trans hq1
    have e1 := indexCurve_head (x0 := x1) (y0 := y1) xs ys le_rfl
    have seg : ∀ u v : K, u ≤ v → 0 ≤ Spec.affine x0 x1 y0 y1 v - Spec.affine x0 x1 y0 y1 u ∧
        Spec.affine x0 x1 y0 y1 v - Spec.affine x0 x1 y0 y1 u ≤ q * (v - u) := by
      intro u v huv
      have e : Spec.affine x0 x1 y0 y1 v - Spec.affine x0 x1 y0 y1 u = (y1 - y0) / (x1 - x0) * (v - u) := by
        unfold Spec.affine; ring
      rw [e]
      exact ⟨mul_nonneg s0 (sub_nonneg.mpr huv), mul_le_mul_of_nonneg_right hq1 (sub_nonneg.mpr huv)⟩
    -- the curve, piece by piece
    have c1 : ∀ u, u ≤ x0 → Spec.indexCurve (x0 :: x1 :: xs) (y0 :: y1 :: ys) u = Spec.affine x0 x1 y0 y1 x0 := fun u hu => by
      rw [indexCurve_head _ _ hu, affine_left]
    have c2 : ∀ u, x0 ≤ u → u ≤ x1 → Spec.indexCurve (x0 :: x1 :: xs) (y0 :: y1 :: ys) u = Spec.affine x0 x1 y0 y1 u := fun u h1 h2 => by
      rcases h1.eq_or_lt with rfl | h1
      · exact c1 _ le_rfl
      · rw [Spec.indexCurve, if_neg (not_le.mpr h1), if_pos h2]
    have c3 : ∀ u, x1 ≤ u → Spec.indexCurve (x0 :: x1 :: xs) (y0 :: y1 :: ys) u = Spec.indexCurve (x1 :: xs) (y1 :: ys) u := fun u h1 => by
      rcases h1.eq_or_lt with rfl | h1
      · rw [c2 _ h01.le le_rfl, affine_right h01.ne, e1]
      · rw [Spec.indexCurve, if_neg (not_le.mpr (h01.trans h1)), if_neg (not_le.mpr h1)]
    -- between neighbouring breaks
    have d1 : ∀ u v, u ≤ v → v ≤ x0 → 0 ≤ Spec.indexCurve (x0 :: x1 :: xs) (y0 :: y1 :: ys) v - Spec.indexCurve (x0 :: x1 :: xs) (y0 :: y1 :: ys) u ∧
        Spec.indexCurve (x0 :: x1 :: xs) (y0 :: y1 :: ys) v - Spec.indexCurve (x0 :: x1 :: xs) (y0 :: y1 :: ys) u ≤ q * (v - u) := fun u v huv hv => by
      rw [c1 _ hv, c1 _ (huv.trans hv), sub_self]
      exact ⟨le_rfl, mul_nonneg hq0 (sub_nonneg.mpr huv)⟩
    have d2 : ∀ u v, u ≤ v → x0 ≤ u → v ≤ x1 → 0 ≤ Spec.indexCurve (x0 :: x1 :: xs) (y0 :: y1 :: ys) v - Spec.indexCurve (x0 :: x1 :: xs) (y0 :: y1 :: ys) u ∧
        Spec.indexCurve (x0 :: x1 :: xs) (y0 :: y1 :: ys) v - Spec.indexCurve (x0 :: x1 :: xs) (y0 :: y1 :: ys) u ≤ q * (v - u) := fun u v huv hu hv => by
      rw [c2 _ (hu.trans huv) hv, c2 _ hu (huv.trans hv)]
      exact seg u v huv
    have d3 : ∀ u v, u ≤ v → x1 ≤ u → 0 ≤ Spec.indexCurve (x0 :: x1 :: xs) (y0 :: y1 :: ys) v - Spec.indexCurve (x0 :: x1 :: xs) (y0 :: y1 :: ys) u ∧
        Spec.indexCurve (x0 :: x1 :: xs) (y0 :: y1 :: ys) v - Spec.indexCurve (x0 :: x1 :: xs) (y0 :: y1 :: ys) u ≤ q * (v - u) := fun u v huv hu => by
      rw [c3 _ (hu.trans huv), c3 _ hu]
      exact ih huv
    -- and joined
    have d23 : ∀ u v, u ≤ v → x0 ≤ u → 0 ≤ Spec.indexCurve (x0 :: x1 :: xs) (y0 :: y1 :: ys) v - Spec.indexCurve (x0 :: x1 :: xs) (y0 :: y1 :: ys) u ∧
        Spec.indexCurve (x0 :: x1 :: xs) (y0 :: y1 :: ys) v - Spec.indexCurve (x0 :: x1 :: xs) (y0 :: y1 :: ys) u ≤ q * (v - u) := fun u v huv hu => by
      rcases le_total v x1 with hv | hv
      · exact d2 u v huv hu hv
      rcases le_total x1 u with hu' | hu'
      · exact d3 u v huv hu'
      have a1 := d2 u x1 hu' hu le_rfl
      have a2 := d3 x1 v hv le_rfl
      have e : q * (v - u) = q * (x1 - u) + q * (v - x1) := by ring
      rw [e]
      constructor <;> linarith [a1.1, a1.2, a2.1, a2.2]
    rcases le_total y x0 with hy0 | hy0
    · exact d1 x y h hy0
    rcases le_total x0 x with hx0 | hx0
    · exact d23 x y h hx0
    have a1 := d1 x x0 hx0 le_rfl
    have a2 := d23 x0 y hy0 le_rfl
    have e : q * (y - x) = q * (x0 - x) + q * (y - x0) := by ring
    rw [e]
    constructor <;> linarith [a1.1, a1.2, a2.1, a2.2]

theorem indexCurve_lipschitz {xs ys : List K} (hl : xs.length = ys.length) (hp : xs.Pairwise (· < ·)) (hy : ys.Pairwise (· ≤ ·)) {q : K}
    (hq : Spec.SlopesWithin xs ys q) (x y : K) : |Spec.indexCurve xs ys x - Spec.indexCurve xs ys y| ≤ q * |x - y| := by
  rcases le_total x y with h | h
  · obtain ⟨h1, h2⟩ := indexCurve_steep hl hp hy hq h
    rw [abs_sub_comm, abs_of_nonneg h1, abs_sub_comm, abs_of_nonneg (sub_nonneg.mpr h)]
    exact h2
  · obtain ⟨h1, h2⟩ := indexCurve_steep hl hp hy hq h
    rw [abs_of_nonneg h1, abs_of_nonneg (sub_nonneg.mpr h)]
    exact h2

/-! ## Positions in IEEE arithmetic -/

/-- The index that is computed is close to the curve. -/
theorem mapStored_curve (dim : ℕ) {xs ys : List K} (h : Spec.IndexKnots xs ys) {M : K} (hM : ∀ y ∈ ys, y ≤ M) {x : K} (hx : Spec.IsSingle x) :
    ∃ z, mapStored ieee dim xs ys (.fin x) = .ok (.fin z) ∧ Spec.IsSingle z ∧ 0 ≤ z ∧ z ≤ M ∧
      |z - Spec.indexCurve xs ys x| ≤ M / 2 ^ 23 + 2 ^ (-150 : ℤ) := by
  have h0 := h.pos
  have hl := h.length
  have h0' : 0 < ys.length := hl ▸ h0
  have hM0 : 0 ≤ M := (h.outputs _ (List.getElem_mem h0')).2.trans (hM _ (List.getElem_mem h0'))
  have hE : (0 : K) ≤ M / 2 ^ 23 + 2 ^ (-150 : ℤ) := by
    have := (two_zpow_pos (K := K) (-150)).le
    positivity
  obtain ⟨z, hz, hzs, z0, z1, -, z2⟩ := C127_map dim h hx
  refine ⟨z, hz, hzs, ?_⟩
  rcases mapStored_cases dim h hx with ⟨h1, -⟩ | ⟨h1, h2, -⟩ | ⟨h1, h2, j, hj, ha, hb, -⟩
  · rw [z0 h1]
    refine ⟨(h.outputs _ (List.getElem_mem _)).2, hM _ (List.getElem_mem _), ?_⟩
    obtain ⟨x0, xs', rfl⟩ := List.exists_cons_of_length_pos h0
    obtain ⟨y0, ys', rfl⟩ := List.exists_cons_of_length_pos h0'
    rw [indexCurve_head (x0 := x0) _ _ h1]
    simpa using hE
  · rw [z1 h2]
    refine ⟨(h.outputs _ (List.getElem_mem _)).2, hM _ (List.getElem_mem _), ?_⟩
    rw [indexCurve_last hl h0 h0' h.increasing h2, sub_self, abs_zero]
    exact hE
  · have hj' : j + 1 < ys.length := hl ▸ hj
    obtain ⟨s1, s2, s3⟩ := z2 j hj ha.le hb
    have hm := hM _ (List.getElem_mem (l := ys) hj')
    refine ⟨((h.outputs _ (List.getElem_mem _)).2).trans s1, s2.trans hm, ?_⟩
    rw [indexCurve_segment hl h.increasing j hj hj' ha.le hb]
    exact s3.trans (add_le_add (div_le_div_of_nonneg_right hm (by positivity)) le_rfl)

/-- The position that is computed is close to the curve. -/
theorem mapped_position {m : ℕ} (hm0 : 0 < m) (dim : ℕ) {xs ys : List K} (h : Spec.IndexKnots xs ys) (hM : ∀ y ∈ ys, y ≤ (m : K)) {x : K}
    (hx : Spec.IsSingle x) : ∃ z p, mapStored ieee dim xs ys (.fin x) = .ok (.fin z) ∧
      ieee single (ieee double (.fin z / .fin (((m + 1 : ℕ) : K) - 1))) = .fin p ∧ Spec.IsSingle p ∧ 0 ≤ p ∧ p ≤ 1 ∧
      |p - Spec.indexCurve xs ys x / m| ≤ 1 / 2 ^ 22 := by
  obtain ⟨z, h1, h2, h3, h4, h5⟩ := mapStored_curve dim h hM hx
  obtain ⟨p, p1, p2, p3, -, -, p4, p5⟩ := index_pos hm0 h2 h3
  refine ⟨z, p, h1, p1, p2, p3, p4 h4, ?_⟩
  have hm' : (0 : K) < m := Nat.cast_pos.mpr hm0
  have hm1 : (1 : K) ≤ m := by exact_mod_cast hm0
  have a1 : |z / m - Spec.indexCurve xs ys x / m| ≤ 1 / 2 ^ 23 + 2 ^ (-150 : ℤ) := by
    rw [← sub_div, abs_div, abs_of_pos hm', div_le_iff₀ hm']
    refine h5.trans ?_
    have : (0 : K) ≤ 2 ^ (-150 : ℤ) := (two_zpow_pos (K := K) (-150)).le
    nlinarith
  have a2 : |z / m| ≤ 1 := by
    rw [abs_of_nonneg (div_nonneg h3 hm'.le)]
    exact (div_le_one hm').mpr h4
  have a3 := abs_sub_le p (z / m) (Spec.indexCurve xs ys x / m)
  have a4 : |z / m| * (9 / 8 * (1 / 2 ^ 24)) ≤ 1 * (9 / 8 * (1 / 2 ^ 24)) := mul_le_mul_of_nonneg_right a2 (by positivity)
  have a5 : (1 : K) / 2 ^ 23 + 2 ^ (-150 : ℤ) + (1 * (9 / 8 * (1 / 2 ^ 24)) + 2 ^ (-148 : ℤ)) ≤ 1 / 2 ^ 22 := by norm_num
  linarith

end CLF
