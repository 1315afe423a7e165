import Verif.Lemmas.Range
import Mathlib.Tactic.FieldSimp
import Mathlib.Tactic.Linarith
import Mathlib.Tactic.Ring

/-! Lemmas about index map evaluation. -/

set_option linter.unusedSectionVars false

namespace CLF

variable {K : Type} [Field K] [LinearOrder K] [IsStrictOrderedRing K] [FloorRing K]

theorem pyGet_map_fin (l : List K) (i : ℕ) (h : i < l.length) :
    pyGet (l.map Flt.fin) i = .ok (.fin l[i]) := by
  rw [pyGet_of_lt (by simpa using h)]; simp

/-- The affine map between two bounds stays between its end values. -/
theorem affine_mem {a b c d x : K} (h1 : a < x) (h2 : x ≤ b) :
    min c d ≤ Spec.affine a b c d x ∧ Spec.affine a b c d x ≤ max c d := by
  have hp : 0 < b - a := by linarith
  have ht0 : 0 ≤ (x - a) / (b - a) := div_nonneg (by linarith) hp.le
  have ht1 : (x - a) / (b - a) ≤ 1 := (div_le_one hp).mpr (by linarith)
  have e : Spec.affine a b c d x = c + (x - a) / (b - a) * (d - c) := by
    unfold Spec.affine; ring
  rw [e]
  set t := (x - a) / (b - a)
  rcases le_total c d with h | h
  · rw [min_eq_left h, max_eq_right h]
    constructor
    · nlinarith [mul_nonneg ht0 (sub_nonneg.mpr h)]
    · nlinarith [mul_nonneg (sub_nonneg.mpr ht1) (sub_nonneg.mpr h)]
  · rw [min_eq_right h, max_eq_left h]
    constructor
    · nlinarith [mul_nonneg (sub_nonneg.mpr ht1) (sub_nonneg.mpr h)]
    · nlinarith [mul_nonneg ht0 (sub_nonneg.mpr h)]

theorem affine_mono {a b c d x y : K} (hab : a < b) (hcd : c ≤ d) (h : x ≤ y) :
    Spec.affine a b c d x ≤ Spec.affine a b c d y := by
  have hs : 0 ≤ (d - c) / (b - a) := div_nonneg (sub_nonneg.mpr hcd) (sub_pos.mpr hab).le
  unfold Spec.affine
  have := mul_le_mul_of_nonneg_right (sub_le_sub_right h a) hs
  linarith

theorem affine_left {a b c d : K} : Spec.affine a b c d a = c := by simp [Spec.affine]

theorem affine_right {a b c d : K} (h : a ≠ b) : Spec.affine a b c d b = d := by
  unfold Spec.affine; rw [mul_div_cancel₀ _ (sub_ne_zero.mpr h.symm)]; ring

/-- What the search loop finds. -/
theorem search_spec (dim : ℕ) (xs ys : List K) (hl : xs.length = ys.length) (x : K) :
    ∀ (n i : ℕ) (hi : i < xs.length), i + n = xs.length → xs[i] < x →
      (∃ k, ∃ h : k < xs.length, i < k ∧ x < xs[k]) →
      ∃ (j : ℕ) (hj : j + 1 < xs.length), xs[j] < x ∧ x ≤ xs[j + 1] ∧
        IndexMap.search ⟨dim, xs.map .fin, ys.map .fin⟩ (.fin x) i n
          = .ok (.fin (Spec.affine xs[j] xs[j + 1] ys[j] ys[j + 1] x)) := by
  intro n
  induction n with
  | zero => intro i hi hn _ _; omega
  | succ n ih =>
    intro i hi hn hx ⟨k, hk, hik, hxk⟩
    have hi1 : i + 1 < xs.length := by omega
    unfold IndexMap.search
    simp only [pyGet_map_fin _ _ hi1, pyGet_map_fin _ _ hi,
      pyGet_map_fin ys i (by omega), pyGet_map_fin ys (i + 1) (by omega), py_ok_bind]
    by_cases hle : x ≤ xs[i + 1]
    · refine ⟨i, hi1, hx, hle, ?_⟩
      have hne : xs[i + 1] - xs[i] ≠ 0 := by
        have : xs[i] < xs[i + 1] := hx.trans_le hle
        exact sub_ne_zero.mpr this.ne'
      simp only [Flt.le, hle, decide_true, if_true, Flt.fin_sub, Flt.fin_div hne, Flt.fin_mul,
        Flt.fin_add, py_pure, Spec.affine]
      congr 2
      field_simp
      ring
    · simp only [Flt.le, hle, decide_false, Bool.false_eq_true, if_false]
      have hlt : xs[i + 1] < x := lt_of_not_ge hle
      have hik' : i + 1 < k := by
        rcases Nat.lt_or_ge (i + 1) k with h | h
        · exact h
        · have : k = i + 1 := by omega
          subst this
          exact absurd hxk (not_lt.mpr hlt.le)
      exact ih (i + 1) hi1 (by omega) hlt ⟨k, hk, hik', hxk⟩

/-- The three regimes of an index map. -/
theorem processRaw_cases (dim : ℕ) (xs ys : List K) (hne : xs ≠ []) (hl : xs.length = ys.length)
    (x : K) :
    let p := IndexMap.process ⟨dim, xs.map .fin, ys.map .fin⟩ (.fin x)
    have h0 : 0 < xs.length := List.length_pos_iff.mpr hne
    (x ≤ xs[0] ∧ p = .ok (.fin (ys[0]))) ∨
    (xs[0] < x ∧ xs[xs.length - 1] ≤ x ∧ p = .ok (.fin (ys[ys.length - 1]))) ∨
    (xs[0] < x ∧ x < xs[xs.length - 1] ∧ ∃ (j : ℕ) (hj : j + 1 < xs.length),
      xs[j] < x ∧ x ≤ xs[j + 1] ∧
      p = .ok (.fin (Spec.affine xs[j] xs[j + 1] ys[j] ys[j + 1] x))) := by
  intro p h0
  have hlast (l : List K) (h : l ≠ []) (hh : l.length - 1 < l.length) :
      pyIdx (l.map Flt.fin) (-1) = .ok (.fin l[l.length - 1]) := by
    rw [pyIdx_neg_one (by simpa using h)]
    simp [List.getLast_eq_getElem]
  have hy : ys ≠ [] := by
    intro h; simp [h] at hl; exact hne hl
  by_cases h1 : x ≤ xs[0]
  · left
    refine ⟨h1, ?_⟩
    simp only [p, IndexMap.process, IndexMap.processRaw, pyGet_map_fin _ _ h0, py_ok_bind,
      Flt.le, h1, decide_true, if_true]
    exact pyGet_map_fin ys 0 (by omega)
  · right
    have h1' := lt_of_not_ge h1
    by_cases h2 : xs[xs.length - 1] ≤ x
    · left
      refine ⟨h1', h2, ?_⟩
      simp only [p, IndexMap.process, IndexMap.processRaw, pyGet_map_fin _ _ h0, py_ok_bind,
        Flt.le, h1, decide_false, Bool.false_eq_true, if_false, hlast xs hne (by omega), h2,
        decide_true, if_true]
      exact hlast ys hy (by omega)
    · right
      have h2' := lt_of_not_ge h2
      refine ⟨h1', h2', ?_⟩
      have hk : 0 < xs.length - 1 := by
        rcases Nat.eq_zero_or_pos (xs.length - 1) with h | h
        · simp only [h] at h2'; exact absurd h2' (not_lt.mpr h1'.le)
        · exact h
      obtain ⟨j, hj, a, b, c⟩ := search_spec dim xs ys hl x xs.length 0 h0 (by omega) h1'
        ⟨xs.length - 1, by omega, hk, h2'⟩
      refine ⟨j, hj, a, b, ?_⟩
      simp only [p, IndexMap.process, IndexMap.processRaw, pyGet_map_fin _ _ h0, py_ok_bind,
        Flt.le, h1, decide_false, Bool.false_eq_true, if_false, hlast xs hne (by omega), h2,
        List.length_map]
      exact c

end CLF
