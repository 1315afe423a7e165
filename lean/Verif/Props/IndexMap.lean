import Verif.Lemmas.IndexMap
import Mathlib.Data.List.Sort

/-! # Properties C12, C13: index maps -/

set_option linter.unusedSectionVars false

namespace CLF

variable {K : Type} [Field K] [LinearOrder K] [IsStrictOrderedRing K] [FloorRing K]

/-- C12: an index map with finite knots, as many outputs as inputs and at least
one, evaluates every finite value to a finite value between two of its outputs.
The inputs need not be sorted or distinct. -/
theorem C12_total_bounded (dim : ℕ) (xs ys : List K) (hne : xs ≠ [])
    (hl : xs.length = ys.length) (x : K) :
    ∃ y, IndexMap.process ⟨dim, xs.map .fin, ys.map .fin⟩ (.fin x) = .ok (.fin y) ∧
      (∃ lo ∈ ys, lo ≤ y) ∧ (∃ hi ∈ ys, y ≤ hi) := by
  have hc := processRaw_cases dim xs ys hne hl x
  have h0 : 0 < xs.length := List.length_pos_iff.mpr hne
  rcases hc with ⟨_, h⟩ | ⟨_, _, h⟩ | ⟨_, _, j, hj, h1, h2, h⟩
  · exact ⟨_, h, ⟨_, List.getElem_mem _, le_rfl⟩, ⟨_, List.getElem_mem _, le_rfl⟩⟩
  · exact ⟨_, h, ⟨_, List.getElem_mem _, le_rfl⟩, ⟨_, List.getElem_mem _, le_rfl⟩⟩
  · refine ⟨_, h, ?_, ?_⟩
    · have := (affine_mem (c := ys[j]) (d := ys[j + 1]) h1 h2).1
      rcases min_le_iff.mp this with h | h
      · exact ⟨_, List.getElem_mem _, h⟩
      · exact ⟨_, List.getElem_mem _, h⟩
    · have := (affine_mem (c := ys[j]) (d := ys[j + 1]) h1 h2).2
      rcases le_max_iff.mp this with h | h
      · exact ⟨_, List.getElem_mem _, h⟩
      · exact ⟨_, List.getElem_mem _, h⟩

/-- C12: NaN and infinities pass through every index map. -/
theorem C12_nonfinite (m : IndexMap K) (s : Bool) :
    m.process .nan = .ok .nan ∧ m.process (.inf s) = .ok (.inf s) := ⟨rfl, rfl⟩

/-- C13: below the first and above the last input the map is constant. -/
theorem C13_saturates (dim : ℕ) (xs ys : List K) (h0 : 0 < xs.length)
    (hl : xs.length = ys.length) (hs : xs.Pairwise (· < ·)) (x : K) :
    (x ≤ xs[0] → IndexMap.process ⟨dim, xs.map .fin, ys.map .fin⟩ (.fin x) = .ok (.fin ys[0])) ∧
    (xs[xs.length - 1] ≤ x →
      IndexMap.process ⟨dim, xs.map .fin, ys.map .fin⟩ (.fin x) = .ok (.fin ys[ys.length - 1])) := by
  have hne : xs ≠ [] := List.length_pos_iff.mp h0
  have hmono := List.pairwise_iff_getElem.mp hs
  constructor
  · intro h
    rcases processRaw_cases dim xs ys hne hl x with ⟨_, e⟩ | ⟨h1, _, _⟩ | ⟨h1, _⟩
    · exact e
    · exact absurd h (not_le.mpr h1)
    · exact absurd h (not_le.mpr h1)
  · intro h
    rcases processRaw_cases dim xs ys hne hl x with ⟨h1, e⟩ | ⟨_, _, e⟩ | ⟨_, h2, _⟩
    · rcases Nat.eq_or_lt_of_le h0 with h' | h'
      · have e1 : ys.length - 1 = 0 := by omega
        simp only [e1]; exact e
      · have := hmono 0 (xs.length - 1) h0 (by omega) (by omega)
        exact absurd (h.trans h1) (not_le.mpr this)
    · exact e
    · exact absurd h (not_le.mpr h2)

/-- C13: between two neighbouring inputs the map is the affine interpolation of
their outputs; in particular it is exact at the inputs. -/
theorem C13_interpolates (dim : ℕ) (xs ys : List K) (hl : xs.length = ys.length)
    (hs : xs.Pairwise (· < ·)) (k : ℕ) (hk : k + 1 < xs.length) (x : K)
    (h1 : xs[k] ≤ x) (h2 : x ≤ xs[k + 1]) :
    IndexMap.process ⟨dim, xs.map .fin, ys.map .fin⟩ (.fin x)
      = .ok (.fin (Spec.affine xs[k] xs[k + 1] ys[k] ys[k + 1] x)) := by
  have h0 : 0 < xs.length := by omega
  have hne : xs ≠ [] := List.length_pos_iff.mp h0
  have hlt := List.pairwise_iff_getElem.mp hs
  have hle : ∀ i j (hi : i < xs.length) (hj : j < xs.length), i ≤ j → xs[i] ≤ xs[j] := by
    intro i j hi hj hij
    rcases Nat.eq_or_lt_of_le hij with h | h
    · subst h; exact le_rfl
    · exact (hlt i j hi hj h).le
  rcases processRaw_cases dim xs ys hne hl x with ⟨ha, e⟩ | ⟨_, hb, e⟩ | ⟨_, _, j, hj, ha, hb, e⟩
  · have hk0 : k = 0 := by
      by_contra hc
      have := hlt 0 k h0 (by omega) (by omega)
      exact absurd (h1.trans ha) (not_le.mpr this)
    subst hk0
    have : x = xs[0] := le_antisymm ha h1
    rw [e, this, affine_left]
  · have hk0 : k + 1 = xs.length - 1 := by
      by_contra hc
      have := hlt (k + 1) (xs.length - 1) hk (by omega) (by omega)
      exact absurd (hb.trans h2) (not_le.mpr this)
    have hx : x = xs[k + 1] := by
      apply le_antisymm h2
      simp only [hk0]; exact hb
    have e1 : ys.length - 1 = k + 1 := by omega
    rw [e, hx, affine_right (hlt k (k + 1) (by omega) hk (by omega)).ne]
    simp only [e1]
  · rcases lt_trichotomy j k with h | h | h
    · have hjk : xs[j + 1] ≤ xs[k] := hle _ _ _ _ (by omega)
      have hx : x = xs[j + 1] := le_antisymm hb (hjk.trans h1)
      have hx' : xs[k] = x := le_antisymm h1 (hb.trans hjk)
      have hkj : j + 1 = k := by
        by_contra hc
        have := hlt (j + 1) k hj (by omega) (by omega)
        rw [← hx, hx'] at this
        exact lt_irrefl _ this
      subst hkj
      rw [e, hx, affine_right (hlt j (j + 1) (by omega) hj (by omega)).ne, affine_left]
    · subst h; exact e
    · have := hle (k + 1) j hk (by omega) (by omega)
      exact absurd (h2.trans this) (not_le.mpr ha)

/-- C13: exact at every knot. -/
theorem C13_knots (dim : ℕ) (xs ys : List K) (hl : xs.length = ys.length)
    (hs : xs.Pairwise (· < ·)) (k : ℕ) (hk : k < xs.length) :
    IndexMap.process ⟨dim, xs.map .fin, ys.map .fin⟩ (.fin xs[k]) = .ok (.fin ys[k]) := by
  have hlt := List.pairwise_iff_getElem.mp hs
  rcases Nat.lt_or_ge (k + 1) xs.length with h | h
  · rw [C13_interpolates dim xs ys hl hs k h _ le_rfl (hlt k (k + 1) hk h (by omega)).le,
      affine_left]
  · have e : xs.length - 1 = k := by omega
    have e' : ys.length - 1 = k := by omega
    have := (C13_saturates dim xs ys (by omega) hl hs xs[k]).2 (by simp only [e]; exact le_rfl)
    rw [this]; simp only [e']

/-- C13: if the outputs are non-decreasing, so is the map. -/
theorem C13_monotone (dim : ℕ) (xs ys : List K) (hne : xs ≠ []) (hl : xs.length = ys.length)
    (hs : xs.Pairwise (· < ·)) (hy : ys.Pairwise (· ≤ ·)) (x x' : K) (hxx : x ≤ x') :
    ∃ y y', IndexMap.process ⟨dim, xs.map .fin, ys.map .fin⟩ (.fin x) = .ok (.fin y) ∧
      IndexMap.process ⟨dim, xs.map .fin, ys.map .fin⟩ (.fin x') = .ok (.fin y') ∧ y ≤ y' := by
  have h0 : 0 < xs.length := List.length_pos_iff.mpr hne
  have hlt := List.pairwise_iff_getElem.mp hs
  have hle : ∀ i j (hi : i < xs.length) (hj : j < xs.length), i ≤ j → xs[i] ≤ xs[j] := by
    intro i j hi hj hij
    rcases Nat.eq_or_lt_of_le hij with h | h
    · subst h; exact le_rfl
    · exact (hlt i j hi hj h).le
  have hyle : ∀ i j (hi : i < ys.length) (hj : j < ys.length), i ≤ j → ys[i] ≤ ys[j] := by
    intro i j hi hj hij
    rcases Nat.eq_or_lt_of_le hij with h | h
    · subst h; exact le_rfl
    · exact List.pairwise_iff_getElem.mp hy i j hi hj h
  have hseg : ∀ (j : ℕ) (hj : j + 1 < xs.length) (z : K), xs[j] < z → z ≤ xs[j + 1] →
      ys[j] ≤ Spec.affine xs[j] xs[j + 1] ys[j] ys[j + 1] z ∧
      Spec.affine xs[j] xs[j + 1] ys[j] ys[j + 1] z ≤ ys[j + 1] := by
    intro j hj z ha hb
    have := affine_mem (c := ys[j]) (d := ys[j + 1]) ha hb
    rwa [min_eq_left (hyle j (j + 1) (by omega) (by omega) (by omega)),
      max_eq_right (hyle j (j + 1) (by omega) (by omega) (by omega))] at this
  rcases processRaw_cases dim xs ys hne hl x with ⟨ha, e⟩ | ⟨ha0, ha, e⟩ | ⟨_, _, j, hj, ha, hb, e⟩ <;>
  rcases processRaw_cases dim xs ys hne hl x' with
    ⟨ha', e'⟩ | ⟨ha0', ha', e'⟩ | ⟨hc', hd', j', hj', ha', hb', e'⟩ <;>
  refine ⟨_, _, e, e', ?_⟩
  · exact le_rfl
  · exact hyle _ _ _ _ (by omega)
  · exact (hyle 0 j' (by omega) (by omega) (by omega)).trans (hseg j' hj' x' ha' hb').1
  · exact absurd (hxx.trans ha') (not_le.mpr ha0)
  · exact le_rfl
  · exact absurd (ha.trans hxx) (not_le.mpr hd')
  · have := hle 0 j h0 (by omega) (by omega)
    exact absurd ((hxx.trans ha').trans this) (not_le.mpr ha)
  · exact (hseg j hj x ha hb).2.trans (hyle _ _ _ _ (by omega))
  · rcases lt_trichotomy j j' with h | h | h
    · exact (hseg j hj x ha hb).2.trans
        ((hyle (j + 1) j' (by omega) (by omega) (by omega)).trans (hseg j' hj' x' ha' hb').1)
    · subst h
      exact affine_mono (hlt j (j + 1) (by omega) hj (by omega))
        (hyle j (j + 1) (by omega) (by omega) (by omega)) hxx
    · have := hle (j' + 1) j hj' (by omega) (by omega)
      exact absurd ((hxx.trans hb').trans this) (not_le.mpr ha)

/-! ### Instances -/

example : ([0, 3, 10] : List ℚ).Pairwise (· < ·) := by decide +kernel
example : IndexMap.process (K := ℚ) ⟨2, [0, 3, 10].map .fin, [0, 1, 5].map .fin⟩ (.fin 10)
    = .ok (.fin 5) :=
  C13_knots 2 [0, 3, 10] [0, 1, 5] rfl (by decide +kernel) 2 (by decide)
/-- Unsorted inputs, as allowed by C12. -/
example : IndexMap.process (K := ℚ) ⟨2, [0, 7, 3, 10].map .fin, [0, 1, 5, 2].map .fin⟩ (.fin 8)
    = .ok (.fin (20 / 7)) := by decide +kernel

end CLF
