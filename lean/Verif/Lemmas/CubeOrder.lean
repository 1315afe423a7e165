import Verif.Lemmas.TetraRow

/-! # Interpolation in rising cubes -/

set_option linter.unusedSectionVars false

namespace CLF

variable {K : Type} [Field K] [LinearOrder K] [IsStrictOrderedRing K] [FloorRing K]

theorem lerpRow_pointwise {m : ℕ} {f g : Fin (m + 1) → K} (h : ∀ i, f i ≤ g i) (t : K) : lerpRow f t ≤ lerpRow g t := by
  obtain ⟨⟨i, hi⟩, -⟩ := lerpRow_mem (fun i => g i - f i) t
  rw [lerpRow_sub] at hi
  linarith [h i]

/-- Trilinear interpolation rises. -/
theorem triRow_rises {m : ℕ} (V : Fin (m + 1) → Fin (m + 1) → Fin (m + 1) → K)
    (hV : ∀ i i' j j' k k', i ≤ i' → j ≤ j' → k ≤ k' → V i j k ≤ V i' j' k') {x y z x' y' z' : K} (hx : x ≤ x') (hy : y ≤ y') (hz : z ≤ z') :
    triRow V x y z ≤ triRow V x' y' z' := by
  refine (lerpRow_mono (fun i => lerpRow (fun j => lerpRow (fun k => V i j k) z) y)
    (fun i i' hi => lerpRow_pointwise (fun j => lerpRow_pointwise (fun k => hV _ _ _ _ _ _ hi le_rfl le_rfl) z) y) hx).trans ?_
  refine lerpRow_pointwise (fun i => ?_) _
  refine (lerpRow_mono (fun j => lerpRow (fun k => V i j k) z) (fun j j' hj => lerpRow_pointwise (fun k => hV _ _ _ _ _ _ le_rfl hj le_rfl) z) hy).trans ?_
  exact lerpRow_pointwise (fun j => lerpRow_mono _ (fun k k' hk => hV _ _ _ _ _ _ le_rfl le_rfl hk) hz) _

/-- Tetrahedral interpolation rises. -/
theorem tetRow_rises {m : ℕ} (V : Fin (m + 1) → Fin (m + 1) → Fin (m + 1) → K)
    (hV : ∀ i i' j j' k k', i ≤ i' → j ≤ j' → k ≤ k' → V i j k ≤ V i' j' k') {x y z x' y' z' : K} (hx : x ≤ x') (hy : y ≤ y') (hz : z ≤ z') :
    tetRow V x y z ≤ tetRow V x' y' z' := by
  refine (tetRow_mono V (fun i i' j k h => hV _ _ _ _ _ _ h le_rfl le_rfl) hx).trans ?_
  have hy' : tetRow (fun j i k => V i j k) y x' z ≤ tetRow (fun j i k => V i j k) y' x' z :=
    tetRow_mono (fun j i k => V i j k) (fun j j' i k h => hV i i j j' k k le_rfl h le_rfl) hy
  have hz' : tetRow (fun k i j => V i j k) z x' y' ≤ tetRow (fun k i j => V i j k) z' x' y' :=
    tetRow_mono (fun k i j => V i j k) (fun k k' i j h => hV i i j j k k' le_rfl le_rfl h) hz
  rw [← tetRow_swap12 V, ← tetRow_swap12 V] at hy'
  rw [← tetRow_swap12 (fun i k j => V i j k), ← tetRow_swap12 (fun i k j => V i j k), ← tetRow_swap23 V, ← tetRow_swap23 V] at hz'
  exact hy'.trans hz'

end CLF
