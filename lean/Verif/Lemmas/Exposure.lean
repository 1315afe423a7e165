import Verif.Lemmas.RoundedTone
import Verif.Lemmas.Shape

/-! # Lemmas: ExposureContrast nodes -/

set_option linter.unusedSectionVars false

namespace CLF

variable {K : Type} [Field K] [LinearOrder K] [IsStrictOrderedRing K] [FloorRing K]

/-- What happens to one normalized channel. -/
def ecTone (R : Rounding K) (L : Arith K) (e c p : Flt K) (x : Flt K) : Py (Flt K) := do
  let g ← pyPow L (.fin 2) e
  let w ← pyPow L (Flt.pmax (.fin 0) (R double (R double (g * x) / p))) c
  pure (R double (p * w))

/-- With three channels the node is a channel loop (with more it takes the others from the first pixel). -/
theorem ecProcessR_view (R : Rounding K) (L : Arith K) (e c p : Flt K) (b : Base K) (d1 d2 : AVal) (h : StyledNode b d1 d2 (.str "linear"))
    (v : List (Flt K)) : ecProcessR R L e c p b v 3 = viewLoop 3 v (chanLoop 3 fun _ x => do
      let y ← ecTone R L e c p (R single (toUnitR R x (some d1)))
      pure (R single (fromUnitR R (R single y) (some d2)))) := by
  obtain ⟨e1, e2, e3⟩ := h.attrs
  unfold ecProcessR viewLoop
  simp only [e1, e2, e3, py_ok_bind, ecChannelsR, if_true]
  refine pixelLoop_congr 3 (by norm_num) _ _ _ fun vals px hpx => ?_
  simp only [ecTone, bind_assoc, pure_bind]
  generalize hc : chanLoop 3 _ px = q
  cases q with
  | error _ => rfl
  | ok o =>
    obtain ⟨l1, l2⟩ := chanLoop_length hc
    have l3 : px.length = 3 := by omega
    simp only [py_ok_bind, l3, min_self]
    have : pySlice vals 3 3 = [] := by simp [pySlice]
    rw [this, List.append_nil, List.take_of_length_le (by omega)]

/-- A node of style `linear` on pixels of three channels. -/
theorem ecProcessR_image (R : Rounding K) (L : Arith K) (e c p : Flt K) (b : Base K) (d1 d2 : AVal) (h : StyledNode b d1 d2 (.str "linear"))
    (pixels : List ((Fin 3 → K) × List (Flt K))) (hp : ∀ q ∈ pixels, q.2.length + 3 = 3) (F : Fin 3 → K → K)
    (hF : ∀ q ∈ pixels, ∀ i : Fin 3, ∃ y, ecTone R L e c p (R single (toUnitR R (.fin (q.1 i)) (some d1))) = .ok y ∧
      R single (fromUnitR R (R single y) (some d2)) = .fin (F i (q.1 i))) :
    ∃ r, ecProcessR R L e c p b (Spec.image pixels) 3 = .ok r ∧
      r.out = Spec.image (pixels.map fun q => (fun i => F i (q.1 i), q.2)) := by
  rw [ecProcessR_view R L e c p b d1 d2 h]
  refine ⟨_, chanNode_image 3 le_rfl _ pixels hp F ?_, rfl⟩
  intro q hq i
  obtain ⟨y, h1, h2⟩ := hF q hq i
  simp only [h1, py_ok_bind, h2, py_pure]

end CLF
