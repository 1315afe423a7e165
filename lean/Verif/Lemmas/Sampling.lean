import Verif.Model.Sampling
import Verif.Spec.Sampling
import Verif.Lemmas.Nodes
import Verif.Lemmas.Matrix

/-! # Lemmas: sampling loops -/

set_option linter.unusedSectionVars false

namespace CLF

variable {K : Type} [Field K] [LinearOrder K] [IsStrictOrderedRing K] [FloorRing K]

theorem samplePoint_fin (m : ℕ) (a b : K) (k : ℕ) :
    samplePoint (m + 2) (.fin a) (.fin b) k = .ok (.fin (Spec.grid (m + 1) a b k)) := by
  have e : ((m + 2 : ℕ) : K) - 1 = ((m + 1 : ℕ) : K) := by push_cast; ring
  have hne : ((m + 1 : ℕ) : K) ≠ 0 := Nat.cast_ne_zero.mpr (by omega)
  unfold samplePoint Spec.grid
  rw [e, pyDivF_fin hne]
  simp only [py_ok_bind, py_pure, Flt.fin_sub, Flt.fin_mul, Flt.fin_add]
  congr 2
  field_simp
  ring

theorem sampleLoop_fin (m : ℕ) (a b : K) (f : List (Flt K) → Py (List (Flt K))) :
    sampleLoop (m + 2) (.fin a) (.fin b) f = (do
      let rows ← (List.range (m + 2)).mapM fun k =>
        f (List.replicate 3 (.fin (Spec.grid (m + 1) a b k)))
      .ok rows.flatten) := by
  unfold sampleLoop
  congr 1
  apply py_mapM_congr
  intro k _
  rw [samplePoint_fin]
  rfl

/-! ### Cubes -/

theorem set_range_map {α : Type} (n : ℕ) (f : ℕ → α) (i : ℕ) (v : α) :
    ((List.range n).map f).set i v = (List.range n).map (Function.update f i v) := by
  apply List.ext_getElem (by simp)
  intro j h1 h2
  rw [List.getElem_set]
  simp only [List.getElem_map, List.getElem_range, Function.update_apply]
  by_cases h : i = j
  · simp [h]
  · simp [h, Ne.symm h]

theorem pyGet_range_map {α : Type} (n : ℕ) (f : ℕ → α) (i : ℕ) :
    pyGet ((List.range n).map f) i = if i < n then .ok (f i) else .error .indexError := by
  split_ifs with h
  · rw [pyGet_of_lt (by simpa using h)]; simp
  · rw [pyGet_of_ge (by simpa using h)]

theorem pySet_range_map {α : Type} (n : ℕ) (f : ℕ → α) (i : ℕ) (v : α) :
    pySet ((List.range n).map f) i v
      = if i < n then .ok ((List.range n).map (Function.update f i v)) else .error .indexError := by
  unfold pySet
  simp only [List.length_map, List.length_range, set_range_map]

/-- One entry of a three-index table replaced. -/
def update3 {α : Type} (F : ℕ → ℕ → ℕ → α) (t : ℕ × ℕ × ℕ) (v : α) : ℕ → ℕ → ℕ → α :=
  fun r g b => if (r, g, b) = t then v else F r g b

theorem cubeSet_cubeOf (n0 n1 n2 : ℕ) (F : ℕ → ℕ → ℕ → List (Flt K)) (t : ℕ × ℕ × ℕ)
    (v : List (Flt K)) :
    cubeSet (Spec.cubeOf n0 n1 n2 F) t.1 t.2.1 t.2.2 v
      = if t.1 < n0 ∧ t.2.1 < n1 ∧ t.2.2 < n2 then .ok (Spec.cubeOf n0 n1 n2 (update3 F t v))
        else .error .indexError := by
  obtain ⟨r, g, b⟩ := t
  unfold cubeSet Spec.cubeOf
  rw [pyGet_range_map]
  by_cases h0 : r < n0
  · simp only [if_pos h0, py_ok_bind, pyGet_range_map]
    by_cases h1 : g < n1
    · simp only [if_pos h1, py_ok_bind, pySet_range_map]
      by_cases h2 : b < n2
      · simp only [if_pos h2, if_pos h1, if_pos h0, py_ok_bind, h0, h1, h2, and_self, if_true]
        congr 1
        apply List.map_congr_left
        intro r' _
        by_cases hr : r' = r
        · subst hr
          rw [Function.update_self]
          apply List.map_congr_left
          intro g' _
          by_cases hg : g' = g
          · subst hg
            rw [Function.update_self]
            apply List.map_congr_left
            intro b' _
            simp [update3, Function.update_apply]
          · rw [Function.update_of_ne hg]
            apply List.map_congr_left
            intro b' _
            simp [update3, hg]
        · rw [Function.update_of_ne hr]
          apply List.map_congr_left
          intro g' _
          apply List.map_congr_left
          intro b' _
          simp [update3, hr]
      · simp [h2]
    · simp [h1]
  · simp [h0]

theorem foldlM_flatMap {α β γ : Type} (l : List α) (h : α → List β) (f : γ → β → Py γ) (s : γ) :
    (l.flatMap h).foldlM f s = l.foldlM (fun s a => (h a).foldlM f s) s := by
  induction l generalizing s with
  | nil => rfl
  | cons a l ih =>
    rw [List.flatMap_cons, List.foldlM_append, List.foldlM_cons]
    congr 1
    funext s'
    exact ih s'

theorem foldlM_map' {α β γ : Type} (l : List α) (h : α → β) (f : γ → β → Py γ) (s : γ) :
    (l.map h).foldlM f s = l.foldlM (fun s a => f s (h a)) s := by
  induction l generalizing s with
  | nil => rfl
  | cons a l ih =>
    rw [List.map_cons, List.foldlM_cons, List.foldlM_cons]
    congr 1
    funext s'
    exact ih s'

/-- The index triples in loop order. -/
def triples (res : ℕ × ℕ × ℕ) : List (ℕ × ℕ × ℕ) :=
  (List.range res.1).flatMap fun r => (List.range res.2.1).flatMap fun g =>
    (List.range res.2.2).map fun b => (r, g, b)

theorem mem_triples (res t : ℕ × ℕ × ℕ) :
    t ∈ triples res ↔ t.1 < res.1 ∧ t.2.1 < res.2.1 ∧ t.2.2 < res.2.2 := by
  obtain ⟨r, g, b⟩ := t
  simp [triples]

theorem cubeLoop_eq (res : ℕ × ℕ × ℕ) (lo hi : Flt K) (f : List (Flt K) → Py (List (Flt K))) :
    cubeLoop res lo hi f = (triples res).foldlM (fun s t => do
        let x ← samplePoint res.1 lo hi t.1
        let y ← samplePoint res.2.1 lo hi t.2.1
        let z ← samplePoint res.2.2 lo hi t.2.2
        let v ← f [x, y, z]
        cubeSet s t.1 t.2.1 t.2.2 v)
      (Spec.cubeOf res.2.2 res.2.1 res.1 fun _ _ _ => [.fin 0, .fin 0, .fin 0]) := by
  unfold triples cubeLoop
  rw [foldlM_flatMap]
  simp only [foldlM_flatMap, foldlM_map']
  congr 1
  unfold Spec.cubeOf
  simp

/-- A loop that fills the entries of a cube in any order. -/
theorem fill_foldlM {α : Type} (n0 n1 n2 : ℕ) (V : ℕ × ℕ × ℕ → α)
    (step : List (List (List α)) → ℕ × ℕ × ℕ → Py (List (List (List α)))) (l : List (ℕ × ℕ × ℕ))
    (hstep : ∀ t ∈ l, ∀ F, step (Spec.cubeOf n0 n1 n2 F) t =
      if t.1 < n0 ∧ t.2.1 < n1 ∧ t.2.2 < n2 then .ok (Spec.cubeOf n0 n1 n2 (update3 F t (V t)))
      else .error .indexError) (F : ℕ → ℕ → ℕ → α) :
    ((∀ t ∈ l, t.1 < n0 ∧ t.2.1 < n1 ∧ t.2.2 < n2) →
      l.foldlM step (Spec.cubeOf n0 n1 n2 F)
        = .ok (Spec.cubeOf n0 n1 n2 fun r g b => if (r, g, b) ∈ l then V (r, g, b) else F r g b)) ∧
    ((∃ t ∈ l, ¬ (t.1 < n0 ∧ t.2.1 < n1 ∧ t.2.2 < n2)) →
      l.foldlM step (Spec.cubeOf n0 n1 n2 F) = .error .indexError) := by
  induction l generalizing F with
  | nil => simp
  | cons t l ih =>
    have ih' := ih (fun t' ht' => hstep t' (by simp [ht']))
    rw [List.foldlM_cons, hstep t (by simp)]
    constructor
    · intro h
      rw [if_pos (h t (by simp)), py_ok_bind, (ih' _).1 fun t' ht' => h t' (by simp [ht'])]
      congr 2
      funext r g b
      by_cases h1 : (r, g, b) ∈ l
      · simp [h1]
      · by_cases h2 : (r, g, b) = t
        · simp [h1, h2, update3]
        · simp [h1, h2, update3]
    · rintro ⟨t', ht', hb⟩
      by_cases h : t.1 < n0 ∧ t.2.1 < n1 ∧ t.2.2 < n2
      · rw [if_pos h, py_ok_bind]
        refine (ih' _).2 ⟨t', ?_, hb⟩
        rcases List.mem_cons.mp ht' with rfl | h'
        · exact absurd h hb
        · exact h'
      · rw [if_neg h]; rfl

theorem cubeOf_congr {α : Type} {n0 n1 n2 : ℕ} {F G : ℕ → ℕ → ℕ → α}
    (h : ∀ r < n0, ∀ g < n1, ∀ b < n2, F r g b = G r g b) :
    Spec.cubeOf n0 n1 n2 F = Spec.cubeOf n0 n1 n2 G := by
  unfold Spec.cubeOf
  apply List.map_congr_left
  intro r hr
  apply List.map_congr_left
  intro g hg
  apply List.map_congr_left
  intro b hb
  exact h r (by simpa using hr) g (by simpa using hg) b (by simpa using hb)

/-- The three-dimensional loop, if every evaluation succeeds. -/
theorem cubeLoop_fin (m0 m1 m2 : ℕ) (a b : K) (f : List (Flt K) → Py (List (Flt K)))
    (V : ℕ → ℕ → ℕ → List (Flt K))
    (hV : ∀ r < m0 + 2, ∀ g < m1 + 2, ∀ bl < m2 + 2,
      f [.fin (Spec.grid (m0 + 1) a b r), .fin (Spec.grid (m1 + 1) a b g),
        .fin (Spec.grid (m2 + 1) a b bl)] = .ok (V r g bl)) :
    cubeLoop (m0 + 2, m1 + 2, m2 + 2) (.fin a) (.fin b) f
      = if m0 = m2 then .ok (Spec.cubeOf (m0 + 2) (m1 + 2) (m2 + 2) V) else .error .indexError := by
  rw [cubeLoop_eq]
  have hfill := fill_foldlM (m2 + 2) (m1 + 2) (m0 + 2) (fun t => V t.1 t.2.1 t.2.2) (fun s t => do
        let x ← samplePoint (m0 + 2) (.fin a) (.fin b) t.1
        let y ← samplePoint (m1 + 2) (.fin a) (.fin b) t.2.1
        let z ← samplePoint (m2 + 2) (.fin a) (.fin b) t.2.2
        let v ← f [x, y, z]
        cubeSet s t.1 t.2.1 t.2.2 v) (triples (m0 + 2, m1 + 2, m2 + 2)) (by
      intro t ht F
      obtain ⟨h0, h1, h2⟩ := (mem_triples _ _).mp ht
      simp only [samplePoint_fin, py_ok_bind, hV _ h0 _ h1 _ h2]
      exact cubeSet_cubeOf _ _ _ F t _) (fun _ _ _ => [.fin 0, .fin 0, .fin 0])
  split_ifs with h
  · subst h
    refine (hfill.1 fun t ht => (mem_triples _ _).mp ht).trans ?_
    congr 1
    refine cubeOf_congr fun r hr g hg bl hb => ?_
    rw [if_pos ((mem_triples _ _).mpr ⟨hr, hg, hb⟩)]
  · refine hfill.2 ?_
    rcases Nat.lt_or_gt_of_ne h with h | h
    · exact ⟨(0, 0, m2 + 1), (mem_triples _ _).mpr ⟨by simp, by simp, by simp⟩, by
        simp only; omega⟩
    · exact ⟨(m0 + 1, 0, 0), (mem_triples _ _).mpr ⟨by simp, by simp, by simp⟩, by
        simp only; omega⟩

/-! ### Lists of leaves -/

/-- Without a stride, a list of plain nodes takes the array as one pixel. -/
theorem processList_zero (A : Arith K) (compat : ℕ) (ns : List (Node K))
    (hn : ∀ n ∈ ns, n.attr "bypass" = none ∧ ∃ k b, n = .leaf k b) (v : List (Flt K)) :
    processList A compat ns v 0 = processList A compat ns v v.length := by
  rw [processList_eq, processList_eq, runOut_plain _ _ _ _ _ (fun n h => (hn n h).1),
    runOut_plain _ _ _ _ _ (fun n h => (hn n h).1)]
  have hl : (v.map A.f32).length = v.length := by simp
  rw [← hl]
  generalize v.map A.f32 = w
  have key : ∀ (ns : List (Node K)), (∀ n ∈ ns, n.attr "bypass" = none ∧ ∃ k b, n = .leaf k b) →
      ∀ w' : List (Flt K), w'.length = w.length →
      ns.foldlM (fun v n => n.outOf A compat 0 v) w'
        = ns.foldlM (fun v n => n.outOf A compat w.length v) w' := by
    intro ns
    induction ns with
    | nil => intros; rfl
    | cons n ns ih =>
      intro hn w' hw'
      obtain ⟨_, k, b, rfl⟩ := hn n (by simp)
      rw [List.foldlM_cons, List.foldlM_cons, outOf_leaf, outOf_leaf, leaf_zero, hw']
      cases h : leafProcess A compat k b w' w.length with
      | error e => rfl
      | ok r =>
        simp only [py_ok_bind]
        refine ih (fun m hm => hn m (by simp [hm])) _ ?_
        have := leaf_length A compat w.length k b w' r.out (by simp only [h]; rfl)
        rw [this, hw']
  exact key ns hn w rfl

end CLF
