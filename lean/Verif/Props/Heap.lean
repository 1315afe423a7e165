import Verif.Lemmas.Heap
import Verif.Props.Nodes

/-! # Property C38: the caller's array -/

set_option linter.unusedSectionVars false

namespace CLF

variable {K : Type} [Field K] [LinearOrder K] [IsStrictOrderedRing K] [FloorRing K]

/-- C38: `ProcessList.process` keeps every array that existed before the call, the
caller's among them, and returns an array that did not. -/
theorem C38_caller (A : Arith K) (compat stride : ℕ) (ns : List (Node K)) (h h' : Heap K)
    (a r : ℕ) (ha : a < h.length) (hr : processListH A compat ns h a stride = .ok (h', r)) :
    (∀ i < h.length, h'[i]? = h[i]?) ∧ h.length ≤ r ∧ r < h'.length := by
  have hs := processListH_sim A compat stride ns h a ha
  rw [hr] at hs
  cases hp : processList A compat ns (Heap.load h a) stride with
  | error e => rw [hp] at hs; exact hs.elim
  | ok o =>
    rw [hp] at hs
    obtain ⟨g, f, k, _, ar, _, n⟩ := (hs : Sim h a (h', r) ⟨o, Heap.load h a, false⟩)
    simp only at g f k ar n
    refine ⟨fun i hi => ?_, n trivial, f⟩
    have hi' : i < h'.length := by omega
    have : Heap.load h' i = Heap.load h i := by
      by_cases hne : i = a
      · rw [hne]; exact ar
      · exact k i hi hne
    rw [List.getElem?_eq_getElem hi, List.getElem?_eq_getElem hi'] 
    simpa [Heap.load, hi, hi'] using this

/-- C38: the array returned holds the result of processing the caller's values, and the
call raises exactly when processing those values does. -/
theorem C38_result (A : Arith K) (compat stride : ℕ) (ns : List (Node K)) (h : Heap K)
    (a : ℕ) (v : List (Flt K)) (ha : h[a]? = some v) :
    (do let p ← processListH A compat ns h a stride; .ok (p.1[p.2]?) : Py _)
      = (do let o ← processList A compat ns v stride; .ok (some o)) := by
  have hlt : a < h.length := (List.getElem?_eq_some_iff.mp ha).1
  have hv : Heap.load h a = v := by simp [Heap.load, ha]
  have hs := processListH_sim A compat stride ns h a hlt
  rw [hv] at hs
  cases hp : processList A compat ns v stride with
  | error e =>
    rw [hp] at hs
    cases hq : processListH A compat ns h a stride with
    | error e' => rw [hq] at hs; exact congrArg Except.error (hs : e' = e)
    | ok p => rw [hq] at hs; exact hs.elim
  | ok o =>
    rw [hp] at hs
    cases hq : processListH A compat ns h a stride with
    | error e' => rw [hq] at hs; exact hs.elim
    | ok p =>
      rw [hq] at hs
      have h1 := (hs : Sim h a p _).out
      have h2 := (hs : Sim h a p _).fresh
      simp only [py_ok_bind]
      rw [List.getElem?_eq_getElem h2]
      simp only at h1
      rw [← h1]
      simp [Heap.load, h2]

/-- C38: processing is repeatable: a second call with the same list on the same array
returns the same values. -/
theorem C38_again (A : Arith K) (compat stride : ℕ) (ns : List (Node K)) (h h' : Heap K)
    (a r : ℕ) (ha : a < h.length) (hr : processListH A compat ns h a stride = .ok (h', r)) :
    ∃ h'' r', processListH A compat ns h' a stride = .ok (h'', r') ∧ h''[r']? = h'[r]? := by
  obtain ⟨hk, hn, hf⟩ := C38_caller A compat stride ns h h' a r ha hr
  obtain ⟨v, hv⟩ : ∃ v, h[a]? = some v := ⟨_, List.getElem?_eq_getElem ha⟩
  have h1 := C38_result A compat stride ns h a v hv
  have h2 := C38_result A compat stride ns h' a v (by rw [hk a ha, hv])
  rw [hr] at h1
  rw [← h1] at h2
  simp only [py_ok_bind] at h2
  cases hq : processListH A compat ns h' a stride with
  | error e => rw [hq] at h2; cases h2
  | ok p =>
    rw [hq] at h2
    simp only [py_ok_bind] at h2
    exact ⟨p.1, p.2, rfl, Except.ok.inj h2⟩

/-- C38, last part: a Range node called on its own returns its argument array, now holding
the result; nothing else changes. -/
theorem C38_node (A : Arith K) (compat stride : ℕ) (b : Base K) (h h' : Heap K) (a r : ℕ)
    (ha : a < h.length)
    (hr : (Node.leaf .range b).processH A compat stride h a = .ok (h', r)) :
    r = a ∧ (∀ i < h.length, i ≠ a → Heap.load h' i = Heap.load h i) ∧
      (Node.leaf .range b).outOf A compat stride (Heap.load h a) = .ok (Heap.load h' a) := by
  have hs := processH_sim A compat stride (.leaf .range b) h a ha
  rw [hr] at hs
  cases hp : (Node.leaf .range b).process A compat stride (Heap.load h a) with
  | error e => rw [hp] at hs; exact hs.elim
  | ok o =>
    rw [hp] at hs
    have hs : Sim h a (h', r) o := hs
    have hsame : o.same = true := by
      rw [Node.process] at hp
      obtain ⟨d1, _, hp⟩ := py_bind_eq_ok.mp hp
      obtain ⟨d2, _, hp⟩ := py_bind_eq_ok.mp hp
      obtain ⟨w, _, hp⟩ := py_bind_eq_ok.mp hp
      cases hp; rfl
    have he : r = a := hs.eqv hsame
    refine ⟨he, hs.keeps, ?_⟩
    have ho := hs.out
    simp only [he] at ho
    rw [Node.outOf, hp, ho]; rfl

/-- A list with an in-place Range, a group and a reference, run on the second of two
arrays: the caller's arrays stay, the result is a new array. -/
example :
    let ns : List (Node ℚ) := [adder, .group { attrs := [] } [adder], .ref { attrs := [] } false [doubler]]
    (match processListH ratArith 0 ns [[.fin 5], [.fin 1, .fin 2, .fin 3]] 1 3 with
      | .ok (h', r) => decide (h'[0]? = some [.fin 5] ∧ h'[1]? = some [.fin 1, .fin 2, .fin 3] ∧
          2 ≤ r ∧ h'[r]? = some [.fin 6, .fin 8, .fin 10])
      | .error _ => false) = true := by
  decide +kernel

/-- On its own the same Range overwrites the caller's array. -/
example :
    (match adder.processH ratArith 0 3 ([[.fin 1]] : Heap ℚ) 0 with
      | .ok (h', r) => decide (r = 0 ∧ h' = [[.fin 2]])
      | .error _ => false) = true := by
  decide +kernel

end CLF
