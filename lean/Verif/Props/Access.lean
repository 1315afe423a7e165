import Verif.Spec.Access
import Verif.Lemmas.Dict
import Mathlib.Data.List.Induction

/-! # Property C68: accessors -/

namespace CLF

open Access

theorem run_append (s : State) (cs ds : List Call) : run s (cs ++ ds) = run (run s cs) ds := by
  simp [run, List.foldl_append]

theorem step_processes (s : State) (c : Call) : (step s c).processes = s.processes ++ Spec.added [c] := by
  cases c with
  | addProcess n => rfl
  | setInBitDepth d =>
    simp only [step, Spec.added, List.filterMap_cons, List.filterMap_nil, List.append_nil]
    split_ifs
    · split <;> rfl
    · rfl
  | setOutBitDepth d =>
    simp only [step, Spec.added, List.filterMap_cons, List.filterMap_nil, List.append_nil]
    split_ifs
    · split <;> rfl
    · rfl
  | setAttribute key v => simp [step, Spec.added]
  | nodeSetAttribute n key v => simp [step, setNode, Spec.added]

theorem added_append (cs ds : List Call) : Spec.added (cs ++ ds) = Spec.added cs ++ Spec.added ds := by
  simp [Spec.added]

/-- C68: the list holds the nodes added, in order. -/
theorem C68_order (nodes : ℕ → Dict AVal) (cs : List Call) :
    (run (new nodes) cs).processes = Spec.added cs := by
  induction cs using List.reverseRecOn with
  | nil => rfl
  | append_singleton cs c ih =>
    rw [run_append, added_append, ← ih]
    exact step_processes _ c

/-- C68: `getProcess` finds the first node with the name. -/
theorem C68_getProcess (nodes : ℕ → Dict AVal) (cs : List Call) (name : Option AVal) (n : ℕ) :
    getProcess (run (new nodes) cs) name = some n ↔
      ∃ before after, Spec.added cs = before ++ n :: after ∧
        nodeGet (run (new nodes) cs) n "name" = name ∧
        ∀ m ∈ before, nodeGet (run (new nodes) cs) m "name" ≠ name := by
  rw [← C68_order nodes cs]
  generalize run (new nodes) cs = s
  unfold getProcess
  induction s.processes with
  | nil => simp [getProcess.go]
  | cons m ms ih =>
    unfold getProcess.go
    by_cases h : nodeGet s m "name" = name
    · rw [if_pos h]
      constructor
      · rintro ⟨⟩
        exact ⟨[], ms, rfl, h, by simp⟩
      · rintro ⟨before, after, h1, h2, h3⟩
        cases before with
        | nil => injection h1 with h1 _; rw [h1]
        | cons b before =>
          injection h1 with h1 _
          exact absurd h (h1 ▸ h3 b (by simp))
    · rw [if_neg h, ih]
      constructor
      · rintro ⟨before, after, h1, h2, h3⟩
        refine ⟨m :: before, after, by rw [h1]; rfl, h2, ?_⟩
        intro k hk
        rcases List.mem_cons.mp hk with rfl | hk
        · exact h
        · exact h3 k hk
      · rintro ⟨before, after, h1, h2, h3⟩
        cases before with
        | nil => injection h1 with h1 _; rw [← h1] at h2; exact absurd h2 h
        | cons b before =>
          injection h1 with _ h1
          exact ⟨before, after, h1, h2, fun k hk => h3 k (by simp [hk])⟩

/-- C68: `getProcess` finds nothing when no node has the name. -/
theorem C68_getProcess_none (nodes : ℕ → Dict AVal) (cs : List Call) (name : Option AVal) :
    getProcess (run (new nodes) cs) name = none ↔
      ∀ m ∈ Spec.added cs, nodeGet (run (new nodes) cs) m "name" ≠ name := by
  rw [← C68_order nodes cs]
  generalize run (new nodes) cs = s
  unfold getProcess
  induction s.processes with
  | nil => simp [getProcess.go]
  | cons m ms ih =>
    unfold getProcess.go
    by_cases h : nodeGet s m "name" = name
    · simp [h]
    · rw [if_neg h, ih]; simp [h]

theorem nodeGet_setNode (s : State) (n m : ℕ) (k k' : String) (v : AVal) :
    nodeGet (setNode s n k v) m k' = if m = n ∧ k = k' then some v else nodeGet s m k' := by
  unfold nodeGet setNode
  by_cases h : m = n
  · subst h
    simp only [if_true, true_and, Dict.get?_set]
  · simp [h]

/-- What one call does to the attributes of nodes. -/
theorem step_nodeGet (nodes : ℕ → Dict AVal) (cs : List Call) (c : Call) (n : ℕ) (key : String) :
    (∃ v, Spec.Writes cs n key c v ∧ nodeGet (step (run (new nodes) cs) c) n key = some v) ∨
    ((∀ v, ¬ Spec.Writes cs n key c v) ∧
      nodeGet (step (run (new nodes) cs) c) n key = nodeGet (run (new nodes) cs) n key) := by
  have ho := C68_order nodes cs
  generalize run (new nodes) cs = s at ho
  cases c with
  | addProcess m => exact .inr ⟨by rintro v ⟨⟩, rfl⟩
  | setAttribute k v => exact .inr ⟨by rintro v ⟨⟩, rfl⟩
  | nodeSetAttribute m k v =>
    simp only [step, nodeGet_setNode]
    by_cases h : n = m ∧ k = key
    · obtain ⟨rfl, rfl⟩ := h
      exact .inl ⟨v, .node, by simp⟩
    · refine .inr ⟨?_, if_neg h⟩
      intro w hw
      cases hw
      exact h ⟨rfl, rfl⟩
  | setInBitDepth d =>
    cases hp : s.processes with
    | nil =>
      refine .inr ⟨?_, by simp [step, hp]⟩
      intro w hw
      cases hw with
      | first h => obtain ⟨r, h⟩ := h; rw [← ho, hp] at h; cases h
    | cons m ms =>
      simp only [step, hp, List.length_cons, Nat.zero_lt_succ, if_true, List.getElem?_cons_zero,
        nodeGet_setNode]
      by_cases h : n = m ∧ "inBitDepth" = key
      · obtain ⟨rfl, rfl⟩ := h
        exact .inl ⟨d, .first ⟨ms, by rw [← ho, hp]⟩, by simp⟩
      · refine .inr ⟨?_, if_neg h⟩
        intro w hw
        cases hw with
        | first h' =>
          obtain ⟨r, h'⟩ := h'
          rw [← ho, hp] at h'
          injection h' with h' _
          exact h ⟨h'.symm, rfl⟩
  | setOutBitDepth d =>
    rcases List.eq_nil_or_concat s.processes with hp | ⟨ms, m, hp⟩
    · refine .inr ⟨?_, by simp [step, hp]⟩
      intro w hw
      cases hw with
      | last h => obtain ⟨r, h⟩ := h; rw [← ho, hp] at h; simp at h
    · rw [List.concat_eq_append] at hp
      have : s.processes[s.processes.length - 1]? = some m := by simp [hp]
      have hl : 0 < s.processes.length := by simp [hp]
      simp only [step, if_pos hl, this, nodeGet_setNode]
      by_cases h : n = m ∧ "outBitDepth" = key
      · obtain ⟨rfl, rfl⟩ := h
        exact .inl ⟨d, .last ⟨ms, by rw [← ho, hp]⟩, by simp⟩
      · refine .inr ⟨?_, if_neg h⟩
        intro w hw
        cases hw with
        | last h' =>
          obtain ⟨r, h'⟩ := h'
          rw [← ho, hp] at h'
          exact h ⟨(List.append_inj' h' rfl).2 |> fun e => by injection e with e _; exact e.symm, rfl⟩

theorem split_concat {α : Type} {cs before after : List α} {c d : α}
    (h : cs ++ [c] = before ++ d :: after) :
    (after = [] ∧ before = cs ∧ d = c) ∨ ∃ a, after = a ++ [c] ∧ cs = before ++ d :: a := by
  rcases List.eq_nil_or_concat after with rfl | ⟨a, e, rfl⟩
  · have := List.append_inj' h rfl
    exact .inl ⟨rfl, this.1.symm, by injection this.2 with h _; exact h.symm⟩
  · rw [List.concat_eq_append] at h ⊢
    have h' : cs ++ [c] = (before ++ d :: a) ++ [e] := by rw [h]; simp
    have := List.append_inj' h' rfl
    exact .inr ⟨a, by injection this.2 with h _; rw [h], this.1⟩

/-- C68: the attributes of a node are what the last call that concerns them made them. -/
theorem C68_attributes (nodes : ℕ → Dict AVal) (cs : List Call) (n : ℕ) (key : String) :
    Spec.LastWritten nodes cs n key (nodeGet (run (new nodes) cs) n key) := by
  induction cs using List.reverseRecOn with
  | nil =>
    refine .inr ⟨?_, rfl⟩
    intro before c after v h
    simp at h
  | append_singleton cs c ih =>
    rw [run_append]
    rcases step_nodeGet nodes cs c n key with ⟨v, h1, h2⟩ | ⟨h1, h2⟩
    · refine .inl ⟨cs, c, [], v, rfl, h1, h2, ?_⟩
      intro b2 c2 a2 v2 h
      simp at h
    · rw [show run (run (new nodes) cs) [c] = step (run (new nodes) cs) c from rfl, h2]
      rcases ih with ⟨before, d, after, v, g1, g2, g3, g4⟩ | ⟨g1, g2⟩
      · refine .inl ⟨before, d, after ++ [c], v, by rw [g1]; simp, g2, g3, ?_⟩
        intro b2 c2 a2 v2 h
        rcases split_concat h with ⟨rfl, rfl, rfl⟩ | ⟨a, rfl, ha⟩
        · rw [← g1]; exact h1 v2
        · exact g4 b2 c2 a v2 ha
      · refine .inr ⟨?_, g2⟩
        intro before d after v h
        rcases split_concat h with ⟨rfl, rfl, rfl⟩ | ⟨a, rfl, ha⟩
        · exact h1 v
        · exact g1 before d a v ha

/-- C68: the list's depths are those of the first and the last node added; an empty list
has none. -/
theorem C68_depths (nodes : ℕ → Dict AVal) (cs : List Call) :
    (Spec.added cs = [] → getInBitDepth (run (new nodes) cs) = none ∧
      getOutBitDepth (run (new nodes) cs) = none) ∧
    (∀ n rest, Spec.added cs = n :: rest →
      Spec.LastWritten nodes cs n "inBitDepth" (getInBitDepth (run (new nodes) cs))) ∧
    (∀ n front, Spec.added cs = front ++ [n] →
      Spec.LastWritten nodes cs n "outBitDepth" (getOutBitDepth (run (new nodes) cs))) := by
  have ho := C68_order nodes cs
  refine ⟨?_, ?_, ?_⟩
  · intro h
    rw [h] at ho
    simp [getInBitDepth, getOutBitDepth, ho]
  · intro n rest h
    rw [h] at ho
    have : getInBitDepth (run (new nodes) cs) = nodeGet (run (new nodes) cs) n "inBitDepth" := by
      simp [getInBitDepth, ho]
    rw [this]
    exact C68_attributes nodes cs n _
  · intro n front h
    rw [h] at ho
    have : getOutBitDepth (run (new nodes) cs) = nodeGet (run (new nodes) cs) n "outBitDepth" := by
      simp [getOutBitDepth, ho]
    rw [this]
    exact C68_attributes nodes cs n _

/-- C68: the attributes of the list are the last ones set. -/
theorem C68_list_attributes (nodes : ℕ → Dict AVal) (cs : List Call) (key : String) (v : AVal) :
    getAttribute (run (new nodes) cs) key = some v ↔
      ∃ before after, cs = before ++ .setAttribute key v :: after ∧ ∀ w, .setAttribute key w ∉ after := by
  induction cs using List.reverseRecOn with
  | nil => simp [run, new, getAttribute, Dict.get?]
  | append_singleton cs c ih =>
    rw [run_append, show run (run (new nodes) cs) [c] = step (run (new nodes) cs) c from rfl]
    have other : (∀ w, c ≠ .setAttribute key w) →
        getAttribute (step (run (new nodes) cs) c) key = getAttribute (run (new nodes) cs) key →
        (getAttribute (step (run (new nodes) cs) c) key = some v ↔ ∃ before after,
          cs ++ [c] = before ++ .setAttribute key v :: after ∧ ∀ w, .setAttribute key w ∉ after) := by
      intro h1 h2
      rw [h2, ih]
      constructor
      · rintro ⟨before, after, h3, h4⟩
        refine ⟨before, after ++ [c], by rw [h3]; simp, ?_⟩
        intro w hw
        rcases List.mem_append.mp hw with hw | hw
        · exact h4 w hw
        · exact h1 w (List.mem_singleton.mp hw).symm
      · rintro ⟨before, after, h3, h4⟩
        rcases split_concat h3 with ⟨rfl, rfl, h⟩ | ⟨a, rfl, ha⟩
        · exact absurd h.symm (h1 v)
        · exact ⟨before, a, ha, fun w hw => h4 w (List.mem_append_left _ hw)⟩
    cases c with
    | addProcess m => exact other (by simp) rfl
    | nodeSetAttribute m k w => exact other (by simp) rfl
    | setInBitDepth d =>
      refine other (by simp) ?_
      simp only [step]
      split_ifs
      · split <;> rfl
      · rfl
    | setOutBitDepth d =>
      refine other (by simp) ?_
      simp only [step]
      split_ifs
      · split <;> rfl
      · rfl
    | setAttribute k w =>
      by_cases hk : k = key
      · subst hk
        simp only [step, getAttribute, Dict.get?_set, if_true, Option.some.injEq]
        constructor
        · rintro rfl
          exact ⟨cs, [], rfl, by simp⟩
        · rintro ⟨before, after, h3, h4⟩
          rcases split_concat h3 with ⟨_, _, h⟩ | ⟨a, rfl, _⟩
          · injection h with _ h; exact h.symm
          · exact absurd (List.mem_append_right _ (List.mem_singleton.mpr rfl)) (h4 w)
      · exact other (by simp [hk]) (by simp [step, getAttribute, Dict.get?_set, hk])

/-- A history. -/
def history : List Call :=
  [.setInBitDepth (.str "10i"), .addProcess 4, .addProcess 7, .addProcess 4,
    .nodeSetAttribute 7 "name" (.str "b"), .setOutBitDepth (.str "16f"), .setInBitDepth (.str "12i"),
    .setAttribute "id" (.str "x"), .setAttribute "id" (.str "y")]

/-- The node added first is also the one added last, and its depths are set through the
list. -/
example : ∃ s, run (new fun _ => [("inBitDepth", .str "8i"), ("name", .str "a")]) history = s ∧
    s.processes = [4, 7, 4] ∧ getInBitDepth s = some (.str "12i") ∧ getOutBitDepth s = some (.str "16f") ∧
    getProcess s (some (.str "b")) = some 7 ∧ getProcess s (some (.str "c")) = none ∧
    getAttribute s "id" = some (.str "y") :=
  ⟨_, rfl, by decide, by decide, by decide, by decide, by decide, by decide⟩

end CLF
