import Verif.Model.Heap
import Verif.Lemmas.Nodes

/-! The heap semantics agrees with the value semantics and keeps other arrays. -/

set_option linter.unusedSectionVars false

namespace CLF

variable {K : Type} [Field K] [LinearOrder K] [IsStrictOrderedRing K] [FloorRing K]

theorem load_set_self {h : Heap K} {a : ℕ} (ha : a < h.length) (v : List (Flt K)) :
    Heap.load (List.set h a v) a = v := by simp [Heap.load, ha]

theorem load_set_ne {h : Heap K} {a i : ℕ} (hi : i ≠ a) (v : List (Flt K)) :
    Heap.load (List.set h a v) i = Heap.load h i := by
  simp [Heap.load, List.getElem?_set_ne (Ne.symm hi)]

theorem load_append_lt {h : Heap K} {i : ℕ} (hi : i < h.length) (v : List (Flt K)) :
    (h ++ [v] : Heap K).load i = Heap.load h i := by
  simp [Heap.load, List.getElem?_append_left hi]

theorem load_append_self (h : Heap K) (v : List (Flt K)) :
    (h ++ [v] : Heap K).load h.length = v := by simp [Heap.load]

/-- Relation between a heap run from `(h, a)` to `(h', a')` and the value-level result:
the heap only grows, arrays other than `a` are kept, and the three components of the
result are the contents of the two arrays and whether they are the same array. -/
structure Sim (h : Heap K) (a : ℕ) (p : Heap K × ℕ) (r : Res K) : Prop where
  grows : h.length ≤ p.1.length
  fresh : p.2 < p.1.length
  keeps : ∀ i < h.length, i ≠ a → p.1.load i = Heap.load h i
  out : p.1.load p.2 = r.out
  arg : p.1.load a = r.arg
  eqv : r.same = true → p.2 = a
  new : r.same = false → h.length ≤ p.2

/-- Both fail alike or both succeed with related results. -/
def SimP (h : Heap K) (a : ℕ) : Py (Heap K × ℕ) → Py (Res K) → Prop
  | .ok p, .ok r => Sim h a p r
  | .error e, .error e' => e = e'
  | _, _ => False

theorem pixelLoop_same {s : ℕ} {v : List (Flt K)} {r : Res K}
    {body : List (Flt K) → List (Flt K) → Py (List (Flt K) × List (Flt K))}
    (h : pixelLoop s v body = .ok r) : r.same = false := by
  rw [pixelLoop_def] at h
  obtain ⟨n, _, h⟩ := py_bind_eq_ok.mp h
  obtain ⟨st, _, h⟩ := py_bind_eq_ok.mp h
  cases h; rfl

theorem leaf_same (A : Arith K) (compat : ℕ) (k : Kind K) (b : Base K) (s : ℕ)
    (v : List (Flt K)) (r : Res K) (h : leafProcess A compat k b v s = .ok r)
    (hs : r.same = true) : r.out = r.arg := by
  have no : ∀ {body}, pixelLoop s v body = .ok r → r.out = r.arg := fun hp => by
    rw [pixelLoop_same hp] at hs; cases hs
  cases k with
  | plain => cases h
  | range =>
    obtain ⟨d1, _, h⟩ := py_bind_eq_ok.mp h
    obtain ⟨d2, _, h⟩ := py_bind_eq_ok.mp h
    obtain ⟨o, _, h⟩ := py_bind_eq_ok.mp h
    cases h; rfl
  | cdl cc v' =>
    simp only [leafProcess, cdlProcess] at h
    by_cases hc : (if s = 0 then v.length else s) < 3
    · rw [if_pos hc] at h; cases h; rfl
    rw [if_neg hc] at h
    obtain ⟨d1, _, h⟩ := py_bind_eq_ok.mp h
    obtain ⟨d2, _, h⟩ := py_bind_eq_ok.mp h
    split at h
    · cases h
    · rw [pixelLoop_same h] at hs
      cases hs
  | exposureContrast e c p =>
    obtain ⟨d1, _, h⟩ := py_bind_eq_ok.mp h
    obtain ⟨d2, _, h⟩ := py_bind_eq_ok.mp h
    exact no h
  | _ =>
    obtain ⟨d1, _, h⟩ := py_bind_eq_ok.mp h
    obtain ⟨d2, _, h⟩ := py_bind_eq_ok.mp h
    obtain ⟨a, _, h⟩ := py_bind_eq_ok.mp h
    exact no h

theorem leafH_sim (A : Arith K) (compat : ℕ) (k : Kind K) (b : Base K) (stride : ℕ)
    (h : Heap K) (a : ℕ) (ha : a < h.length) :
    SimP h a (leafProcessH A compat k b stride h a) (leafProcess A compat k b (Heap.load h a) stride) := by
  unfold leafProcessH
  rcases hr : leafProcess A compat k b (Heap.load h a) stride with e | r
  · exact rfl
  · have hp := leaf_props A compat k b stride (Heap.load h a) r hr
    simp only [py_ok_bind, py_pure]
    rcases hs : r.same with _ | _
    · simp only [Bool.false_eq_true, if_false]
      refine ⟨?_, ?_, ?_, ?_, ?_, ?_, ?_⟩
      · simp [Heap.alloc]
      · simp [Heap.alloc]
      · intro i hi hne
        simp only [Heap.alloc]
        rw [load_append_lt (by simpa using hi), load_set_ne hne]
      · exact load_append_self _ _
      · simp only [Heap.alloc]
        rw [load_append_lt (by simpa using ha), load_set_self ha]
      · simp [hs]
      · simp [Heap.alloc]
    · simp only [if_true]
      refine ⟨by simp, by simpa using ha, fun i _ hne => load_set_ne (K := K) hne _, ?_, load_set_self ha _,
        fun _ => rfl, by simp [hs]⟩
      rw [load_set_self ha]
      exact (leaf_same A compat k b stride (Heap.load h a) r hr hs).symm

theorem adapterH_sim (A : Arith K) (d1 d2 : Depth) (h : Heap K) (a : ℕ) (ha : a < h.length) :
    SimP h a (adapterH A d1 d2 h a) (rangeProcess A (adapterBase d1 d2) (Heap.load h a)) := by
  unfold adapterH
  rcases hr : rangeProcess A (adapterBase d1 d2) (Heap.load h a) with e | r
  · exact rfl
  · have hs : r.out = r.arg ∧ r.same = true := by
      obtain ⟨d1, _, h⟩ := py_bind_eq_ok.mp hr
      obtain ⟨d2, _, h⟩ := py_bind_eq_ok.mp h
      obtain ⟨o, _, h⟩ := py_bind_eq_ok.mp h
      cases h; exact ⟨rfl, rfl⟩
    exact ⟨by simp, by simpa using ha, fun i _ hne => load_set_ne (K := K) hne _,
      by simp only; rw [load_set_self ha, hs.1], load_set_self ha _, fun _ => rfl,
      by simp [hs.2]⟩

/-- One more step after a related prefix. -/
theorem Sim.step {h0 : Heap K} {a0 : ℕ} (ha0 : a0 < h0.length) {h : Heap K} {a : ℕ} {s : Res K}
    (hs : Sim h0 a0 (h, a) s) {p : Heap K × ℕ} {r : Res K} (hr : Sim h a p r) :
    Sim h0 a0 p (s.step r) := by
  obtain ⟨g1, f1, k1, o1, a1, e1, n1⟩ := hs
  obtain ⟨g2, f2, k2, o2, a2, e2, n2⟩ := hr
  simp only at g1 f1 k1 o1 a1 e1 n1
  refine ⟨g1.trans g2, f2, ?_, o2, ?_, ?_, ?_⟩
  · intro i hi hne
    rw [k2 i (by omega) ?_, k1 i hi hne]
    rcases hsame : s.same with _ | _
    · have := n1 hsame; omega
    · rw [e1 hsame]; exact hne
  · rcases hsame : s.same with _ | _
    · simp only [Res.step, hsame, Bool.false_eq_true, if_false]
      have := n1 hsame
      rw [k2 a0 (by omega) (by omega), a1]
    · simp only [Res.step, hsame, if_true]
      rw [← a2, e1 hsame]
  · intro hh
    simp only [Res.step, Bool.and_eq_true] at hh
    rw [e2 hh.2, e1 hh.1]
  · intro hh
    simp only [Res.step, Bool.and_eq_false_iff] at hh
    rcases hr : r.same with _ | _
    · have := n2 hr; omega
    · rw [e2 hr]
      rcases hh with hh | hh
      · exact n1 hh
      · rw [hr] at hh; cases hh

theorem runNodesH_cons (A : Arith K) (compat stride : ℕ) (g : Bool) (prev : Option Depth)
    (n : Node K) (rest : List (Node K)) (h : Heap K) (a : ℕ) :
    runNodesH A compat stride g prev (n :: rest) h a = (do
      let s ←
        if (n.attr "bypass").isNone || (!g && !hasFeature compat autodesk) then
          n.processH A compat stride h a
        else
          match prev, rest with
          | some inD, next :: _ =>
            if inD ≠ next.inDepth then adapterH A inD next.inDepth h a else .ok (h, a)
          | _, _ => .ok (h, a)
      runNodesH A compat stride g (some n.outDepth) rest s.1 s.2) := by
  cases prev <;> cases rest <;> rfl

theorem runNodesH_sim (A : Arith K) (compat stride : ℕ) (g : Bool) (h0 : Heap K) (a0 : ℕ)
    (ha0 : a0 < h0.length) (ns : List (Node K))
    (ih : ∀ n ∈ ns, ∀ h a, a < h.length →
      SimP h a (n.processH A compat stride h a) (n.process A compat stride (Heap.load h a))) :
    ∀ (prev : Option Depth) (h : Heap K) (a : ℕ) (s : Res K), Sim h0 a0 (h, a) s →
      SimP h0 a0 (runNodesH A compat stride g prev ns h a) (runNodes A compat stride g prev ns s) := by
  induction ns with
  | nil =>
    intro prev h a s hs
    rw [runNodesH, runNodes]
    exact hs
  | cons n rest ihr =>
    intro prev h a s hs
    have hrest := ihr fun m hm => ih m (by simp [hm])
    rw [runNodesH_cons, runNodes_cons]
    have comb : ∀ (x : Py (Heap K × ℕ)) (y : Py (Res K)), SimP h a x y →
        SimP h0 a0 (do let p ← x; runNodesH A compat stride g (some n.outDepth) rest p.1 p.2)
          (do let r ← y
              let s' ← (pure (s.step r) : Py (Res K))
              runNodes A compat stride g (some n.outDepth) rest s') := by
      intro x y hxy
      rcases x with e | p <;> rcases y with e' | r
      · exact hxy
      · exact hxy.elim
      · exact hxy.elim
      · simp only [py_ok_bind, py_pure]
        exact hrest _ _ _ _ (hs.step ha0 hxy)
    have hl : Heap.load h a = s.out := hs.out
    by_cases hb : ((n.attr "bypass").isNone || (!g && !hasFeature compat autodesk)) = true
    · rw [if_pos hb, if_pos hb, ← hl]
      exact comb _ _ (ih n (by simp) h a hs.fresh)
    · rw [if_neg hb, if_neg hb]
      have skip : SimP h0 a0
          (do let p ← (.ok (h, a) : Py _)
              runNodesH A compat stride g (some n.outDepth) rest p.1 p.2)
          (do let s' ← (pure s : Py _); runNodes A compat stride g (some n.outDepth) rest s') :=
        hrest _ _ _ _ hs
      cases prev with
      | none => exact skip
      | some inD =>
        cases rest with
        | nil => exact skip
        | cons next rest' =>
          simp only
          by_cases hd : inD ≠ next.inDepth
          · rw [if_pos hd, if_pos hd, ← hl]
            exact comb _ _ (adapterH_sim A inD next.inDepth h a hs.fresh)
          · rw [if_neg hd, if_neg hd]
            exact skip

theorem Sim.refl {h : Heap K} {a : ℕ} (ha : a < h.length) :
    Sim h a (h, a) ⟨Heap.load h a, Heap.load h a, true⟩ :=
  ⟨le_rfl, ha, fun _ _ _ => rfl, rfl, rfl, fun _ => rfl, fun h => by cases h⟩

/-- Running on a fresh copy. -/
theorem copy_sim (A : Arith K) (h : Heap K) (a : ℕ) (ha : a < h.length)
    (x : Py (Heap K × ℕ)) (y : Py (Res K))
    (hxy : SimP (Heap.alloc h ((Heap.load h a).map A.f32)).1 h.length x y) :
    SimP h a x (do let r ← y; pure ⟨r.out, Heap.load h a, false⟩ : Py (Res K)) := by
  rcases x with e | p <;> rcases y with e' | r
  · exact hxy
  · exact hxy.elim
  · exact hxy.elim
  · obtain ⟨g, f, k, o, ar, e, n⟩ := (hxy : Sim _ _ _ _)
    simp only [Heap.alloc, List.length_append, List.length_singleton] at g n k
    refine ⟨by omega, f, ?_, o, ?_, by simp, ?_⟩
    · intro i hi hne
      rw [k i (by omega) (by omega), load_append_lt hi]
    · rw [k a (by omega) (by omega), load_append_lt ha]
    · intro _
      rcases hs : r.same with _ | _
      · have := n hs; omega
      · rw [e hs]

theorem processH_sim (A : Arith K) (compat stride : ℕ) (n : Node K) :
    ∀ h a, a < h.length →
      SimP h a (n.processH A compat stride h a) (n.process A compat stride (Heap.load h a)) := by
  induction n using Node.ind with
  | hleaf k b => intro h a ha; rw [Node.processH, Node.process]; exact leafH_sim A compat k b stride h a ha
  | hgroup b cs ih =>
    intro h a ha
    rw [Node.processH, Node.process]
    exact runNodesH_sim A compat stride true h a ha cs ih none h a _ (.refl ha)
  | href b w ns ih =>
    intro h a ha
    rw [Node.processH, Node.process]
    apply copy_sim A h a ha
    have := runNodesH_sim A compat stride false
      (Heap.alloc h ((Heap.load h a).map A.f32)).1 h.length (by simp [Heap.alloc]) ns ih none _ _ _
      (.refl (by simp [Heap.alloc]))
    rw [show Heap.load (Heap.alloc h ((Heap.load h a).map A.f32)).1 h.length
      = (Heap.load h a).map A.f32 from load_append_self _ _] at this
    exact this
  | hmiss b w => intro h a ha; rw [Node.processH, Node.process]; exact Sim.refl ha

theorem processListH_sim (A : Arith K) (compat stride : ℕ) (ns : List (Node K))
    (h : Heap K) (a : ℕ) (ha : a < h.length) :
    SimP h a (processListH A compat ns h a stride)
      (do let o ← processList A compat ns (Heap.load h a) stride
          pure ⟨o, Heap.load h a, false⟩ : Py (Res K)) := by
  have := processH_sim A compat stride (Node.ref ⟨[], [], [], []⟩ false ns) h a ha
  rw [Node.processH, Node.process] at this
  unfold processListH processList
  simp only at this ⊢
  cases hr : runNodes A compat stride false none ns
      ⟨(Heap.load h a).map A.f32, (Heap.load h a).map A.f32, true⟩ with
  | error e => rw [hr] at this; exact this
  | ok r => rw [hr] at this; exact this

end CLF
