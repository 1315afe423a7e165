import Verif.Model.Verbose
import Verif.Model.Image
import Verif.Lemmas.Nodes
import Verif.Props.Nodes

/-! # Processing with `verbose=True`

C162: asking for messages does not change the result, and the messages are true. -/

set_option linter.unusedSectionVars false

namespace CLF

variable {K : Type} [Field K] [LinearOrder K] [IsStrictOrderedRing K] [FloorRing K]

mutual

theorem processV_fst (A : Arith K) (compat stride : ℕ) : ∀ (n : Node K) (v : List (Flt K)),
    (do let r ← n.processV A compat stride v; .ok r.1 : Py _) = n.process A compat stride v
  | .leaf k b, v => by
    rw [Node.processV, Node.process]
    cases leafProcess A compat k b v stride <;> rfl
  | .group b cs, v => by
    rw [Node.processV, Node.process]
    exact runNodesV_fst A compat stride true cs none _
  | .ref b w ns, v => by
    rw [Node.processV, Node.process, ← runNodesV_fst A compat stride false ns none]
    simp only
    cases runNodesV A compat stride false none ns ⟨v.map A.f32, v.map A.f32, true⟩ <;> rfl
  | .refMissing b w, v => by
    rw [Node.processV, Node.process]
    rfl

theorem runNodesV_fst (A : Arith K) (compat stride : ℕ) (g : Bool) : ∀ (ns : List (Node K)) (prev : Option Depth) (s : Res K),
    (do let r ← runNodesV A compat stride g prev ns s; .ok r.1 : Py _) = runNodes A compat stride g prev ns s
  | [], prev, s => by
    rw [runNodesV, runNodes]
    rfl
  | n :: rest, prev, s => by
    unfold runNodesV runNodes
    have h1 := processV_fst A compat stride n
    have h2 := runNodesV_fst A compat stride g rest
    have h3 : ∀ q : Res K × List (Message K),
        (do let r ← (do let (r, ls) ← runNodesV A compat stride g (some n.outDepth) rest q.1
                        pure (r, q.2 ++ ls) : Py (Res K × List (Message K)))
            .ok r.1 : Py _) = runNodes A compat stride g (some n.outDepth) rest q.1 := by
      intro q
      rw [← h2]
      cases runNodesV A compat stride g (some n.outDepth) rest q.1 <;> rfl
    by_cases hb : ((n.attr "bypass").isNone || (!g && !hasFeature compat autodesk)) = true
    · simp only [if_pos hb]
      rw [← h1]
      cases n.processV A compat stride s.out with
      | error e => rfl
      | ok q => exact h3 (s.step q.1, _)
    · simp only [if_neg hb]
      cases prev with
      | none => exact h3 (s, _)
      | some inD =>
        cases rest with
        | nil => exact h3 (s, _)
        | cons next rest =>
          by_cases hd : inD ≠ next.inDepth
          · simp only [if_pos hd]
            cases rangeProcess A (adapterBase inD next.inDepth) s.out with
            | error e => rfl
            | ok q => exact h3 (s.step q, _)
          · simp only [if_neg hd]
            exact h3 (s, _)

end

/-- The result of a list, and any error, is the same with messages and without. -/
theorem C162_same (A : Arith K) (compat stride : ℕ) (ns : List (Node K)) (v : List (Flt K)) :
    (do let r ← processListV A compat ns v stride; .ok r.1 : Py _) = processList A compat ns v stride := by
  unfold processListV processList
  simp only [← runNodesV_fst A compat stride false ns none]
  cases runNodesV A compat stride false none ns ⟨v.map A.f32, v.map A.f32, true⟩ <;> rfl

theorem runNodesV_cons (A : Arith K) (compat stride : ℕ) (g : Bool) (prev : Option Depth) (n : Node K) (rest : List (Node K)) (s : Res K)
    (hn : n.attr "bypass" = none ∨ (g = false ∧ hasFeature compat autodesk = false)) :
    runNodesV A compat stride g prev (n :: rest) s = (do
      let q ← n.processV A compat stride s.out
      let p ← runNodesV A compat stride g (some n.outDepth) rest (s.step q.1)
      .ok (p.1, (q.2 ++ [.result g (n.attr "name") n.type q.1.out] ++
        (if (n.attr "bypass").isNone then [] else [.ignored (n.attr "name") n.type])) ++ p.2)) := by
  have h : ((n.attr "bypass").isNone || (!g && !hasFeature compat autodesk)) = true := by
    rcases hn with h | ⟨h1, h2⟩
    · rw [h]; simp
    · rw [h1, h2]; simp
  rw [runNodesV.eq_def]
  simp only [if_pos h]
  cases n.processV A compat stride s.out <;> rfl

theorem runNodesV_trace (A : Arith K) (compat stride : ℕ) (g : Bool) (ns : List (Node K))
    (hby : ∀ n ∈ ns, n.attr "bypass" = none ∨ (g = false ∧ hasFeature compat autodesk = false)) :
    ∀ (prev : Option Depth) (s : Res K) (r : Res K) (log : List (Message K)),
    runNodesV A compat stride g prev ns s = .ok (r, log) →
    ∃ (inner : ℕ → List (Message K)) (outs : ℕ → List (Flt K)),
      (∀ k ≤ ns.length, runOut A compat stride g prev (ns.take k) s.out = .ok (outs k)) ∧
      log = (ns.mapIdx fun k n => inner k ++ [.result g (n.attr "name") n.type (outs (k + 1))] ++
        (if (n.attr "bypass").isNone then [] else [.ignored (n.attr "name") n.type])).flatten ∧
      ∀ (k : ℕ) (n : Node K), ns[k]? = some n → ∃ r, n.processV A compat stride (outs k) = .ok (r, inner k) := by
  induction ns with
  | nil =>
    intro prev s r log h
    rw [runNodesV] at h
    cases h
    exact ⟨fun _ => [], fun _ => s.out, fun k _ => by rw [List.take_nil]; rfl, rfl, fun k n h => by simp at h⟩
  | cons n rest ih =>
    intro prev s r log h
    rw [runNodesV_cons A compat stride g prev n rest s (hby n (List.mem_cons_self ..))] at h
    obtain ⟨q, h1, h⟩ := py_bind_eq_ok.mp h
    obtain ⟨p, h2, h⟩ := py_bind_eq_ok.mp h
    cases h
    obtain ⟨inner, outs, h3, h4, h5⟩ := ih (fun m hm => hby m (List.mem_cons_of_mem _ hm)) _ _ _ _ h2
    refine ⟨fun k => k.casesOn q.2 inner, fun k => k.casesOn s.out outs, ?_, ?_, ?_⟩
    · intro k hk
      cases k with
      | zero => rfl
      | succ k =>
        rw [List.take_succ_cons, runOut, stepOut_plain (hby n (List.mem_cons_self ..))]
        unfold Node.outOf
        rw [← processV_fst, h1]
        simp only [py_ok_bind]
        exact h3 k (by simpa using hk)
    · have h0 : outs 0 = q.1.out := by
        have := h3 0 (Nat.zero_le _)
        rw [List.take_zero] at this
        exact (Except.ok.inj this).symm
      rw [List.mapIdx_cons, List.flatten_cons, h4]
      simp only [h0]
      rfl
    · intro k m hk
      cases k with
      | zero =>
        simp only [List.getElem?_cons_zero, Option.some.injEq] at hk
        subst hk
        exact ⟨q.1, h1⟩
      | succ k => exact h5 k m (by simpa using hk)

/-- Leaf nodes have nothing to say. -/
theorem C162_leaf (A : Arith K) (compat stride : ℕ) (k : Kind K) (b : Base K) (v : List (Flt K)) (r : Res K)
    (log : List (Message K)) (h : (Node.leaf k b).processV A compat stride v = .ok (r, log)) : log = [] := by
  rw [Node.processV] at h
  obtain ⟨x, _, hx⟩ := py_bind_eq_ok.mp h
  cases hx
  rfl

/-- A reference says what the list it refers to says, between two lines of its own. -/
theorem C162_reference (A : Arith K) (compat stride : ℕ) (b : Base K) (w : Bool) (ns : List (Node K)) (v : List (Flt K))
    (r : Res K) (log : List (Message K)) (h : (Node.ref b w ns).processV A compat stride v = .ok (r, log)) :
    ∃ l, processListV A compat ns v stride = .ok (r.out, l) ∧ log = .refBegin :: (l ++ [.refEnd]) := by
  rw [Node.processV] at h
  unfold processListV
  obtain ⟨x, h1, hx⟩ := py_bind_eq_ok.mp h
  cases hx
  exact ⟨.start v.length stride :: x.2, by simp only [h1]; rfl, rfl⟩

/-- The type that is shown is the name of the element the node is written as (unless it is written as the nodes
of the file it refers to). -/
theorem C162_type (compat : ℕ) (n : Node K) (xs : List Xml) (h : n.write compat (some false) = .ok xs) :
    ∃ a t cs, xs = [.mk n.type a t cs] := by
  have hb : ∀ tag (b : Base K) ex x, writeBase compat tag b ex = .ok x → ∃ a t cs, x = .mk tag a t cs := by
    intro tag b ex x hx
    unfold writeBase at hx
    obtain ⟨_, _, hx⟩ := py_bind_eq_ok.mp hx
    cases hx
    exact ⟨_, _, _, rfl⟩
  cases n with
  | leaf k b =>
    rw [Node.write] at h
    obtain ⟨x, h1, h⟩ := py_bind_eq_ok.mp h
    cases h
    obtain ⟨a, t, cs, rfl⟩ := hb _ _ _ _ h1
    exact ⟨a, t, cs, rfl⟩
  | group b ns =>
    rw [Node.write] at h
    obtain ⟨_, _, h⟩ := py_bind_eq_ok.mp h
    obtain ⟨x, h1, h⟩ := py_bind_eq_ok.mp h
    cases h
    obtain ⟨a, t, cs, rfl⟩ := hb _ _ _ _ h1
    exact ⟨a, t, cs, rfl⟩
  | ref b w ns =>
    rw [Node.write, if_neg (by simp)] at h
    obtain ⟨x, h1, h⟩ := py_bind_eq_ok.mp h
    cases h
    obtain ⟨a, t, cs, rfl⟩ := hb _ _ _ _ h1
    exact ⟨a, t, cs, rfl⟩
  | refMissing b w =>
    rw [Node.write, if_neg (by simp)] at h
    obtain ⟨x, h1, h⟩ := py_bind_eq_ok.mp h
    cases h
    obtain ⟨a, t, cs, rfl⟩ := hb _ _ _ _ h1
    exact ⟨a, t, cs, rfl⟩

/-- The messages are true: the list first tells how many values it gets, and then says for each node
its name, its type, and the result of the list up to and with this node, after whatever the node itself
has to say on the result so far, and before the news that its `bypass` was ignored.  This is so where nothing
is bypassed, either because no node asks for it or because the feature is off. -/
theorem C162_trace (A : Arith K) (compat stride : ℕ) (ns : List (Node K))
    (hby : (∀ n ∈ ns, n.attr "bypass" = none) ∨ hasFeature compat autodesk = false)
    (v out : List (Flt K)) (log : List (Message K)) (h : processListV A compat ns v stride = .ok (out, log)) :
    ∃ (inner : ℕ → List (Message K)) (outs : ℕ → List (Flt K)),
      (∀ k ≤ ns.length, processList A compat (ns.take k) v stride = .ok (outs k)) ∧ outs ns.length = out ∧
      log = .start v.length stride ::
        (ns.mapIdx fun k n => inner k ++ [.result false (n.attr "name") n.type (outs (k + 1))] ++
          (if (n.attr "bypass").isNone then [] else [.ignored (n.attr "name") n.type])).flatten ∧
      ∀ (k : ℕ) (n : Node K), ns[k]? = some n → ∃ r, n.processV A compat stride (outs k) = .ok (r, inner k) := by
  have hs := C162_same A compat stride ns v
  rw [h, py_ok_bind] at hs
  unfold processListV at h
  obtain ⟨q, h1, h2⟩ := py_bind_eq_ok.mp h
  cases h2
  obtain ⟨inner, outs, h3, h4, h5⟩ := runNodesV_trace A compat stride false ns
    (fun n hn => hby.imp (fun h => h n hn) fun h => ⟨rfl, h⟩) none _ _ _ h1
  refine ⟨inner, outs, fun k hk => by rw [processList_eq]; exact h3 k hk, ?_, by rw [h4], h5⟩
  have := h3 ns.length le_rfl
  rw [List.take_length, ← processList_eq, ← hs] at this
  exact (Except.ok.inj this).symm

/-- The same for what is printed within a group: one line for each child, with the result of the group cut off
after this child. -/
theorem C162_group (A : Arith K) (compat stride : ℕ) (b : Base K) (cs : List (Node K)) (hby : ∀ n ∈ cs, n.attr "bypass" = none)
    (v : List (Flt K)) (r : Res K) (log : List (Message K))
    (h : (Node.group b cs).processV A compat stride v = .ok (r, log)) :
    ∃ (inner : ℕ → List (Message K)) (outs : ℕ → List (Flt K)),
      (∀ k ≤ cs.length, (do let r ← (Node.group b (cs.take k)).process A compat stride v; .ok r.out : Py _) = .ok (outs k)) ∧
      outs cs.length = r.out ∧
      log = (cs.mapIdx fun k n => inner k ++ [.result true (n.attr "name") n.type (outs (k + 1))]).flatten ∧
      ∀ (k : ℕ) (n : Node K), cs[k]? = some n → ∃ r, n.processV A compat stride (outs k) = .ok (r, inner k) := by
  have hs := processV_fst A compat stride (.group b cs) v
  rw [h, py_ok_bind] at hs
  rw [Node.processV] at h
  obtain ⟨inner, outs, h3, h4, h5⟩ := runNodesV_trace A compat stride true cs (fun n hn => .inl (hby n hn)) none _ _ _ h
  have h6 : ∀ k ≤ cs.length,
      (do let r ← (Node.group b (cs.take k)).process A compat stride v; .ok r.out : Py _) = .ok (outs k) := by
    intro k hk
    rw [← h3 k hk, Node.process]
    exact runNodes_out A compat stride true _ none _
  have h7 : (cs.mapIdx fun k n => inner k ++ [.result true (n.attr "name") n.type (outs (k + 1))] ++
        (if (n.attr "bypass").isNone then [] else [.ignored (n.attr "name") n.type]))
      = cs.mapIdx fun k n => inner k ++ [.result true (n.attr "name") n.type (outs (k + 1))] := by
    apply List.ext_getElem (by simp)
    intro k h1 h2
    rw [List.getElem_mapIdx, List.getElem_mapIdx, hby _ (List.getElem_mem _)]
    simp
  refine ⟨inner, outs, h6, ?_, by rw [h4, h7], h5⟩
  have := h6 cs.length le_rfl
  rw [List.take_length, ← hs, py_ok_bind] at this
  exact (Except.ok.inj this).symm

/-- Whether a message says that a node is bypassed. -/
def Message.isBypassing : Message K → Bool
  | .bypassing _ _ => true
  | _ => false

/-- Whether a message says that a Range is put in for a bypassed node. -/
def Message.isAdding : Message K → Bool
  | .adding _ _ _ _ => true
  | _ => false

/-- The nodes of a list with the ones before and after. -/
def Spec.triples (ns : List (Node K)) : List ((Node K × Node K) × Node K) := (ns.zip (ns.drop 1)).zip (ns.drop 2)

/-- The first node of a list with the one before, if there is one, and the one after. -/
def firstTriple (n : Node K) : Option (Node K) → List (Node K) → List ((Node K × Node K) × Node K)
  | some a, z :: _ => [((a, n), z)]
  | _, _ => []

theorem triples_cons (pa : Option (Node K)) (n : Node K) (rest : List (Node K)) :
    Spec.triples (pa.toList ++ n :: rest) = firstTriple n pa rest ++ Spec.triples ((some n).toList ++ rest) := by
  cases pa <;> cases rest <;> rfl

theorem runNodesV_bypassed (A : Arith K) (compat stride : ℕ) (hc : hasFeature compat autodesk = true) (ns : List (Node K))
    (hl : ∀ n ∈ ns, ∃ k b, n = .leaf k b) :
    ∀ (pa : Option (Node K)) (s r : Res K) (log : List (Message K)),
    runNodesV A compat stride false (pa.map Node.outDepth) ns s = .ok (r, log) →
    log.filter Message.isBypassing = (ns.filter fun n => (n.attr "bypass").isSome).map (fun n => .bypassing (n.attr "name") n.type) ∧
    log.filter Message.isAdding = ((Spec.triples (pa.toList ++ ns)).filter fun t => (t.1.2.attr "bypass").isSome &&
      decide (t.1.1.outDepth ≠ t.2.inDepth)).map
      (fun t => .adding (t.1.2.attr "name") t.1.2.type t.1.1.outDepth t.2.inDepth) := by
  induction ns with
  | nil =>
    intro pa s r log h
    rw [runNodesV] at h
    cases h
    cases pa <;> exact ⟨rfl, rfl⟩
  | cons n rest ih =>
    intro pa s r log h
    have ih := ih (fun m hm => hl m (List.mem_cons_of_mem _ hm)) (some n)
    by_cases hb : n.attr "bypass" = none
    · rw [runNodesV_cons A compat stride false _ n rest s (.inl hb)] at h
      obtain ⟨q, h1, h⟩ := py_bind_eq_ok.mp h
      obtain ⟨p, h2, h⟩ := py_bind_eq_ok.mp h
      cases h
      have hq : q.2 = [] := by
        obtain ⟨k, b, rfl⟩ := hl n (List.mem_cons_self ..)
        exact C162_leaf A compat stride k b s.out q.1 q.2 h1
      obtain ⟨i1, i2⟩ := ih _ _ _ h2
      rw [hq, hb]
      constructor
      · rw [List.filter_cons_of_neg (by simp [hb]), ← i1]
        simp [Message.isBypassing]
      · have h0 : (firstTriple n pa rest).filter (fun t => (t.1.2.attr "bypass").isSome &&
            decide (t.1.1.outDepth ≠ t.2.inDepth)) = [] := by
          cases pa <;> cases rest <;> simp [firstTriple, hb]
        rw [triples_cons]
        simp only [List.filter_append, h0, i2]
        simp [Message.isAdding]
    · have hbs : (n.attr "bypass").isSome = true := Option.isSome_iff_ne_none.mpr hb
      have hb' : ((n.attr "bypass").isNone || (!false && !hasFeature compat autodesk)) = false := by
        rw [hc, ← Option.not_isSome, hbs]
        rfl
      have key : ∀ (s' : Res K) (l : List (Message K)),
          (do let q ← runNodesV A compat stride false (some n.outDepth) rest s'; .ok (q.1, l ++ q.2) : Py _) = .ok (r, log) →
          l.filter Message.isBypassing = [.bypassing (n.attr "name") n.type] →
          l.filter Message.isAdding = ((firstTriple n pa rest).filter fun t => (t.1.2.attr "bypass").isSome && decide (t.1.1.outDepth ≠ t.2.inDepth)).map
              (fun t => .adding (t.1.2.attr "name") t.1.2.type t.1.1.outDepth t.2.inDepth) →
          log.filter Message.isBypassing =
            ((n :: rest).filter fun n => (n.attr "bypass").isSome).map (fun n => .bypassing (n.attr "name") n.type) ∧
          log.filter Message.isAdding = ((Spec.triples (pa.toList ++ n :: rest)).filter fun t => (t.1.2.attr "bypass").isSome &&
            decide (t.1.1.outDepth ≠ t.2.inDepth)).map
            (fun t => .adding (t.1.2.attr "name") t.1.2.type t.1.1.outDepth t.2.inDepth) := by
        intro s' l h ha hd
        obtain ⟨q, h2, h⟩ := py_bind_eq_ok.mp h
        cases h
        obtain ⟨i1, i2⟩ := ih _ _ _ h2
        rw [List.filter_append, List.filter_append, i1, i2, ha, hd]
        constructor
        · simp [List.filter_cons, hbs]
        · rw [triples_cons]
          simp only [List.filter_append, List.map_append]
      rw [runNodesV.eq_def] at h
      simp only [hb', Bool.false_eq_true, if_false] at h
      cases pa with
      | none => exact key s _ h rfl rfl
      | some a =>
        cases rest with
        | nil => exact key s _ h rfl rfl
        | cons z rest =>
          simp only [Option.map_some] at h
          by_cases hd : a.outDepth = z.inDepth
          · rw [if_neg (not_not.mpr hd)] at h
            have e : [((a, n), z)].filter (fun t : (Node K × Node K) × Node K =>
                (t.1.2.attr "bypass").isSome && decide (t.1.1.outDepth ≠ t.2.inDepth)) = [] := by
              simp [hd]
            exact key s _ h rfl (by rw [firstTriple, e]; rfl)
          · rw [if_pos hd] at h
            obtain ⟨x, h1, h⟩ := py_bind_eq_ok.mp h
            have e : [((a, n), z)].filter (fun t : (Node K × Node K) × Node K =>
                (t.1.2.attr "bypass").isSome && decide (t.1.1.outDepth ≠ t.2.inDepth)) = [((a, n), z)] := by
              simp [hd, hbs]
            exact key _ _ h rfl (by rw [firstTriple, e]; rfl)

/-- Where the feature is on, exactly the nodes that ask for it are said to be bypassed, in their order, and a Range is
said to be put in exactly for those between two nodes whose depths do not fit.  (For lists of leaf nodes.) -/
theorem C162_bypassed (A : Arith K) (compat stride : ℕ) (hc : hasFeature compat autodesk = true) (ns : List (Node K))
    (hl : ∀ n ∈ ns, ∃ k b, n = .leaf k b) (v out : List (Flt K)) (log : List (Message K))
    (h : processListV A compat ns v stride = .ok (out, log)) :
    log.filter Message.isBypassing = (ns.filter fun n => (n.attr "bypass").isSome).map (fun n => .bypassing (n.attr "name") n.type) ∧
    log.filter Message.isAdding = ((Spec.triples ns).filter fun t => (t.1.2.attr "bypass").isSome &&
      decide (t.1.1.outDepth ≠ t.2.inDepth)).map
      (fun t => .adding (t.1.2.attr "name") t.1.2.type t.1.1.outDepth t.2.inDepth) := by
  unfold processListV at h
  obtain ⟨q, h1, h2⟩ := py_bind_eq_ok.mp h
  cases h2
  exact runNodesV_bypassed A compat stride hc ns hl none _ q.1 q.2 h1

/-- Filtering pixel by pixel does not work with messages: whatever the image and the list, if it works
without, it fails with them. -/
theorem C162_pixel_false (A : Arith K) (compat : ℕ) (j : Job K) (hw : 0 < j.width) (row : ℕ) (out r : List (Flt K))
    (h : filterRowPixel A compat j false row out = .ok r) :
    filterRowPixel A compat j true row out = .error .nameError := by
  unfold filterRowPixel at h ⊢
  obtain ⟨_, h1, h2⟩ := py_bind_eq_ok.mp h
  rw [h1, py_ok_bind]
  obtain ⟨w, hw'⟩ : ∃ w, j.width = w + 1 := ⟨j.width - 1, by omega⟩
  rw [hw', List.range_succ_eq_map, List.foldlM_cons] at h2 ⊢
  obtain ⟨o, h3, _⟩ := py_bind_eq_ok.mp h2
  simp only at h3 ⊢
  obtain ⟨v, h4, _⟩ := py_bind_eq_ok.mp h3
  rw [h4]
  rfl

/-! ### Examples -/

/-- A doubling node in a group, then a node that adds: everything that is printed. -/
example : processListV ratArith 1 [.group { attrs := [("name", .str "g")] } [doubler], adder] [.fin 1, .fin 2, .fin 3] 3 = .ok
    ([.fin 3, .fin 5, .fin 7], [.start 3 3, .result true none "Matrix" [.fin 2, .fin 4, .fin 6],
      .result false (some (.str "g")) "Group" [.fin 2, .fin 4, .fin 6],
      .result false none "Range" [.fin 3, .fin 5, .fin 7]]) := by decide +kernel

/-- A reference to a list whose only node wants to be bypassed, where that is ignored. -/
example : processListV ratArith 0 [.ref { attrs := [] } false [.leaf .range
      { attrs := [("name", .str "n"), ("bypass", .str "true"), ("inBitDepth", .str "32f"), ("outBitDepth", .str "32f"),
          ("style", .str "noClamp")]
        values := [("minInValue", .fin 0), ("minOutValue", .fin 1)] }]] [.fin 1, .fin 2, .fin 3] 3 = .ok
    ([.fin 2, .fin 3, .fin 4], [.start 3 3, .refBegin, .start 3 3,
      .result false (some (.str "n")) "Range" [.fin 2, .fin 3, .fin 4],
      .ignored (some (.str "n")) "Range", .refEnd,
      .result false none "Reference" [.fin 2, .fin 3, .fin 4]]) := by decide +kernel

/-- A bypassed node between a list of 8 bits and one of floats, where the feature is on. -/
example : (processListV ratArith autodesk [.leaf .range
      { attrs := [("inBitDepth", .str "32f"), ("outBitDepth", .str "8i"), ("style", .str "noClamp")] },
      .leaf .range { attrs := [("name", .str "n"), ("bypass", .str "true"), ("inBitDepth", .str "8i"),
        ("outBitDepth", .str "32f"), ("style", .str "noClamp")] }, adder] [.fin 1, .fin 0, .fin 0] 3).map Prod.snd = .ok
    [.start 3 3, .result false none "Range" [.fin 255, .fin 0, .fin 0], .bypassing (some (.str "n")) "Range",
      .adding (some (.str "n")) "Range" (depth "8i") (depth "32f"),
      .result false (some (.str "adapter")) "Range" [.fin 1, .fin 0, .fin 0],
      .result false none "Range" [.fin 2, .fin 1, .fin 1]] := by decide +kernel

/-- A row of two RGB pixels that is filtered without messages, and not with them. -/
example : let j : Job ℚ := ⟨[doubler], none, none, .floats ([1, 2, 3, 4, 5, 6, 7, 8, 9, 10, 11, 12].map .fin), 2, 2, 3⟩
    filterRowPixel ratArith 0 j false 1 (List.replicate 12 (.fin 0))
      = .ok ([0, 0, 0, 0, 0, 0, 14, 16, 18, 20, 22, 24].map .fin) ∧
    filterRowPixel ratArith 0 j true 1 (List.replicate 12 (.fin 0)) = .error .nameError := by decide +kernel

end CLF
