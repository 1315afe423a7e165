import Verif.Props.RangeList

/-! # Property C148: groups, references and bypassed nodes in IEEE arithmetic -/

set_option linter.unusedSectionVars false

namespace CLF

variable {K : Type} [Field K] [LinearOrder K] [IsStrictOrderedRing K] [FloorRing K]

theorem evalChain_append (ss ts : List (Spec.Stage K)) (v : Fin 3 → K) : Spec.evalChain (ss ++ ts) v = Spec.evalChain ts (Spec.evalChain ss v) := by
  induction ss generalizing v with
  | nil => rfl
  | cons s ss ih => simp only [List.cons_append, Spec.evalChain, ih]

/-- Whether a node runs: it has no `bypass`, or it stands in a list and the feature set knows no `bypass`. -/
def Spec.Active (compat : ℕ) (inGroup : Bool) (n : Node K) : Prop :=
  n.attr "bypass" = none ∨ (inGroup = false ∧ hasFeature compat autodesk = false)

/-- The stages that a list, or the inside of a group, stands for.  Groups and references stand for what is in them, missing references for
nothing.  A bypassed node stands for nothing, or for a change of depth if the depths beside it differ. -/
inductive Carries (E : Evaluator K) (compat : ℕ) : Bool → Option Depth → List (Node K) → List (Spec.Stage K) → Prop
  | nil {g : Bool} {prev : Option Depth} : Carries E compat g prev [] []
  | node {g : Bool} {prev : Option Depth} {n : Node K} {ns : List (Node K)} {s : Spec.Stage K} {ss : List (Spec.Stage K)} (ha : Spec.Active compat g n)
      (hn : Implements E n s) (h : Carries E compat g (some n.outDepth) ns ss) : Carries E compat g prev (n :: ns) (s :: ss)
  | group {g : Bool} {prev : Option Depth} {b : Base K} {cs ns : List (Node K)} {ss ts : List (Spec.Stage K)} (ha : Spec.Active compat g (.group b cs))
      (hc : Carries E compat true none cs ss) (h : Carries E compat g (some (Node.group b cs).outDepth) ns ts) :
      Carries E compat g prev (.group b cs :: ns) (ss ++ ts)
  | ref {g : Bool} {prev : Option Depth} {b : Base K} {i : Bool} {cs ns : List (Node K)} {ss ts : List (Spec.Stage K)} (ha : Spec.Active compat g (.ref b i cs))
      (hc : Carries E compat false none cs ss) (h : Carries E compat g (some (Node.ref b i cs).outDepth) ns ts) :
      Carries E compat g prev (.ref b i cs :: ns) (ss ++ ts)
  | missing {g : Bool} {prev : Option Depth} {b : Base K} {i : Bool} {ns : List (Node K)} {ss : List (Spec.Stage K)} (ha : Spec.Active compat g (.refMissing b i))
      (h : Carries E compat g (some (Node.refMissing b i).outDepth) ns ss) : Carries E compat g prev (.refMissing b i :: ns) ss
  | skip {g : Bool} {prev : Option Depth} {n : Node K} {ns : List (Node K)} {ss : List (Spec.Stage K)} (ha : ¬Spec.Active compat g n)
      (hd : prev = none ∨ ns = [] ∨ ∃ n' ns', ns = n' :: ns' ∧ prev = some n'.inDepth) (h : Carries E compat g (some n.outDepth) ns ss) :
      Carries E compat g prev (n :: ns) ss
  | adapt {g : Bool} {n n' : Node K} {ns : List (Node K)} {ss : List (Spec.Stage K)} {d1 d2 : AVal} {D : K} (ha : ¬Spec.Active compat g n)
      (hd : n'.inDepth = some d2 ∧ d1 ≠ d2) (hD : 1 ≤ D ∧ D ≤ 2 ^ 89) (h : Carries E compat g (some n.outDepth) (n' :: ns) ss) :
      Carries E compat g (some (some d1)) (n :: n' :: ns) (.tone (Spec.fullScale (some d1)) (Spec.fullScale (some d2)) D 0 (fun _ u => u) :: ss)

theorem active_run {compat : ℕ} {g : Bool} {n : Node K} (h : Spec.Active compat g n) :
    ((n.attr "bypass").isNone || (!g && !hasFeature compat autodesk)) = true := by
  rcases h with h | ⟨h1, h2⟩
  · simp [h]
  · simp [h1, h2]

theorem inactive_run {compat : ℕ} {g : Bool} {n : Node K} (h : ¬Spec.Active compat g n) :
    ((n.attr "bypass").isNone || (!g && !hasFeature compat autodesk)) = false := by
  rw [← Bool.not_eq_true]
  intro h'
  apply h
  simp only [Bool.or_eq_true, Bool.and_eq_true, Bool.not_eq_true', Option.isNone_iff_eq_none] at h'
  exact h'

theorem adapter_depths (d1 d2 : AVal) : DepthRange (K := K) (adapterBase (some d1) (some d2)) d1 d2 :=
  ⟨rfl, rfl, fun _ _ => rfl, rfl⟩

/-- One stage. -/
theorem runs_stage {f : List (Flt K) → Py (Res K)} {s : Spec.Stage K} {B l d B' : K} (hf : Runs f s B d B') (hg : Spec.Gauge s B l d B') (ok : StageOk s) {e : K}
    {α : Type} (items : List α) (u v : α → Fin 3 → K) (hu : ∀ x ∈ items, Small B (u x) ∧ Off e (u x) (v x)) :
    ∃ (r : Res K) (g : α → Fin 3 → K), f (Spec.rgb (items.map u)) = .ok r ∧ r.out = Spec.rgb (items.map g) ∧
      ∀ x ∈ items, Small B' (g x) ∧ Off (d + l * e) (g x) (s.eval (v x)) := by
  obtain ⟨r, g, h1, h2, h3⟩ := hf (items.map u) (by
    intro p hp
    obtain ⟨x, hx, rfl⟩ := List.mem_map.mp hp
    exact (hu x hx).1)
  rw [List.map_map] at h2
  refine ⟨r, fun x => g (u x), h1, h2, fun x hx => ?_⟩
  obtain ⟨a1, a2⟩ := h3 (u x) (List.mem_map.mpr ⟨x, hx, rfl⟩)
  refine ⟨a1, fun i => ?_⟩
  have b1 := a2 i
  have b2 := stage_lipschitz hg ok (hu x hx).2 i
  have e : g (u x) i - s.eval (v x) i = (g (u x) i - s.eval (u x) i) + (s.eval (u x) i - s.eval (v x) i) := by ring
  rw [e]
  exact (abs_add_le _ _).trans (add_le_add b1 b2)

theorem runs_carries {E : Evaluator K} (hE : E.rounding = ieee) {compat : ℕ} {g : Bool} {prev : Option Depth} {ns : List (Node K)} {ss : List (Spec.Stage K)}
    (h : Carries E compat g prev ns ss) {ts : List (Spec.Stage K)} {B e e' : K} (hb : Spec.Budget (ss ++ ts) B e e') {α : Type} (items : List α)
    (u v : α → Fin 3 → K) (hu : ∀ x ∈ items, Small B (u x) ∧ Off e (u x) (v x)) (arg : List (Flt K)) (same : Bool) :
    ∃ (r : Res K) (w : α → Fin 3 → K) (B1 e1 : K),
      runNodesR E compat 3 g prev ns ⟨Spec.rgb (items.map u), arg, same⟩ = .ok r ∧ r.out = Spec.rgb (items.map w) ∧ Spec.Budget ts B1 e1 e' ∧
      ∀ x ∈ items, Small B1 (w x) ∧ Off e1 (w x) (Spec.evalChain ss (v x)) := by
  induction h generalizing ts B e u v arg same with
  | nil => exact ⟨_, u, B, e, by rw [runNodesR], rfl, hb, hu⟩
  | @node g prev n ns s ss ha hn hrest ih =>
    cases hb with
    | @cons _ _ _ _ l d B' _ hg hbs =>
      obtain ⟨r, w, h1, h2, h3⟩ := runs_stage (runs_node hE compat hn hg) hg hn.wf items u v hu
      obtain ⟨r', w', B1, e1, k1, k2, k3, k4⟩ := ih hbs w _ h3 (if same then r.arg else arg) (same && r.same)
      refine ⟨r', w', B1, e1, ?_, k2, k3, k4⟩
      rw [← k1]
      conv_lhs => unfold runNodesR
      simp only [active_run ha, if_true, h1, py_ok_bind, py_pure, Res.step, h2]
  | @group g prev b cs ns ss ts' ha hc hrest ihc ih =>
    rw [List.append_assoc] at hb
    obtain ⟨r, w, B1, e1, h1, h2, h3, h4⟩ := ihc hb u v hu (Spec.rgb (items.map u)) true
    obtain ⟨r', w', B2, e2, k1, k2, k3, k4⟩ := ih h3 w _ h4 (if same then r.arg else arg) (same && r.same)
    refine ⟨r', w', B2, e2, ?_, k2, k3, fun x hx => by rw [evalChain_append]; exact k4 x hx⟩
    rw [← k1]
    conv_lhs => unfold runNodesR
    simp only [active_run ha, if_true, Node.processR, h1, py_ok_bind, py_pure, Res.step, h2]
  | @ref g prev b i cs ns ss ts' ha hc hrest ihc ih =>
    rw [List.append_assoc] at hb
    have hcopy : (Spec.rgb (items.map u)).map (E.rounding single) = Spec.rgb (items.map u) := by
      rw [hE]
      refine copy_rgb _ fun p hp i => ?_
      obtain ⟨x, hx, rfl⟩ := List.mem_map.mp hp
      exact ((hu x hx).1 i).1
    obtain ⟨r, w, B1, e1, h1, h2, h3, h4⟩ := ihc hb u v hu (Spec.rgb (items.map u)) true
    obtain ⟨r', w', B2, e2, k1, k2, k3, k4⟩ := ih h3 w _ h4 (if same then Spec.rgb (items.map u) else arg) (same && false)
    refine ⟨r', w', B2, e2, ?_, k2, k3, fun x hx => by rw [evalChain_append]; exact k4 x hx⟩
    rw [← k1]
    conv_lhs => unfold runNodesR
    simp only [active_run ha, if_true, Node.processR, hcopy, h1, py_ok_bind, py_pure, Res.step, h2]
  | @missing g prev b i ns ss ha hrest ih =>
    obtain ⟨r', w', B2, e2, k1, k2, k3, k4⟩ := ih hb u v hu (if same then Spec.rgb (items.map u) else arg) (same && true)
    refine ⟨r', w', B2, e2, ?_, k2, k3, k4⟩
    rw [← k1]
    conv_lhs => unfold runNodesR
    simp only [active_run ha, if_true, Node.processR, py_ok_bind, py_pure, Res.step]
  | @skip g prev n ns ss ha hd hrest ih =>
    obtain ⟨r', w', B2, e2, k1, k2, k3, k4⟩ := ih hb u v hu arg same
    refine ⟨r', w', B2, e2, ?_, k2, k3, k4⟩
    rw [← k1]
    conv_lhs => unfold runNodesR
    simp only [inactive_run ha, Bool.false_eq_true, if_false]
    rcases hd with rfl | rfl | ⟨n', ns', rfl, rfl⟩
    · rfl
    · cases prev <;> rfl
    · simp only [ne_eq, not_true_eq_false, if_false]
      rfl
  | @adapt g n n' ns ss d1 d2 D ha hd hD hrest ih =>
    cases hb with
    | @cons _ _ _ _ l d B' _ hg hbs =>
      have hi := (C147_depths E hE _ d1 d2 (adapter_depths d1 d2) D hD.1 hD.2).1
      obtain ⟨r, w, h1, h2, h3⟩ := runs_stage (runs_node hE compat hi hg) hg hi.wf items u v hu
      obtain ⟨r', w', B1, e1, k1, k2, k3, k4⟩ := ih hbs w _ h3 (if same then r.arg else arg) (same && r.same)
      refine ⟨r', w', B1, e1, ?_, k2, k3, k4⟩
      rw [← k1]
      conv_lhs => unfold runNodesR
      have hne : (some d1 : Depth) ≠ some d2 := fun h => hd.2 (Option.some.inj h)
      have h1' : rangeProcessR E.rounding (adapterBase (some d1) (some d2)) (Spec.rgb (items.map u)) = .ok r := h1
      simp only [inactive_run ha, Bool.false_eq_true, if_false, hd.1, ne_eq, hne, not_false_eq_true, if_true, h1', py_ok_bind, py_pure, Res.step, h2]

/-- C148: pixels of `float32` numbers through a list with groups, references and bypassed nodes, in IEEE arithmetic.  The list gives finite
`float32` numbers that are off from the composition of the stages that the list stands for by no more than the errors of the
stages, each magnified by the steepness of those after it. -/
theorem C148_list (E : Evaluator K) (hE : E.rounding = ieee) (compat : ℕ) (ns : List (Node K)) (ss : List (Spec.Stage K))
    (h : Carries E compat false none ns ss) (B e : K) (hb : Spec.Budget ss B 0 e) (pixels : List (Fin 3 → K))
    (hp : ∀ p ∈ pixels, ∀ i, Spec.IsSingle (p i) ∧ |p i| ≤ B) :
    ∃ g : (Fin 3 → K) → Fin 3 → K, processListR E compat ns (Spec.rgb pixels) 3 = .ok (Spec.rgb (pixels.map g)) ∧
      ∀ p ∈ pixels, ∀ i, Spec.IsSingle (g p i) ∧ |g p i - Spec.evalChain ss p i| ≤ e := by
  obtain ⟨r, w, B1, e1, h1, h2, h3, h4⟩ := runs_carries hE h (ts := []) (by simpa using hb) pixels id id
    (fun p hp' => ⟨hp p hp', fun i => by simp⟩) (Spec.rgb pixels) true
  cases h3
  refine ⟨w, ?_, fun p hp' i => ⟨((h4 p hp').1 i).1, (h4 p hp').2 i⟩⟩
  unfold processListR
  rw [List.map_id] at h1
  rw [hE, copy_rgb pixels fun p hp' i => (hp p hp' i).1]
  simp only [h1, py_ok_bind, py_pure, h2]

/-! ## Examples -/

/-- A Matrix that nobody wants to see at work. -/
noncomputable def silentMatrix : Node ℝ :=
  .leaf .matrix { attrs := [("inBitDepth", .str "10i"), ("outBitDepth", .str "16f"), ("bypass", .str "true")] }

/-- Video levels in a group, a bypassed Matrix, and a reference to a file that is missing, which asks for numbers from 0 to 1. -/
noncomputable def sampleTree : List (Node ℝ) :=
  [.group { attrs := [("inBitDepth", .str "10i"), ("outBitDepth", .str "10i")] } [.leaf .range legalRange], silentMatrix,
    .refMissing { attrs := [("inBitDepth", .str "32f"), ("outBitDepth", .str "32f")] } true]

/-- The bypassed Matrix becomes a change of depth. -/
theorem sampleTree_carries (E : Evaluator ℝ) (hE : E.rounding = ieee) : Carries E autodesk false none sampleTree [legalStage, unitStage] :=
  .group (ss := [legalStage]) (.inl rfl) (.node (.inl rfl) (legal_implements E hE).1 .nil)
    (.adapt (by
      rintro (h | ⟨-, h⟩)
      · exact absurd h (by simp [silentMatrix, Node.attr, Node.base]; decide)
      · exact absurd h (by decide)) ⟨rfl, by decide⟩ ⟨by norm_num, by norm_num⟩ (.missing (.inl rfl) .nil))

example (E : Evaluator ℝ) (hE : E.rounding = ieee) (pixels : List (Fin 3 → ℝ)) (hp : ∀ p ∈ pixels, ∀ i, ∃ n : ℕ, n ≤ 1023 ∧ p i = n) :
    ∃ g : (Fin 3 → ℝ) → Fin 3 → ℝ, processListR E autodesk sampleTree (Spec.rgb pixels) 3 = .ok (Spec.rgb (pixels.map g)) ∧
      ∀ p ∈ pixels, ∀ i, |g p i - (p i - 64) / 876| ≤ 2 / 10 ^ 5 := by
  obtain ⟨e, hb, he⟩ := legal_budget
  have sz : ∀ p ∈ pixels, ∀ i, 0 ≤ p i ∧ p i ≤ 1023 ∧ Spec.IsSingle (p i) := by
    intro p hp' i
    obtain ⟨n, hn, e⟩ := hp p hp' i
    rw [e]
    exact ⟨n.cast_nonneg, by exact_mod_cast hn, isSingle_nat (by omega)⟩
  obtain ⟨g, h1, h2⟩ := C148_list E hE autodesk _ _ (sampleTree_carries E hE) 1023 e hb pixels
    fun p hp' i => ⟨(sz p hp' i).2.2, abs_le.mpr ⟨by linarith [(sz p hp' i).1], (sz p hp' i).2.1⟩⟩
  refine ⟨g, h1, fun p hp' i => ?_⟩
  rw [← legal_chain (sz p hp' i).1 (sz p hp' i).2.1]
  exact (h2 p hp' i).2.trans he

end CLF
