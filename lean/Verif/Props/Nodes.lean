import Verif.Lemmas.Nodes

/-! # Properties C34, C36, C37, C41, C44: lists and trees of nodes -/

set_option linter.unusedSectionVars false

namespace CLF

variable {K : Type} [Field K] [LinearOrder K] [IsStrictOrderedRing K] [FloorRing K]

/-! ### A small exact arithmetic and some nodes for the examples -/

/-- Exact arithmetic over ℚ whose powers are right for the exponents 0 and 1. -/
def ratArith : Arith ℚ where
  f32 := id
  pow b e := if e = .fin 0 then .fin 1 else b
  log10 x := x

/-- Exposure 0, contrast 1, pivot 1: does nothing to a non-negative colour. -/
def ecNode : Node ℚ :=
  .leaf (.exposureContrast (.fin 0) (.fin 1) (.fin 1))
    { attrs := [("inBitDepth", .str "32f"), ("outBitDepth", .str "32f"), ("style", .str "linear")] }

/-- Twice the identity. -/
def twice : Arr ℚ where
  dims := [3, 3, 3]
  values := [.fin 2, .fin 0, .fin 0, .fin 0, .fin 2, .fin 0, .fin 0, .fin 0, .fin 2]

/-- A node that doubles the three colour channels. -/
def doubler : Node ℚ :=
  .leaf .matrix
    { attrs := [("inBitDepth", .str "32f"), ("outBitDepth", .str "32f")]
      elements := [.array twice] }

/-- A Range that adds 1 to everything. -/
def adder : Node ℚ :=
  .leaf .range
    { attrs := [("inBitDepth", .str "32f"), ("outBitDepth", .str "32f"), ("style", .str "noClamp")]
      values := [("minInValue", .fin 0), ("minOutValue", .fin 1)] }

theorem within_leaf {m : Node K} {k : Kind K} {b : Base K} (h : Within m (.leaf k b)) :
    m = .leaf k b := by
  generalize hn : Node.leaf k b = n at h
  cases h with
  | self => rfl
  | group _ _ => cases hn
  | ref _ _ => cases hn

theorem within_group {m : Node K} {cs : List (Node K)} {b : Base K} (h : Within m (.group b cs)) :
    m = .group b cs ∨ ∃ c ∈ cs, Within m c := by
  generalize hn : Node.group b cs = n at h
  cases h with
  | self => exact .inl rfl
  | group h1 h2 => cases hn; exact .inr ⟨_, h1, h2⟩
  | ref _ _ => cases hn

/-! ### C44 -/

/-- C44: a successful run returns as many values as it was given. -/
theorem C44_length (A : Arith K) (compat stride : ℕ) (ns : List (Node K)) (v r : List (Flt K))
    (h : processList A compat ns v stride = .ok r) : r.length = v.length :=
  processList_closed (closed_length A) compat stride (fun _ _ => True)
    (fun k b _ => leaf_length A compat stride k b) False
    (.inr fun d1 d2 => adapter_length A d1 d2) ns
    (fun _ _ _ _ => ⟨fun h => h.elim, fun _ _ _ => trivial⟩) v r h

/-- C44 for a single node of any kind. -/
theorem C44_node (A : Arith K) (compat stride : ℕ) (n : Node K) (v : List (Flt K)) (r : Res K)
    (h : n.process A compat stride v = .ok r) : r.out.length = v.length :=
  outOf_closed (closed_length A) compat stride (fun _ _ => True)
    (fun k b _ => leaf_length A compat stride k b) False
    (.inr fun d1 d2 => adapter_length A d1 d2) n
    (fun _ _ => ⟨fun h => h.elim, fun _ _ _ => trivial⟩) v r.out
    (by unfold Node.outOf; rw [h]; rfl)

/-- Seven values, stride 3: the left-over value is there (as 0). -/
example : processList ratArith 0 [doubler] [.fin 1, .fin 2, .fin 3, .fin 4, .fin 5, .fin 6, .fin 7] 3
    = .ok [.fin 2, .fin 4, .fin 6, .fin 8, .fin 10, .fin 12, .fin 0] := by decide +kernel

/-! ### C36 -/

/-- C36, except for ExposureContrast on pixels of more than three channels: a row of
pixels is processed exactly if each pixel is, and the result is the concatenation.
Missing: ExposureContrast with more than three channels, where it is false. -/
theorem C36_independent_partial (A : Arith K) (compat s : ℕ) (hs : 0 < s) (ns : List (Node K))
    (hec : ∀ n ∈ ns, ∀ m, Within m n → ∀ k b, m = .leaf k b → EcSmall s k)
    (pixels : List (List (Flt K))) (hne : pixels ≠ []) (hp : ∀ p ∈ pixels, p.length = s)
    (r : List (Flt K)) :
    processList A compat ns pixels.flatten s = .ok r ↔
      ∃ outs, List.Forall₂ (fun p o => processList A compat ns p s = .ok o) pixels outs ∧
        r = outs.flatten :=
  (processList_closed (closed_pixelwise A s (fun _ _ => True) (fun _ => trivial)
      (fun _ _ _ _ _ => trivial) (fun _ => trivial)) compat s (fun k _ => EcSmall s k)
    (fun k b h => leaf_pixelwise A compat s hs k b h) False
    (.inr fun d1 d2 => range_pixelwise A s _ (fun _ _ _ => trivial) (adapterBase d1 d2)) ns
    (fun n hn m hm => ⟨fun h => h.elim, fun k b h => hec n hn m hm k b h⟩)).split pixels hne hp r

example : EcSmall 3 (.exposureContrast (.fin 0) (.fin 1) (.fin 1) : Kind ℚ) ∧
    processList ratArith 1 [ecNode, adder, doubler] [.fin 1, .fin 2, .fin 3, .fin 4, .fin 5, .fin 6] 3
      = .ok [.fin 4, .fin 6, .fin 8, .fin 10, .fin 12, .fin 14] := by
  refine ⟨le_refl 3, by decide +kernel⟩

/-- C36 is false as stated: with a fourth channel, ExposureContrast makes the result of
the second pixel depend on the first. -/
theorem C36_false : ∃ (ns : List (Node ℚ)) (p q o : List (Flt ℚ)), p.length = 4 ∧ q.length = 4 ∧
    processList ratArith 1 ns q 4 = .ok q ∧ processList ratArith 1 ns p 4 = .ok p ∧
    processList ratArith 1 ns (p ++ q) 4 = .ok (p ++ o) ∧ o ≠ q :=
  ⟨[ecNode], [.fin 1, .fin 1, .fin 1, .fin 0], [.fin 1, .fin 1, .fin 1, .fin 1],
    [.fin 1, .fin 1, .fin 1, .fin 0], rfl, rfl, by decide +kernel, by decide +kernel,
    by decide +kernel, by decide⟩

/-! ### C34 -/

/-- C34 for lists (with groups and references) of nodes other than Range and
ExposureContrast, with matrices of at most three rows and no bypassed nodes: each pixel
keeps its further channels (up to the cast to `float32` on entry).
Missing: ExposureContrast, for which it is false. -/
theorem C34_extra_partial (A : Arith K) (hA : Casts A) (compat s : ℕ) (hs : 0 < s)
    (ns : List (Node K)) (hb : Spec.NoBypass ns)
    (hk : ∀ n ∈ ns, ∀ m, Within m n → ∀ k b, m = .leaf k b → KeepsExtra k b)
    (pixels : List (List (Flt K))) (hp : ∀ p ∈ pixels, p.length = s) (r : List (Flt K))
    (h : processList A compat ns pixels.flatten s = .ok r) :
    ∃ outs, r = outs.flatten ∧
      List.Forall₂ (fun p o => o.length = s ∧ o.drop 3 = (p.drop 3).map A.f32) pixels outs := by
  by_cases hne : pixels = []
  · subst hne
    have := C44_length A compat s ns _ r h
    simp only [List.flatten_nil, List.length_nil, List.length_eq_zero_iff] at this
    exact ⟨[], this, .nil⟩
  · have pw : Pixelwise s (KeepsTail A) (runOut A compat s false none ns) :=
      runOut_closed (closed_tail A s) compat s false ns
        (fun n hn => outOf_closed (closed_tail A s) compat s KeepsExtra
          (fun k b h => leaf_tail A hA compat s hs k b h) True (.inl trivial) n
          (fun m hm => ⟨fun _ => hb n hn m hm, hk n hn m hm⟩))
        (.inl fun n hn => hb n hn n .self) none
    rw [processList_eq, List.map_flatten] at h
    have hl : ∀ c ∈ pixels.map (List.map A.f32), c.length = s := by
      intro c hc
      obtain ⟨p, hpm, rfl⟩ := List.mem_map.mp hc
      simpa using hp p hpm
    obtain ⟨os, h1, rfl⟩ := (pw.split _ (by simpa using hne) hl r).mp h
    refine ⟨os, rfl, ?_⟩
    rw [List.forall₂_map_left_iff] at h1
    refine (List.forall₂_and_left (p := fun c => c.length = s) pixels os |>.mpr ⟨hp, h1⟩).imp ?_
    rintro p o ⟨hpl, h⟩
    have hpl' : (p.map A.f32).length = s := by simpa using hpl
    refine ⟨pw.len _ _ hpl' h, ?_⟩
    rw [(pw.rel _ _ hpl' h (stored_map hA p)).1, List.map_drop]

theorem ratArith_casts : Casts ratArith := ⟨fun _ => rfl, rfl⟩

/-- A group holding a matrix meets the hypotheses. -/
example : Spec.NoBypass [Node.group { attrs := [] } [doubler]] ∧
    (∀ n ∈ [Node.group { attrs := [] } [doubler]], ∀ m, Within m n →
      ∀ k b, m = .leaf k b → KeepsExtra k b) ∧
    processList ratArith 2 [Node.group { attrs := [] } [doubler]]
      [.fin 1, .fin 2, .fin 3, .fin 7, .fin 4, .fin 5, .fin 6, .fin 8] 4
      = .ok [.fin 2, .fin 4, .fin 6, .fin 7, .fin 8, .fin 10, .fin 12, .fin 8] := by
  refine ⟨?_, ?_, by decide +kernel⟩
  · intro n hn m hm
    rw [List.mem_singleton.mp hn] at hm
    rcases within_group hm with rfl | ⟨c, hc, hm⟩
    · rfl
    · rw [List.mem_singleton.mp hc] at hm
      rw [within_leaf hm]; rfl
  · intro n hn m hm k b hmk
    rw [List.mem_singleton.mp hn] at hm
    rcases within_group hm with rfl | ⟨c, hc, hm⟩
    · cases hmk
    · rw [List.mem_singleton.mp hc] at hm
      rw [within_leaf hm] at hmk
      cases hmk
      intro a d ha hd
      cases ha
      cases hd
      exact le_refl 3

/-- C34 is false for ExposureContrast: a pixel after the first gets the further
channels of the first. -/
theorem C34_false : ∃ (n : Node ℚ) (p q o : List (Flt ℚ)), p.length = 4 ∧ q.length = 4 ∧
    (∃ e c pv b, n = .leaf (.exposureContrast e c pv) b) ∧
    processList ratArith 1 [n] (p ++ q) 4 = .ok (p ++ o) ∧ o.drop 3 ≠ q.drop 3 :=
  ⟨ecNode, [.fin 1, .fin 1, .fin 1, .fin 0], [.fin 1, .fin 1, .fin 1, .fin 1],
    [.fin 1, .fin 1, .fin 1, .fin 0], rfl, rfl, ⟨_, _, _, _, rfl⟩, by decide +kernel, by decide⟩

/-! ### C37 -/

/-- C37: the empty list only casts. -/
theorem C37_empty (A : Arith K) (compat stride : ℕ) (v : List (Flt K)) :
    processList A compat [] v stride = .ok (v.map A.f32) := rfl

/-- C37: processing by a concatenation is processing by the first list and then by the
second; this includes which exception is raised. -/
theorem C37_append (A : Arith K) (hA : Casts A) (compat stride : ℕ) (ns ms : List (Node K))
    (hseam : Spec.SeamFree compat ns ms) (v : List (Flt K)) :
    processList A compat (ns ++ ms) v stride
      = (do let w ← processList A compat ns v stride
            processList A compat ms w stride) := by
  simp only [processList_eq]
  rw [runOut_append A compat stride ns ms hseam]
  cases h : runOut A compat stride false none ns (v.map A.f32) with
  | error e => rfl
  | ok w =>
    simp only [py_ok_bind]
    rw [map_stored (runOut_stored A hA compat stride false none ns _ w (stored_map hA v) h)]

/-- C37: a one-element list runs its node on the cast values. -/
theorem C37_single (A : Arith K) (compat stride : ℕ) (n : Node K) (hn : n.attr "bypass" = none)
    (v : List (Flt K)) :
    processList A compat [n] v stride
      = (do let r ← n.process A compat stride (v.map A.f32); .ok r.out) := by
  rw [processList_eq, runOut, stepOut_plain (.inl hn)]
  unfold Node.outOf
  cases n.process A compat stride (v.map A.f32) <;> rfl

/-- The order matters, so the composition is not trivial. -/
example : Spec.SeamFree 1 [adder] [doubler] ∧
    processList ratArith 1 ([adder] ++ [doubler]) [.fin 1, .fin 2, .fin 3] 3
      = .ok [.fin 4, .fin 6, .fin 8] ∧
    processList ratArith 1 ([doubler] ++ [adder]) [.fin 1, .fin 2, .fin 3] 3
      = .ok [.fin 3, .fin 5, .fin 7] := by
  refine ⟨.inr ⟨?_, ?_⟩, by decide +kernel, by decide +kernel⟩
  · intro n hn; cases hn; rfl
  · intro n hn; cases hn; rfl

/-! ### C41 -/

/-- C41: dissolving every group, at any depth (also inside referenced lists), changes
nothing, neither the values nor the exception raised. -/
theorem C41_inline (A : Arith K) (compat stride : ℕ) (ns : List (Node K)) (hb : Spec.NoBypass ns)
    (v : List (Flt K)) :
    processList A compat (Spec.inlineAll ns) v stride = processList A compat ns v stride := by
  rw [processList_eq, processList_eq, runOut_plain, runOut_plain]
  · exact (inlineAll_foldlM A compat stride ns
      (fun n hn => inline_outOf A compat stride n fun m hm => hb n hn m hm) _).symm
  · exact fun n hn => hb n hn n .self
  · intro m hm
    obtain ⟨n, hn, hm⟩ := mem_inlineAll hm
    exact inline_plain n (fun m hm => hb n hn m hm) m hm

/-- One group among other nodes, replaced by its members in place. -/
theorem C41_group (A : Arith K) (compat stride : ℕ) (pre cs post : List (Node K))
    (b : Base K) (hb : Spec.NoBypass (pre ++ .group b cs :: post)) (v : List (Flt K)) :
    processList A compat (pre ++ .group b cs :: post) v stride
      = processList A compat (pre ++ cs ++ post) v stride := by
  have h1 := C41_inline A compat stride _ hb v
  have hb2 : Spec.NoBypass (pre ++ cs ++ post) := by
    intro n hn m hm
    simp only [List.append_assoc, List.mem_append] at hn
    rcases hn with hn | hn | hn
    · exact hb n (by simp [hn]) m hm
    · exact hb (.group b cs) (by simp) m (.group hn hm)
    · exact hb n (by simp [hn]) m hm
  have h2 := C41_inline A compat stride _ hb2 v
  have app : ∀ l m : List (Node K), Spec.inlineAll (l ++ m) = Spec.inlineAll l ++ Spec.inlineAll m := by
    intro l m
    induction l with
    | nil => rfl
    | cons a l ih => simp only [List.cons_append, Spec.inlineAll, ih, List.append_assoc]
  rw [← h1, ← h2]
  simp only [app, Spec.inlineAll, Spec.inline, List.append_assoc]

/-- Two levels of groups around two nodes that do not commute. -/
example : Spec.inlineAll [Node.group { attrs := [] } [adder, .group { attrs := [] } [doubler]]]
      = [adder, doubler] ∧
    processList ratArith 2 [Node.group { attrs := [] } [adder, .group { attrs := [] } [doubler]]]
      [.fin 1, .fin 2, .fin 3] 3 = .ok [.fin 4, .fin 6, .fin 8] :=
  ⟨rfl, by decide +kernel⟩

end CLF
