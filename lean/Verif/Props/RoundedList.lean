import Verif.Lemmas.RoundedList

/-! # Property C133: whole process lists in IEEE arithmetic -/

set_option linter.unusedSectionVars false

namespace CLF

variable {K : Type} [Field K] [LinearOrder K] [IsStrictOrderedRing K] [FloorRing K]

/-- C133: without rounding, the list is the exact one. -/
theorem C133_exact (A : Arith K) (hA : A.Exact) (compat : ℕ) (t : Base K → Fmt) (ns : List (Node K)) (values : List (Flt K)) (stride : ℕ) :
    processListR ⟨unrounded, t, A⟩ compat ns values stride = processList A compat ns values stride := by
  have h := nodesR_exact hA compat t stride ns
  have hf := exact_f32 hA t
  unfold Evaluator.exact at h hf
  simp only at hf
  unfold processListR processList
  simp only [hf, h]

theorem copyR (R : Rounding K) (pixels : List (Fin 3 → K)) (q : (Fin 3 → K) → Fin 3 → K)
    (h : ∀ p ∈ pixels, ∀ i, R single (.fin (p i)) = .fin (q p i)) : (Spec.rgb pixels).map (R single) = Spec.rgb (pixels.map q) := by
  rw [Spec.rgb, Spec.rgb, List.map_flatten, List.map_map, List.map_map]
  congr 1
  refine List.map_congr_left fun p hp => ?_
  simp only [Function.comp_apply, Spec.fins, List.map_ofFn]
  congr 1
  funext i
  exact h p hp i

theorem isSingle_ieee {x : K} (h : Spec.IsSingle x) : ieee single (.fin x) = .fin x := by
  unfold Spec.IsSingle at h
  unfold ieee
  exact h

theorem copy_rgb (pixels : List (Fin 3 → K)) (h : ∀ p ∈ pixels, ∀ i, Spec.IsSingle (p i)) :
    (Spec.rgb pixels).map (ieee single) = Spec.rgb pixels := by
  have := copyR ieee pixels id fun p hp i => isSingle_ieee (h p hp i)
  rwa [List.map_id] at this

theorem copy_any (pixels : List (Fin 3 → K)) (h : ∀ p ∈ pixels, ∀ i, |p i| ≤ 2 ^ 120) :
    (Spec.rgb pixels).map (ieee single) = Spec.rgb (pixels.map fun p i => single.near (p i)) ∧
      ∀ p ∈ pixels, ∀ i, Spec.IsSingle (single.near (p i)) ∧ |single.near (p i) - p i| ≤ |p i| / 2 ^ 24 + 2 ^ (-150 : ℤ) := by
  have hs : ∀ p ∈ pixels, ∀ i, ieee single (.fin (p i)) = .fin (single.near (p i)) := fun p hp i =>
    single_fin ((h p hp i).trans (pow_le_pow_right₀ one_le_two (by norm_num)))
  refine ⟨copyR ieee pixels (fun p i => single.near (p i)) hs, fun p hp i => ⟨isSingle_near ?_, ?_⟩⟩
  · have := hs p hp i
    unfold ieee at this
    exact this
  · have := single_rounder.err (p i)
    rw [div_eq_mul_one_div]
    exact this

/-- C133: pixels of `float32` numbers through a list of Range, Matrix, LUT1D, LUT3D, CDL, Gamma and Log nodes, in IEEE arithmetic.  The
list gives pixels of finite `float32` numbers that are off from the composition of the maps of the nodes by no
more than the errors of the nodes, each magnified by the steepness of the nodes after it. -/
theorem C133_chain (E : Evaluator K) (hE : E.rounding = ieee) (compat : ℕ) (ns : List (Node K)) (ss : List (Spec.Stage K))
    (h : List.Forall₂ (Implements E) ns ss) (hby : ∀ n ∈ ns, n.attr "bypass" = none) (B e : K) (hb : Spec.Budget ss B 0 e)
    (pixels : List (Fin 3 → K)) (hp : ∀ p ∈ pixels, ∀ i, Spec.IsSingle (p i) ∧ |p i| ≤ B) :
    ∃ g : (Fin 3 → K) → Fin 3 → K, processListR E compat ns (Spec.rgb pixels) 3 = .ok (Spec.rgb (pixels.map g)) ∧
      ∀ p ∈ pixels, ∀ i, Spec.IsSingle (g p i) ∧ |g p i - Spec.evalChain ss p i| ≤ e := by
  obtain ⟨r, g, h1, h2, h3⟩ := runs_chain hE compat false h hby hb none pixels id id
    (fun p hp' => ⟨hp p hp', fun i => by simp⟩) (Spec.rgb pixels) true
  refine ⟨g, ?_, fun p hp' i => ⟨(h3 p hp').1 i, (h3 p hp').2 i⟩⟩
  unfold processListR
  rw [List.map_id] at h1
  rw [hE, copy_rgb pixels fun p hp' i => (hp p hp' i).1]
  simp only [h1, py_ok_bind, py_pure, h2]

/-- C133: the same for any numbers; the copy into a `float32` array costs one rounding more. -/
theorem C133_input (E : Evaluator K) (hE : E.rounding = ieee) (compat : ℕ) (ns : List (Node K)) (ss : List (Spec.Stage K))
    (h : List.Forall₂ (Implements E) ns ss) (hby : ∀ n ∈ ns, n.attr "bypass" = none) (B e : K) (hB : B ≤ 2 ^ 120)
    (hb : Spec.Budget ss (2 * B + 1) (B / 2 ^ 24 + 2 ^ (-150 : ℤ)) e)
    (pixels : List (Fin 3 → K)) (hp : ∀ p ∈ pixels, ∀ i, |p i| ≤ B) :
    ∃ g : (Fin 3 → K) → Fin 3 → K, processListR E compat ns (Spec.rgb pixels) 3 = .ok (Spec.rgb (pixels.map g)) ∧
      ∀ p ∈ pixels, ∀ i, Spec.IsSingle (g p i) ∧ |g p i - Spec.evalChain ss p i| ≤ e := by
  obtain ⟨c1, c2⟩ := copy_any pixels fun p hp' i => (hp p hp' i).trans hB
  have hu : ∀ p ∈ pixels, Small (2 * B + 1) (fun i => single.near (p i)) ∧
      Off (B / 2 ^ 24 + 2 ^ (-150 : ℤ)) (fun i => single.near (p i)) (id p) := by
    intro p hp'
    have hμ := (two_zpow_pos (K := K) (-150)).le
    have k : ∀ i, |single.near (p i) - p i| ≤ B / 2 ^ 24 + 2 ^ (-150 : ℤ) := fun i => by
      refine (c2 p hp' i).2.trans (add_le_add_left ?_ _)
      exact div_le_div_of_nonneg_right (hp p hp' i) (by positivity)
    refine ⟨fun i => ⟨(c2 p hp' i).1, ?_⟩, k⟩
    have := linear_out (k := 20) ((abs_nonneg _).trans (hp p hp' i)) le_rfl (hp p hp' i)
      ((k i).trans (le_mul_of_one_le_left (by have := (abs_nonneg _).trans (hp p hp' i); positivity) (by norm_num)))
    exact this.2
  obtain ⟨r, g, h1, h2, h3⟩ := runs_chain hE compat false h hby hb none pixels (fun p i => single.near (p i)) id
    hu (Spec.rgb (pixels.map fun p i => single.near (p i))) true
  refine ⟨g, ?_, fun p hp' i => ⟨(h3 p hp').1 i, (h3 p hp').2 i⟩⟩
  unfold processListR
  rw [hE, c1]
  simp only [h1, py_ok_bind, py_pure, h2]

/-- A node alone that is not bypassed. -/
theorem run_one (E : Evaluator K) (compat stride : ℕ) (n : Node K) (hn : n.attr "bypass" = none) (v : List (Flt K)) :
    (do let r ← runNodesR E compat stride false none [n] ⟨v, v, true⟩; pure r.out : Py (List (Flt K)))
      = (do let r ← n.processR E compat stride v; pure r.out) := by
  unfold runNodesR
  simp only [hn, Option.isNone_none, Bool.true_or, if_true]
  cases n.processR E compat stride v with
  | error e => rfl
  | ok r => simp only [py_ok_bind, py_pure, runNodesR, Res.step]

/-- The loop is the same in a group where nothing is bypassed, and only hands the argument on. -/
theorem run_group (E : Evaluator K) (compat stride : ℕ) (ns : List (Node K)) (hby : ∀ n ∈ ns, n.attr "bypass" = none) (g : Bool) :
    ∀ (prev prev' : Option Depth) (s : Res K),
      runNodesR E compat stride g prev ns s = runNodesR E compat stride false prev' ns s := by
  induction ns with
  | nil => intro _ _ _; rw [runNodesR, runNodesR]
  | cons n ns ih =>
    intro prev prev' s
    unfold runNodesR
    have hn := hby n (by simp)
    simp only [hn, Option.isNone_none, Bool.true_or, if_true]
    congr 1
    funext s'
    exact ih (fun n' h => hby n' (by simp [h])) _ _ _

/-- C133: nodes in a Group, or in a file that is referred to, are evaluated as they would be in the list itself.  This needs no
assumption on the nodes other than that none is bypassed. -/
theorem C133_group (E : Evaluator K) (hE : E.rounding = ieee) (compat : ℕ) (ns : List (Node K)) (b : Base K)
    (hg : b.attrs.get? "bypass" = none) (hby : ∀ n ∈ ns, n.attr "bypass" = none) (w : Bool) (stride : ℕ)
    (values : List (Flt K)) :
    processListR E compat [.group b ns] values stride = processListR E compat ns values stride ∧
      processListR E compat [.ref b w ns] values stride = processListR E compat ns values stride := by
  have idem : (values.map (E.rounding single)).map (E.rounding single) = values.map (E.rounding single) := by
    rw [hE, List.map_map]
    refine List.map_congr_left fun x _ => ?_
    exact single_idem x
  constructor
  · unfold processListR
    rw [run_one E compat stride (.group b ns) hg]
    simp only [Node.processR, run_group E compat stride ns hby true none none]
  · unfold processListR
    rw [run_one E compat stride (.ref b w ns) hg]
    simp only [Node.processR, idem]
    generalize runNodesR E compat stride false none ns _ = r
    cases r <;> rfl

/-! ### An instance -/

/-- Clamps to [0, 1]. -/
def unitRange : Base ℚ where
  attrs := [("inBitDepth", .str "32f"), ("outBitDepth", .str "32f")]
  values := [("minInValue", .fin 0), ("maxInValue", .fin 1), ("minOutValue", .fin 0), ("maxOutValue", .fin 1)]

/-- Takes half of each channel and a quarter of the two others. -/
def mixMatrix (i j : Fin 3) : ℚ := if i = j then 1 / 2 else 1 / 4

def mixNode : Base ℚ where
  attrs := [("inBitDepth", .str "32f"), ("outBitDepth", .str "32f")]
  elements := [.array { dims := [3, 3], values := Spec.rowMajor fun i j => .fin (mixMatrix i j) }]

/-- A curve through 0, 1/4, 1. -/
def curveTable (k : Fin 3) (_ : Fin 1) : ℚ := ((k : ℕ) : ℚ) ^ 2 / 4

def curveNode : Base ℚ where
  attrs := [("inBitDepth", .str "32f"), ("outBitDepth", .str "32f"), ("interpolation", .str "linear")]
  elements := [.array { dims := [3, 1], values := Spec.rowMajor fun i j => .fin (curveTable i j) }]

theorem unitNumber_single (x : ℚ) (h : x = 0 ∨ x = 1) : Spec.IsSingle x := by
  unfold Spec.IsSingle
  rcases h with rfl | rfl <;> decide +kernel

theorem unitRange_implements (E : Evaluator ℚ) : Implements E (.leaf .range unitRange) (.clamp 0 1 0 1) := by
  have h0 : Spec.PixelNumber (.str "32f") (0 : ℚ) := .inr ⟨rfl, unitNumber_single 0 (.inl rfl)⟩
  have h1 : Spec.PixelNumber (.str "32f") (1 : ℚ) := .inr ⟨rfl, unitNumber_single 1 (.inr rfl)⟩
  exact .range (din := .str "32f") (dout := .str "32f") (by constructor <;> rfl) (.inl rfl)
    ⟨h0, h1, h0, h1, zero_lt_one, zero_le_one⟩ rfl le_rfl le_rfl

theorem mixNode_implements (E : Evaluator ℚ) (ht : E.table mixNode = single) :
    Implements E (.leaf .matrix mixNode) (.linear mixMatrix fun _ => 0) :=
  .matrix ⟨rfl, rfl, _, [], rfl, rfl, rfl⟩ (.inr (.inl ht))

theorem curveNode_implements (E : Evaluator ℚ) :
    Implements E (.leaf .lut1d curveNode) (.curves 1 2 fun ch k => curveTable k (Spec.column 0 ch)) := by
  refine .lut1d (din := .str "32f") ⟨rfl, rfl, by decide, rfl, rfl, rfl⟩ ⟨⟨[], rfl⟩, rfl, .inl rfl⟩ ?_ (by norm_num) (by norm_num)
  unfold Spec.IsSingle
  decide +kernel

theorem mix_curve_budget : ∃ e ≤ (1 : ℚ) / 10 ^ 5, Spec.Budget
    [.clamp 0 1 0 1, .linear mixMatrix fun _ => 0, .curves 1 2 fun ch k => curveTable k (Spec.column 0 ch)] 1000 0 e := by
  refine ⟨_, ?_, .cons .clamp (.cons (.linear (N := 1) (T := 0) ?_ ?_ ?_) (.cons (.curves (J := 3 / 4) (C := 1) ?_ ?_) .nil))⟩
  · norm_num
  · decide +kernel
  · simp
  · norm_num
  · intro i k hk
    obtain rfl | rfl : k = 0 ∨ k = 1 := by omega
    · norm_num [curveTable]
    · norm_num [curveTable]
  · decide +kernel

/-- Clamping, mixing and a curve, on all pixels of `float32` numbers up to 1000: the result is right up to 1/100000. -/
example (lib : Arith ℚ) (pixels : List (Fin 3 → ℚ))
    (hp : ∀ p ∈ pixels, ∀ i, Spec.IsSingle (p i) ∧ |p i| ≤ 1000) :
    ∃ g : (Fin 3 → ℚ) → Fin 3 → ℚ,
      processListR ⟨ieee, fun _ => single, lib⟩ 15 [.leaf .range unitRange, .leaf .matrix mixNode, .leaf .lut1d curveNode] (Spec.rgb pixels) 3
        = .ok (Spec.rgb (pixels.map g)) ∧
      ∀ p ∈ pixels, ∀ i, Spec.IsSingle (g p i) ∧
        |g p i - Spec.polyline ![0, 1 / 4, 1] ((∑ j, mixMatrix i j * min 1 (max 0 (p j))))| ≤ 1 / 10 ^ 5 := by
  obtain ⟨e, he, hb⟩ := mix_curve_budget
  obtain ⟨g, h1, h2⟩ := C133_chain ⟨ieee, fun _ => single, lib⟩ rfl 15
    [.leaf .range unitRange, .leaf .matrix mixNode, .leaf .lut1d curveNode] _
    (.cons (unitRange_implements _) (.cons (mixNode_implements _ rfl) (.cons (curveNode_implements _) .nil)))
    (by simp only [List.mem_cons, List.not_mem_nil, or_false]; rintro n (rfl | rfl | rfl) <;> rfl) 1000 e hb pixels hp
  refine ⟨g, h1, fun p hp' i => ⟨(h2 p hp' i).1, ?_⟩⟩
  have := ((h2 p hp' i).2).trans he
  have hc : (fun k => curveTable k (Spec.column 0 i)) = ![0, 1 / 4, 1] := by
    funext k
    fin_cases k <;> norm_num [curveTable]
  simp only [Spec.evalChain, Spec.Stage.eval, sub_zero, div_one, mul_one, zero_add, add_zero, hc] at this
  exact this

/-- A curve and a cube that swaps the channels round, on all pixels of numbers up to 1000. -/
example (lib : Arith ℚ) (pixels : List (Fin 3 → ℚ)) (hp : ∀ p ∈ pixels, ∀ i, |p i| ≤ 1000) :
    ∃ g : (Fin 3 → ℚ) → Fin 3 → ℚ,
      processListR ⟨ieee, fun _ => double, lib⟩ 15 [.leaf .lut1d curveNode, .leaf .lut3d (rotatedLut "trilinear")] (Spec.rgb pixels) 3
        = .ok (Spec.rgb (pixels.map g)) ∧
      ∀ p ∈ pixels, ∀ i, Spec.IsSingle (g p i) ∧ |g p i - Spec.evalChain [.curves 1 2 fun ch k => curveTable k (Spec.column 0 ch),
        .cube 1 2 fun ch i j k => rotatedCube i j k ch] p i| ≤ 1 / 10 ^ 3 := by
  have hc : Implements ⟨ieee, fun _ => double, lib⟩ (.leaf .lut3d (rotatedLut "trilinear")) (.cube 1 2 fun ch i j k => rotatedCube i j k ch) :=
    .lut3d (din := .str "32f") ⟨rfl, rfl, rfl, rfl, rfl⟩ ⟨⟨[3], rfl⟩, rfl⟩ rotatedCube_single (by norm_num) (by norm_num)
  have hs : ∀ f : Fin 3 → ℚ, |f 1 - f 0| ≤ 1 / 2 → |f 2 - f 1| ≤ 1 / 2 → Spec.StepsWithin f (1 / 2) := by
    intro f h1 h2 k hk
    obtain rfl | rfl : k = 0 ∨ k = 1 := by omega
    · exact h1
    · exact h2
  have hb : ∃ e ≤ (1 : ℚ) / 10 ^ 3, Spec.Budget [.curves 1 2 fun ch k => curveTable k (Spec.column 0 ch),
      .cube 1 2 fun ch i j k => rotatedCube i j k ch] (2 * 1000 + 1) (1000 / 2 ^ 24 + 2 ^ (-150 : ℤ)) e := by
    refine ⟨_, ?_, .cons (.curves (J := 3 / 4) (C := 1) ?_ ?_) (.cons (.cube (J := 1 / 2) (C := 1) ?_ ?_ ?_ ?_) .nil)⟩
    · norm_num
    · intro i k hk
      obtain rfl | rfl : k = 0 ∨ k = 1 := by omega
      · norm_num [curveTable]
      · norm_num [curveTable]
    · decide +kernel
    · exact fun i g b => hs _ (by revert i g b; decide +kernel) (by revert i g b; decide +kernel)
    · exact fun i g b => hs _ (by revert i g b; decide +kernel) (by revert i g b; decide +kernel)
    · exact fun i g b => hs _ (by revert i g b; decide +kernel) (by revert i g b; decide +kernel)
    · decide +kernel
  obtain ⟨e, he, hb⟩ := hb
  obtain ⟨g, h1, h2⟩ := C133_input ⟨ieee, fun _ => double, lib⟩ rfl 15 [.leaf .lut1d curveNode, .leaf .lut3d (rotatedLut "trilinear")] _
    (.cons (curveNode_implements _) (.cons hc .nil))
    (by simp only [List.mem_cons, List.not_mem_nil, or_false]; rintro n (rfl | rfl) <;> rfl) 1000 e (by norm_num) hb pixels hp
  exact ⟨g, h1, fun p hp' i => ⟨(h2 p hp' i).1, ((h2 p hp' i).2).trans he⟩⟩

/-- The same with tetrahedral interpolation. -/
example (lib : Arith ℚ) (pixels : List (Fin 3 → ℚ)) (hp : ∀ p ∈ pixels, ∀ i, |p i| ≤ 1000) :
    ∃ g : (Fin 3 → ℚ) → Fin 3 → ℚ,
      processListR ⟨ieee, fun _ => double, lib⟩ 15 [.leaf .lut1d curveNode, .leaf .lut3d (rotatedLut "tetrahedral")] (Spec.rgb pixels) 3
        = .ok (Spec.rgb (pixels.map g)) ∧
      ∀ p ∈ pixels, ∀ i, Spec.IsSingle (g p i) ∧ |g p i - Spec.evalChain [.curves 1 2 fun ch k => curveTable k (Spec.column 0 ch),
        .tetra 1 2 fun ch i j k => rotatedCube i j k ch] p i| ≤ 1 / 10 ^ 3 := by
  have hc : Implements ⟨ieee, fun _ => double, lib⟩ (.leaf .lut3d (rotatedLut "tetrahedral")) (.tetra 1 2 fun ch i j k => rotatedCube i j k ch) :=
    .tetra (din := .str "32f") ⟨rfl, rfl, rfl, rfl, rfl⟩ ⟨⟨[3], rfl⟩, rfl⟩ rotatedCube_single (by norm_num) (by norm_num)
  have hs : ∀ f : Fin 3 → ℚ, |f 1 - f 0| ≤ 1 / 2 → |f 2 - f 1| ≤ 1 / 2 → Spec.StepsWithin f (1 / 2) := by
    intro f h1 h2 k hk
    obtain rfl | rfl : k = 0 ∨ k = 1 := by omega
    · exact h1
    · exact h2
  have hb : ∃ e ≤ (1 : ℚ) / 10 ^ 3, Spec.Budget [.curves 1 2 fun ch k => curveTable k (Spec.column 0 ch),
      .tetra 1 2 fun ch i j k => rotatedCube i j k ch] (2 * 1000 + 1) (1000 / 2 ^ 24 + 2 ^ (-150 : ℤ)) e := by
    refine ⟨_, ?_, .cons (.curves (J := 3 / 4) (C := 1) ?_ ?_) (.cons (.tetra (J := 1 / 2) (C := 1) ?_ ?_ ?_ ?_) .nil)⟩
    · norm_num
    · intro i k hk
      obtain rfl | rfl : k = 0 ∨ k = 1 := by omega
      · norm_num [curveTable]
      · norm_num [curveTable]
    · decide +kernel
    · exact fun i g b => hs _ (by revert i g b; decide +kernel) (by revert i g b; decide +kernel)
    · exact fun i g b => hs _ (by revert i g b; decide +kernel) (by revert i g b; decide +kernel)
    · exact fun i g b => hs _ (by revert i g b; decide +kernel) (by revert i g b; decide +kernel)
    · decide +kernel
  obtain ⟨e, he, hb⟩ := hb
  obtain ⟨g, h1, h2⟩ := C133_input ⟨ieee, fun _ => double, lib⟩ rfl 15 [.leaf .lut1d curveNode, .leaf .lut3d (rotatedLut "tetrahedral")] _
    (.cons (curveNode_implements _) (.cons hc .nil))
    (by simp only [List.mem_cons, List.not_mem_nil, or_false]; rintro n (rfl | rfl) <;> rfl) 1000 e (by norm_num) hb pixels hp
  exact ⟨g, h1, fun p hp' i => ⟨(h2 p hp' i).1, ((h2 p hp' i).2).trans he⟩⟩

/-- And through a Group. -/
example (lib : Arith ℚ) (values : List (Flt ℚ)) :
    processListR ⟨ieee, fun _ => single, lib⟩ 15 [.group ⟨[("inBitDepth", .str "32f")], [], [], []⟩ [.leaf .range unitRange, .leaf .matrix mixNode]] values 3
      = processListR ⟨ieee, fun _ => single, lib⟩ 15 [.leaf .range unitRange, .leaf .matrix mixNode] values 3 :=
  (C133_group _ rfl 15 [.leaf .range unitRange, .leaf .matrix mixNode] _ rfl
    (by simp only [List.mem_cons, List.not_mem_nil, or_false]; rintro n (rfl | rfl) <;> rfl) false 3 values).1

end CLF
