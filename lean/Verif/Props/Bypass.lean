import Verif.Lemmas.Bypass
import Verif.Props.Nodes

/-! # Property C39: bypassed nodes -/

set_option linter.unusedSectionVars false

namespace CLF

variable {K : Type} [Field K] [LinearOrder K] [IsStrictOrderedRing K] [FloorRing K]

/-- C39: with the feature enabled, in a list whose depths agree and whose first and last
node are not bypassed, bypassed nodes (any number, in any places) act as the bound-free
Range between their depths. -/
theorem C39_conversion (A : Arith K) (hA : A.Exact) (compat stride : ℕ)
    (hf : hasFeature compat autodesk = true) (ns : List (Node K)) (hc : Spec.Chain ns)
    (hfirst : ∀ n, ns.head? = some n → n.attr "bypass" = none)
    (hlast : ∀ n, ns.getLast? = some n → n.attr "bypass" = none) (v : List (Flt K)) :
    processList A compat ns v stride = processList A compat (ns.map Spec.unbypass) v stride := by
  rw [processList_eq, processList_eq]
  cases ns with
  | nil => rfl
  | cons n rest =>
    obtain ⟨a, b, h1, h2, h3⟩ := hc.depths
    have hb := hfirst n rfl
    have hu : Spec.unbypass n = n := by unfold Spec.unbypass; rw [hb]
    rw [List.map_cons, hu, runOut, runOut, stepOut_plain (.inl hb), stepOut_plain (.inl hb), h2]
    congr 1
    funext w
    refine (unbypass_run A hA compat stride hf rest b w hc.tail h3 fun m hm => hlast m ?_).symm
    rw [List.getLast?_cons, hm]; rfl

/-- The values such a Range computes: code values rescaled from depth to depth. -/
theorem C39_range (A : Arith K) (hA : A.Exact) (compat stride : ℕ) (din dout : AVal)
    (v : List (Flt K)) :
    processList A compat [Spec.depthRange din dout] v stride
      = .ok (v.map (Spec.convert (some din) (some dout))) := by
  have hm : v.map A.f32 = v := by
    conv_rhs => rw [← List.map_id v]
    exact List.map_congr_left fun x _ => hA x
  rw [processList_eq, runOut, stepOut_plain (.inl rfl), depthRange_outOf A hA, hm]; rfl

/-- C39: with the feature disabled, taking the flags away changes nothing. -/
theorem C39_disabled (A : Arith K) (compat stride : ℕ) (hf : hasFeature compat autodesk = false)
    (ns : List (Node K)) (v : List (Flt K)) :
    processList A compat ns v stride = processList A compat (ns.map Spec.clearBypass) v stride := by
  rw [processList_eq, processList_eq]
  exact (clearBypass_run A compat stride hf ns none none _).symm

/-- C39: a bypassed first node is skipped, without any conversion. -/
theorem C39_first (A : Arith K) (compat stride : ℕ) (hf : hasFeature compat autodesk = true)
    (n : Node K) (rest : List (Node K)) (hn : n.attr "bypass" ≠ none)
    (hrest : ∀ m, rest.head? = some m → m.attr "bypass" = none) (v : List (Flt K)) :
    processList A compat (n :: rest) v stride = processList A compat rest v stride := by
  rw [processList_eq, processList_eq, runOut]
  have : stepOut A compat stride false none n rest (v.map A.f32) = .ok (v.map A.f32) := by
    unfold stepOut
    obtain ⟨x, hx⟩ := Option.ne_none_iff_exists'.mp hn
    simp [hx, hf]
  rw [this]
  exact runOut_head A compat stride rest (.inr hrest) _ _ _

/-- C39: a bypassed last node is skipped, without any conversion. -/
theorem C39_last (A : Arith K) (compat stride : ℕ)
    (hf : hasFeature compat autodesk = true) (n : Node K) (ns : List (Node K))
    (hn : n.attr "bypass" ≠ none)
    (hns : ∀ m, ns.getLast? = some m → m.attr "bypass" = none) (v : List (Flt K)) :
    processList A compat (ns ++ [n]) v stride = processList A compat ns v stride := by
  rw [processList_eq, processList_eq]
  have key : ∀ (ns : List (Node K)) (prev : Option Depth) (w : List (Flt K)),
      (∀ m, ns.getLast? = some m → m.attr "bypass" = none) →
      runOut A compat stride false prev (ns ++ [n]) w = runOut A compat stride false prev ns w := by
    intro ns
    induction ns with
    | nil =>
      intro prev w _
      obtain ⟨x, hx⟩ := Option.ne_none_iff_exists'.mp hn
      have : stepOut A compat stride false prev n [] w = .ok w := by
        unfold stepOut
        cases prev <;> simp [hx, hf]
      rw [List.nil_append, runOut, runOut, this]; rfl
    | cons m rest ih =>
      intro prev w hl
      have hs : stepOut A compat stride false prev m (rest ++ [n]) w
          = stepOut A compat stride false prev m rest w := by
        cases rest with
        | nil => rw [stepOut_plain (.inl (hl m rfl)), stepOut_plain (.inl (hl m rfl))]
        | cons k rest => cases prev <;> rfl
      rw [List.cons_append, runOut, runOut, hs]
      congr 1
      funext u
      exact ih _ u fun k hk => hl k (by rw [List.getLast?_cons, hk]; rfl)
  exact key ns none _ hns

/-- A Range from `din` to `dout` with the given extra attributes. -/
def hop (din dout : String) (extra : Dict AVal) : Node ℚ :=
  .leaf .range
    { attrs := [("inBitDepth", .str din), ("outBitDepth", .str dout), ("style", .str "clamp")] ++ extra
      values := [("maxInValue", .fin 1), ("maxOutValue", .fin 1)] }

/-- Two bypassed nodes in the middle of a list. -/
def hops : List (Node ℚ) :=
  [hop "32f" "10i" [], hop "10i" "8i" [("bypass", .bool true)],
    hop "8i" "32f" [("bypass", .bool true)], hop "32f" "32f" []]

example : Spec.Chain hops ∧ (∀ n, hops.head? = some n → n.attr "bypass" = none) ∧
    (∀ n, hops.getLast? = some n → n.attr "bypass" = none) ∧ hasFeature 1 autodesk = true ∧
    ratArith.Exact ∧
    processList ratArith 1 hops [.fin (1 / 2046), .fin (5 / 7)] 0
      ≠ processList ratArith 0 hops [.fin (1 / 2046), .fin (5 / 7)] 0 := by
  refine ⟨.cons rfl rfl rfl (.cons rfl rfl rfl (.cons rfl rfl rfl (.single rfl rfl))), ?_, ?_, rfl,
    fun _ => rfl, by decide +kernel⟩
  · intro n hn; cases hn; rfl
  · intro n hn; cases hn; rfl

/-- A bypassed first and last node. -/
example : (hop "32f" "8i" [("bypass", .bool true)]).attr "bypass" ≠ none ∧
    processList ratArith 1 [hop "32f" "8i" [("bypass", .bool true)], doubler] [.fin 1, .fin 2, .fin 3] 3
      = .ok [.fin 2, .fin 4, .fin 6] ∧
    processList ratArith 1 [doubler, hop "32f" "8i" [("bypass", .bool true)]] [.fin 1, .fin 2, .fin 3] 3
      = .ok [.fin 2, .fin 4, .fin 6] := by
  decide +kernel

end CLF
