import Verif.Lemmas.Nodes

/-! # Lemmas: bypassed nodes -/

set_option linter.unusedSectionVars false

namespace CLF

variable {K : Type} [Field K] [LinearOrder K] [IsStrictOrderedRing K] [FloorRing K]

/-- The bound-free `noClamp` Range as a map. -/
theorem range_convert (A : Arith K) (hA : A.Exact) (b : Base K) (din dout : AVal)
    (hin : b.attrs.get? "inBitDepth" = some din) (hout : b.attrs.get? "outBitDepth" = some dout)
    (hv : b.values = []) (hd : b.attrs.get? "defaultRange" = none) (v : List (Flt K)) :
    rangeProcess A b v
      = .ok ⟨v.map (Spec.convert (some din) (some dout)), v.map (Spec.convert (some din) (some dout)),
          true⟩ := by
  have hn : ∀ k d, rangeBound b k d = none := by
    intro k d; simp [rangeBound, hv, Dict.get?]
  rw [rangeProcess_eq A b din dout v hin hout _ rfl none none none none
    (by simp [hd, hn]) (by simp [hd, hn]) (by simp [hd, hn]) (by simp [hd, hn])]
  rw [py_mapM_ok _ (Spec.convert (some din) (some dout))]
  · rfl
  · intro x _
    unfold rangeStep
    simp only [hA _, py_pure, py_ok_bind]
    congr 1
    cases x with
    | fin x =>
      rw [toNormalized_fin, toDepth_fin, convert_fin, bitDepthSize_eq_fullScale,
        bitDepthSize_eq_fullScale]
    | inf s => rw [toNormalized_inf, toDepth_inf]; rfl
    | nan => rw [toNormalized_nan, toDepth_nan]; rfl

theorem convert_same (d : Depth) (x : Flt K) : Spec.convert d d x = x := by
  cases x with
  | fin x => rw [convert_fin, div_mul_cancel₀ _ (fullScale_ne d)]
  | inf s => rfl
  | nan => rfl

theorem adapter_convert (A : Arith K) (hA : A.Exact) (din dout : AVal) (v : List (Flt K)) :
    (do let r ← rangeProcess A (adapterBase (some din) (some dout)) v; .ok r.out : Py _)
      = .ok (v.map (Spec.convert (some din) (some dout))) := by
  rw [range_convert A hA _ din dout rfl rfl rfl rfl]; rfl

theorem depthRange_outOf (A : Arith K) (hA : A.Exact) (compat stride : ℕ) (din dout : AVal)
    (v : List (Flt K)) :
    (Spec.depthRange din dout : Node K).outOf A compat stride v
      = .ok (v.map (Spec.convert (some din) (some dout))) := by
  unfold Spec.depthRange
  rw [outOf_leaf]
  simp only [leafProcess]
  rw [range_convert A hA _ din dout rfl rfl rfl rfl]; rfl

theorem Spec.Chain.depths {n : Node K} {rest : List (Node K)} (h : Spec.Chain (n :: rest)) :
    ∃ a b, n.inDepth = some a ∧ n.outDepth = some b ∧
      ∀ m, rest.head? = some m → m.inDepth = some b := by
  cases h with
  | single h1 h2 => exact ⟨_, _, h1, h2, fun m hm => by cases hm⟩
  | cons h1 h2 h3 _ => exact ⟨_, _, h1, h2, fun m hm => by cases hm; exact h3⟩

theorem Spec.Chain.tail {n : Node K} {rest : List (Node K)} (h : Spec.Chain (n :: rest)) :
    Spec.Chain rest := by
  cases h with
  | single _ _ => exact .nil
  | cons _ _ _ h => exact h

theorem unbypass_depths (n : Node K) :
    (Spec.unbypass n).inDepth = n.inDepth ∧ (Spec.unbypass n).outDepth = n.outDepth ∧
      ((∃ a b, n.inDepth = some a ∧ n.outDepth = some b) → (Spec.unbypass n).attr "bypass" = none) := by
  unfold Spec.unbypass
  split
  · next h1 h2 h3 =>
    rw [h2, h3]
    exact ⟨rfl, rfl, fun _ => rfl⟩
  · next h =>
    refine ⟨rfl, rfl, ?_⟩
    rintro ⟨a, b, h2, h3⟩
    cases h1 : n.attr "bypass" with
    | none => rfl
    | some x => exact (h x a b h1 h2 h3).elim

theorem unbypass_run (A : Arith K) (hA : A.Exact) (compat stride : ℕ)
    (hf : hasFeature compat autodesk = true) (ns : List (Node K)) :
    ∀ (d : AVal) (v : List (Flt K)), Spec.Chain ns →
      (∀ m, ns.head? = some m → m.inDepth = some d) →
      (∀ n, ns.getLast? = some n → n.attr "bypass" = none) →
      runOut A compat stride false (some (some d)) (ns.map Spec.unbypass) v
        = runOut A compat stride false (some (some d)) ns v := by
  induction ns with
  | nil => intro d v _ _ _; rfl
  | cons n rest ih =>
    intro d v hc hd hl
    obtain ⟨a, b, h1, h2, h3⟩ := hc.depths
    have had : a = d := by
      have := hd n rfl
      rw [h1] at this; cases this; rfl
    subst had
    obtain ⟨u1, u2, u3⟩ := unbypass_depths n
    rw [List.map_cons, runOut, runOut, u2, h2]
    have ih' := fun w => ih b w hc.tail h3 (fun m hm => hl m (by
      rw [List.getLast?_cons, hm]; rfl))
    have hs : stepOut A compat stride false (some (some a)) (Spec.unbypass n)
        (rest.map Spec.unbypass) v = stepOut A compat stride false (some (some a)) n rest v := by
      rw [stepOut_plain (.inl (u3 ⟨a, b, h1, h2⟩))]
      cases hby : n.attr "bypass" with
      | none =>
        rw [stepOut_plain (.inl hby)]
        have : Spec.unbypass n = n := by unfold Spec.unbypass; rw [hby]
        rw [this]
      | some x =>
        have hu : Spec.unbypass n = Spec.depthRange a b := by
          unfold Spec.unbypass; rw [hby, h1, h2]
        rw [hu, depthRange_outOf A hA]
        cases rest with
        | nil =>
          have := hl n rfl
          rw [hby] at this; cases this
        | cons m rest =>
          have hm := h3 m rfl
          unfold stepOut
          simp only [hby, hf, Option.isNone_some, Bool.not_true, Bool.and_false, Bool.or_false,
            Bool.false_eq_true, if_false, hm]
          split_ifs with hne
          · rw [adapter_convert A hA]
          · have : a = b := by
              by_contra hc
              exact hne (by simpa using hc)
            subst this
            congr 1
            conv_rhs => rw [← List.map_id v]
            exact List.map_congr_left fun x _ => convert_same _ x
    rw [hs]
    cases stepOut A compat stride false (some (some a)) n rest v with
    | error e => rfl
    | ok w => exact ih' w

/-! ### Clearing the flag -/

theorem get?_filter {α : Type} (d : Dict α) (k : String) (hk : k ≠ "bypass") :
    Dict.get? (d.filter fun p => p.1 ≠ "bypass") k = Dict.get? d k := by
  induction d with
  | nil => rfl
  | cons p d ih =>
    obtain ⟨k', v⟩ := p
    by_cases h : k' = "bypass"
    · subst h
      rw [List.filter_cons_of_neg (by simp), ih, Dict.get?, if_neg (Ne.symm hk)]
    · rw [List.filter_cons_of_pos (by simpa using h)]
      simp only [Dict.get?, ih]

theorem dropBypass_attrE (b : Base K) (k : String) (hk : k ≠ "bypass") :
    (Spec.dropBypass b).attrE k = b.attrE k := by
  simp only [Base.attrE, Dict.getE, Spec.dropBypass, get?_filter _ k hk]

theorem dropBypass_styleOf (b : Base K) (k : String) (hk : k ≠ "bypass") :
    (Spec.dropBypass b).styleOf k = b.styleOf k := by
  simp only [Base.styleOf, Spec.dropBypass, get?_filter _ k hk]

theorem dropBypass_flag (b : Base K) (k : String) (hk : k ≠ "bypass") :
    (Spec.dropBypass b).flag k = b.flag k := by
  simp only [Base.flag, Spec.dropBypass, get?_filter _ k hk]

theorem dropBypass_leaf (A : Arith K) (compat stride : ℕ) (k : Kind K) (b : Base K)
    (v : List (Flt K)) :
    leafProcess A compat k (Spec.dropBypass b) v stride = leafProcess A compat k b v stride := by
  have e1 := dropBypass_attrE b "inBitDepth" (by decide)
  have e2 := dropBypass_attrE b "outBitDepth" (by decide)
  have e3 := dropBypass_styleOf b "style" (by decide)
  have e4 := dropBypass_styleOf b "interpolation" (by decide)
  have e5 := dropBypass_flag b "halfDomain" (by decide)
  have e6 : (Spec.dropBypass b).array = b.array := rfl
  have e7 : (Spec.dropBypass b).indexMaps = b.indexMaps := rfl
  have e8 : (Spec.dropBypass b).attrs.get? "style" = b.attrs.get? "style" :=
    get?_filter _ _ (by decide)
  have e9 : (Spec.dropBypass b).attrs.get? "defaultRange" = b.attrs.get? "defaultRange" :=
    get?_filter _ _ (by decide)
  have e10 : ∀ k d, rangeBound (Spec.dropBypass b) k d = rangeBound b k d := fun _ _ => rfl
  cases k <;> simp only [leafProcess, rangeProcess, matrixProcess, lut1dProcess, lut3dProcess,
    cdlProcess, ecProcess, gammaProcess, logProcess, e1, e2, e3, e4, e5, e6, e7, e8, e9, e10]

theorem clearBypass_outOf (A : Arith K) (compat stride : ℕ) (n : Node K) (v : List (Flt K)) :
    (Spec.clearBypass n).outOf A compat stride v = n.outOf A compat stride v := by
  cases n with
  | leaf k b => simp only [Spec.clearBypass, outOf_leaf, dropBypass_leaf]
  | group b cs => rfl
  | ref b w ns => rfl
  | refMissing b w => rfl

theorem clearBypass_run (A : Arith K) (compat stride : ℕ)
    (hf : hasFeature compat autodesk = false) (ns : List (Node K)) :
    ∀ (prev prev' : Option Depth) (v : List (Flt K)),
      runOut A compat stride false prev (ns.map Spec.clearBypass) v
        = runOut A compat stride false prev' ns v := by
  induction ns with
  | nil => intro _ _ v; rfl
  | cons n rest ih =>
    intro prev prev' v
    rw [List.map_cons, runOut, runOut, stepOut_plain (.inr ⟨rfl, hf⟩),
      stepOut_plain (.inr ⟨rfl, hf⟩), clearBypass_outOf]
    congr 1
    funext w
    exact ih _ _ w

end CLF
