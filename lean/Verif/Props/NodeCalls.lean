import Verif.Model.NodeCalls
import Verif.Model.Write
import Verif.Model.Read
import Verif.Lemmas.Dict
import Verif.Lemmas.Flt
import Verif.Props.Nodes

/-!
# C105, C106: setters and getters of nodes

C105: getters return what was set last.  C106: it does not matter whether the bit depths or
the table are set first.
-/

set_option linter.unusedSectionVars false

namespace CLF

variable {K : Type} [Field K] [LinearOrder K] [IsStrictOrderedRing K] [FloorRing K]

/-! ## C105 -/

/-- What a call does to the attribute `k`: nothing, removing it, or setting it. -/
def Spec.attrEffect (k : String) : NodeCall K → Option (Option AVal)
  | .setAttribute k' v => if k' = k then some (some v) else none
  | .setInBitDepth d => if k = "inBitDepth" then some (some d) else none
  | .setOutBitDepth d => if k = "outBitDepth" then some (some d) else none
  | .setStyle v => if k = "style" then some (some v) else none
  | .setDefaultRange v =>
    if k = "defaultRange" then
      some (if v = .str "" ∨ v = .bool false then none else some v)
    else none
  | _ => none

/-- The value element `k` set by a call. -/
def Spec.valueEffect (k : String) : NodeCall K → Option (Flt K)
  | .addValueElement k' x => if k' = k then some x else none
  | .setMinInValue x => if k = "minInValue" then some x else none
  | .setMaxInValue x => if k = "maxInValue" then some x else none
  | .setMinOutValue x => if k = "minOutValue" then some x else none
  | .setMaxOutValue x => if k = "maxOutValue" then some x else none
  | _ => none

/-- The table set by a call: its dimensions and values. -/
def Spec.tableEffect : NodeCall K → Option (List ℕ × List (Flt K))
  | .setLut1d n vs => some ([vs.length / n, n], vs)
  | .setLut3d ds vs => some (ds ++ [3], vs)
  | .setMatrix ds vs => some (ds, vs)
  | _ => none

/-- The index maps set by a call. -/
def Spec.mapEffect : NodeCall K → List (List (Flt K) × List (Flt K))
  | .setIndexMaps r none => [r]
  | .setIndexMaps r (some (g, b)) => [r, g, b]
  | _ => []

/-- The last effect among those of the calls. -/
def Spec.last {α : Type} (effect : NodeCall K → Option α) (calls : List (NodeCall K)) : Option α :=
  (calls.filterMap effect).getLast?

theorem last_nil {α : Type} (f : NodeCall K → Option α) : Spec.last f [] = none := rfl

theorem last_snoc {α : Type} (f : NodeCall K → Option α) (cs : List (NodeCall K)) (c : NodeCall K) :
    Spec.last f (cs ++ [c]) = (f c).orElse fun _ => Spec.last f cs := by
  unfold Spec.last
  rw [List.filterMap_append]
  cases h : f c with
  | none => simp [h]
  | some v => simp [h]

theorem nodeRun_snoc (b : Base K) (cs : List (NodeCall K)) (c : NodeCall K) :
    nodeRun b (cs ++ [c]) = nodeRun b cs >>= fun b' => nodeStep b' c := by
  unfold nodeRun
  rw [List.foldlM_append]
  congr 1
  funext b'
  rw [List.foldlM_cons]
  cases nodeStep b' c <;> rfl

theorem Dict.get?_del {α : Type} (d : Dict α) (k k' : String) :
    (d.del k).get? k' = if k' = k then none else d.get? k' := by
  induction d with
  | nil => simp [Dict.del, Dict.get?]
  | cons p d ih =>
    obtain ⟨q, v⟩ := p
    unfold Dict.del at ih ⊢
    by_cases hq : q = k
    · subst hq
      rw [List.filter_cons_of_neg (by simp), ih]
      by_cases hk : k' = q
      · simp [hk]
      · rw [if_neg hk, if_neg hk, Dict.get?, if_neg (fun h => hk h.symm)]
    · rw [List.filter_cons_of_pos (by simp [hq])]
      by_cases hk : k' = k
      · rw [if_pos hk, Dict.get?, if_neg (fun h => hq (h.trans hk)), ih, if_pos hk]
      · rw [if_neg hk, Dict.get?, Dict.get?, ih, if_neg hk]

theorem arrays_add (b : Base K) (e : Elem K) :
    arraysOf (b.addElement e).elements = arraysOf b.elements ++ arraysOf [e] := by
  unfold Base.addElement arraysOf
  rw [List.filterMap_append]

theorem array_added (b : Base K) (a : Arr K) : (b.addElement (.array a)).array = .ok a := by
  unfold Base.array
  rw [arrays_add]
  have : arraysOf [Elem.array a] = [a] := rfl
  rw [this, List.getLast?_concat]

theorem maps_add (b : Base K) (e : Elem K) :
    (b.addElement e).indexMaps = b.indexMaps ++ (Base.indexMaps { b with elements := [e] }) := by
  unfold Base.addElement Base.indexMaps
  rw [List.filterMap_append]

/-- What one call does to the attributes. -/
theorem step_attrs (b b' : Base K) (c : NodeCall K) (h : nodeStep b c = .ok b') (k : String) :
    b'.attrs.get? k = (Spec.attrEffect k c).getD (b.attrs.get? k) := by
  cases c with
  | setDefaultRange v =>
    simp only [nodeStep] at h
    unfold Spec.attrEffect
    dsimp only
    by_cases hv : v.truthy = true
    · rw [if_pos hv] at h
      injection h with h
      subst h
      have hn : ¬ (v = .str "" ∨ v = .bool false) := by
        rintro (rfl | rfl) <;> simp [AVal.truthy] at hv
      unfold Base.setAttribute
      rw [Dict.get?_set, if_neg hn]
      by_cases hk : k = "defaultRange"
      · subst hk; simp
      · rw [if_neg (fun h => hk h.symm), if_neg hk]; rfl
    · rw [if_neg hv] at h
      injection h with h
      subst h
      have hn : v = .str "" ∨ v = .bool false := by
        cases v with
        | str s => left; simpa [AVal.truthy] using hv
        | bool x => right; simpa [AVal.truthy] using hv
        | other s => simp [AVal.truthy] at hv
      show (b.attrs.del _).get? k = _
      rw [Dict.get?_del, if_pos hn]
      by_cases hk : k = "defaultRange"
      · subst hk; simp
      · rw [if_neg hk, if_neg hk]; rfl
  | setLut1d n vs =>
    obtain ⟨r, hr, h⟩ := py_bind_eq_ok.mp h
    injection h with h
    subst h
    rfl
  | setIndexMaps r gb =>
    injection h with h
    subst h
    cases gb with
    | none => rfl
    | some p => rfl
  | setAttribute k' v =>
    injection h with h
    subst h
    show (b.attrs.set k' v).get? k = _
    rw [Dict.get?_set]
    unfold Spec.attrEffect
    dsimp only
    by_cases hk : k' = k <;> simp [hk]
  | setInBitDepth d =>
    injection h with h
    subst h
    show (b.attrs.set _ d).get? k = _
    rw [Dict.get?_set]
    unfold Spec.attrEffect
    dsimp only
    by_cases hk : k = "inBitDepth"
    · subst hk; simp
    · rw [if_neg (fun h => hk h.symm), if_neg hk]; rfl
  | setOutBitDepth d =>
    injection h with h
    subst h
    show (b.attrs.set _ d).get? k = _
    rw [Dict.get?_set]
    unfold Spec.attrEffect
    dsimp only
    by_cases hk : k = "outBitDepth"
    · subst hk; simp
    · rw [if_neg (fun h => hk h.symm), if_neg hk]; rfl
  | setStyle d =>
    injection h with h
    subst h
    show (b.attrs.set _ d).get? k = _
    rw [Dict.get?_set]
    unfold Spec.attrEffect
    dsimp only
    by_cases hk : k = "style"
    · subst hk; simp
    · rw [if_neg (fun h => hk h.symm), if_neg hk]; rfl
  | _ =>
    injection h with h
    subst h
    rfl

theorem value_set (d : Dict (Flt K)) (k q : String) (x : Flt K) :
    (d.set q x).get? k = if k = q then some x else d.get? k := by
  rw [Dict.get?_set]
  by_cases h : k = q
  · rw [if_pos h.symm, if_pos h]
  · rw [if_neg (fun e => h e.symm), if_neg h]

/-- What one call does to the value elements. -/
theorem step_values (b b' : Base K) (c : NodeCall K) (h : nodeStep b c = .ok b') (k : String) :
    b'.values.get? k = (Spec.valueEffect k c).orElse fun _ => b.values.get? k := by
  cases c with
  | setDefaultRange v =>
    simp only [nodeStep] at h
    split at h <;> injection h with h <;> subst h <;> rfl
  | setLut1d n vs =>
    obtain ⟨r, hr, h⟩ := py_bind_eq_ok.mp h
    injection h with h
    subst h
    rfl
  | setIndexMaps r gb =>
    injection h with h
    subst h
    cases gb with
    | none => rfl
    | some p => rfl
  | addValueElement k' x =>
    injection h with h
    subst h
    show (b.values.set k' x).get? k = _
    rw [Dict.get?_set]
    unfold Spec.valueEffect
    by_cases hk : k' = k <;> simp [hk]
  | setMinInValue x =>
    injection h with h
    subst h
    show (b.values.set _ x).get? k = _
    rw [value_set]; unfold Spec.valueEffect; dsimp only; split <;> rfl
  | setMaxInValue x =>
    injection h with h
    subst h
    show (b.values.set _ x).get? k = _
    rw [value_set]; unfold Spec.valueEffect; dsimp only; split <;> rfl
  | setMinOutValue x =>
    injection h with h
    subst h
    show (b.values.set _ x).get? k = _
    rw [value_set]; unfold Spec.valueEffect; dsimp only; split <;> rfl
  | setMaxOutValue x =>
    injection h with h
    subst h
    show (b.values.set _ x).get? k = _
    rw [value_set]; unfold Spec.valueEffect; dsimp only; split <;> rfl
  | _ =>
    injection h with h
    subst h
    rfl

/-- What one call does to the table. -/
theorem step_array (b b' : Base K) (c : NodeCall K) (h : nodeStep b c = .ok b') :
    match Spec.tableEffect c with
    | some t => ∃ a, b'.array = .ok a ∧ (a.dims, a.values) = t
    | none => b'.array = b.array := by
  cases c with
  | setDefaultRange v =>
    simp only [nodeStep] at h
    split at h <;> injection h with h <;> subst h <;> rfl
  | setLut1d n vs =>
    obtain ⟨r, hr, h⟩ := py_bind_eq_ok.mp h
    injection h with h
    subst h
    have hr' : r = vs.length / n := by
      unfold pyDivNat at hr
      split at hr
      · cases hr
      · injection hr with hr; exact hr.symm
    subst hr'
    refine ⟨{
      dims := [vs.length / n, n], values := vs,
      integers := bitDepthIsInteger (b.attrs.get? "outBitDepth"),
      rawHalfs := b.flag "rawHalfs" }, ?_, rfl⟩
    exact array_added _ _
  | setLut3d ds vs =>
    injection h with h
    subst h
    refine ⟨{
      dims := ds ++ [3], values := vs,
      integers := bitDepthIsInteger (b.attrs.get? "outBitDepth") }, ?_, rfl⟩
    exact array_added _ _
  | setMatrix ds vs =>
    injection h with h
    subst h
    refine ⟨{
      dims := ds, values := vs,
      integers := bitDepthIsInteger (b.attrs.get? "outBitDepth") }, ?_, rfl⟩
    exact array_added _ _
  | setIndexMaps r gb =>
    injection h with h
    subst h
    show (CLF.setIndexMaps b r gb).array = b.array
    unfold Base.array CLF.setIndexMaps
    cases gb with
    | none =>
      rw [arrays_add]
      simp [arraysOf]
    | some p =>
      dsimp only
      rw [arrays_add, arrays_add, arrays_add]
      simp [arraysOf]
  | _ =>
    injection h with h
    subst h
    rfl

/-- What one call does to the index maps. -/
theorem step_maps (b b' : Base K) (c : NodeCall K) (h : nodeStep b c = .ok b') :
    b'.indexMaps.map (fun m => (m.inputs, m.outputs)) =
      b.indexMaps.map (fun m => (m.inputs, m.outputs)) ++ Spec.mapEffect c := by
  cases c with
  | setDefaultRange v =>
    simp only [nodeStep] at h
    split at h <;> injection h with h <;> subst h <;> simp [Spec.mapEffect, Base.setAttribute, Base.indexMaps]
  | setLut1d n vs =>
    obtain ⟨r, hr, h⟩ := py_bind_eq_ok.mp h
    injection h with h
    subst h
    rw [maps_add]
    simp [Spec.mapEffect, Base.indexMaps]
  | setIndexMaps r gb =>
    injection h with h
    subst h
    cases gb with
    | none =>
      show ((CLF.setIndexMaps b r none).indexMaps).map _ = _
      unfold CLF.setIndexMaps
      rw [maps_add]
      simp [Spec.mapEffect, Base.indexMaps]
    | some p =>
      show ((CLF.setIndexMaps b r (some p)).indexMaps).map _ = _
      unfold CLF.setIndexMaps
      dsimp only
      rw [maps_add, maps_add, maps_add]
      simp [Spec.mapEffect, Base.indexMaps]
  | _ =>
    injection h with h
    subst h
    simp [Spec.mapEffect, Base.setAttribute, Base.indexMaps, lut3dSetArray, CLF.setMatrix, Base.addElement]

/-- What one call does to the dynamic parameters. -/
theorem step_dyn (b b' : Base K) (c : NodeCall K) (h : nodeStep b c = .ok b') (n : String) :
    n ∈ b'.dyn ↔ n ∈ b.dyn ∨ c = .setDynamicParam n := by
  cases c with
  | setDefaultRange v =>
    simp only [nodeStep] at h
    split at h <;> injection h with h <;> subst h <;> simp [Base.setAttribute]
  | setLut1d n vs =>
    obtain ⟨r, hr, h⟩ := py_bind_eq_ok.mp h
    injection h with h
    subst h
    simp [Base.addElement]
  | setIndexMaps r gb =>
    injection h with h
    subst h
    cases gb <;> simp [CLF.setIndexMaps, Base.addElement]
  | setDynamicParam m =>
    injection h with h
    subst h
    simp only [List.mem_append, List.mem_singleton, NodeCall.setDynamicParam.injEq]
    rw [@eq_comm _ n m]
  | _ =>
    injection h with h
    subst h
    simp [Base.setAttribute, lut3dSetArray, CLF.setMatrix, Base.addElement]

/-- Induction along a run. -/
theorem nodeRun_induction {b : Base K} {P : List (NodeCall K) → Base K → Prop} (h0 : P [] b)
    (hs : ∀ cs c b₁ b₂, P cs b₁ → nodeStep b₁ c = .ok b₂ → P (cs ++ [c]) b₂) :
    ∀ (cs : List (NodeCall K)) (b' : Base K), nodeRun b cs = .ok b' → P cs b' := by
  intro cs
  induction cs using List.reverseRecOn with
  | nil =>
    intro b' h
    injection h with h
    exact h ▸ h0
  | append_singleton cs c ih =>
    intro b' h
    rw [nodeRun_snoc] at h
    obtain ⟨b₁, h1, h2⟩ := py_bind_eq_ok.mp h
    exact hs _ _ _ _ (ih _ h1) h2

/-- C105, attributes: after any calls, `getAttribute` gives what the last call touching that
attribute left, and otherwise what was there before. -/
theorem C105_attributes (b b' : Base K) (calls : List (NodeCall K)) (h : nodeRun b calls = .ok b')
    (k : String) :
    b'.getAttribute k = (Spec.last (Spec.attrEffect k) calls).getD (b.getAttribute k) := by
  revert h
  revert b'
  suffices hh : ∀ cs b', nodeRun b cs = .ok b' →
      b'.attrs.get? k = (Spec.last (Spec.attrEffect k) cs).getD (b.attrs.get? k) from hh calls
  refine nodeRun_induction rfl ?_
  intro cs c b₁ b₂ ih hc
  rw [step_attrs b₁ b₂ c hc, ih, last_snoc]
  cases Spec.attrEffect k c <;> rfl

/-- C105, value elements. -/
theorem C105_values (b b' : Base K) (calls : List (NodeCall K)) (h : nodeRun b calls = .ok b')
    (k : String) :
    b'.getValueElement k = (Spec.last (Spec.valueEffect k) calls).orElse
      fun _ => b.getValueElement k := by
  revert h
  revert b'
  suffices hh : ∀ cs b', nodeRun b cs = .ok b' →
      b'.values.get? k = (Spec.last (Spec.valueEffect k) cs).orElse fun _ => b.values.get? k from
    hh calls
  refine nodeRun_induction rfl ?_
  intro cs c b₁ b₂ ih hc
  rw [step_values b₁ b₂ c hc, ih, last_snoc]
  cases Spec.valueEffect k c <;> rfl

/-- C105, dynamic parameters: one is there exactly if it was there or was set. -/
theorem C105_dynamic (b b' : Base K) (calls : List (NodeCall K)) (h : nodeRun b calls = .ok b')
    (n : String) :
    b'.getDynamicParam n = true ↔
      b.getDynamicParam n = true ∨ NodeCall.setDynamicParam n ∈ calls := by
  unfold Base.getDynamicParam
  rw [List.contains_iff_mem, List.contains_iff_mem]
  revert h
  revert b'
  suffices hh : ∀ cs b', nodeRun b cs = .ok b' →
      (n ∈ b'.dyn ↔ n ∈ b.dyn ∨ NodeCall.setDynamicParam n ∈ cs) from hh calls
  refine nodeRun_induction (by simp) ?_
  intro cs c b₁ b₂ ih hc
  rw [step_dyn b₁ b₂ c hc, ih, List.mem_append, List.mem_singleton, or_assoc]
  constructor <;> rintro (h | h | h) <;> simp_all

/-- C105, tables: `getLUTDimensions` and `getLUTValues` give what the last setter stored. -/
theorem C105_table (b b' : Base K) (calls : List (NodeCall K)) (h : nodeRun b calls = .ok b') :
    match Spec.last Spec.tableEffect calls with
    | some (ds, vs) => b'.getLUTDimensions = .ok ds ∧ b'.getLUTValues = .ok vs
    | none => b'.getLUTDimensions = b.getLUTDimensions ∧ b'.getLUTValues = b.getLUTValues := by
  have key : ∀ cs b', nodeRun b cs = .ok b' →
      match Spec.last Spec.tableEffect cs with
      | some t => ∃ a, b'.array = .ok a ∧ (a.dims, a.values) = t
      | none => b'.array = b.array := by
    refine nodeRun_induction rfl ?_
    intro cs c b₁ b₂ ih hc
    have h2 := step_array b₁ b₂ c hc
    rw [last_snoc]
    cases ht : Spec.tableEffect c with
    | some t =>
      rw [ht] at h2
      exact h2
    | none =>
      rw [ht] at h2
      show match Spec.last Spec.tableEffect cs with | some t => _ | none => _
      cases hl : Spec.last Spec.tableEffect cs with
      | some t =>
        rw [hl] at ih
        simp only at ih h2 ⊢
        rw [h2]; exact ih
      | none =>
        rw [hl] at ih
        simp only at ih h2 ⊢
        rw [h2]; exact ih
  have hk := key calls b' h
  cases hl : Spec.last Spec.tableEffect calls with
  | none =>
    rw [hl] at hk
    simp only at hk ⊢
    unfold Base.getLUTDimensions Base.getLUTValues
    rw [hk]
    exact ⟨rfl, rfl⟩
  | some t =>
    rw [hl] at hk
    obtain ⟨a, ha, rfl⟩ := hk
    simp only
    unfold Base.getLUTDimensions Base.getLUTValues
    rw [ha]
    exact ⟨rfl, rfl⟩

/-- C105, index maps: they pile up; every call puts its maps behind those already there. -/
theorem C105_maps (b b' : Base K) (calls : List (NodeCall K)) (h : nodeRun b calls = .ok b')
    (channel : ℕ) :
    b'.getIndexMapValues channel =
      pyGet (b.indexMaps.map (fun m => (m.inputs, m.outputs)) ++ calls.flatMap Spec.mapEffect)
        channel := by
  have key : ∀ cs b', nodeRun b cs = .ok b' →
      b'.indexMaps.map (fun m => (m.inputs, m.outputs)) =
        b.indexMaps.map (fun m => (m.inputs, m.outputs)) ++ cs.flatMap Spec.mapEffect := by
    refine nodeRun_induction (by simp) ?_
    intro cs c b₁ b₂ ih hc
    rw [step_maps b₁ b₂ c hc, ih, List.flatMap_append, List.append_assoc]
    simp
  rw [← key calls b' h]
  unfold Base.getIndexMapValues pyGet
  rw [List.getElem?_map]
  cases b'.indexMaps[channel]? <;> rfl

/-- C105: on a node without index maps, `getIndexMapValues` gives what was set if index maps
are set once.  What is missing: setting them again. -/
theorem C105_partial (b b' : Base K) (before after : List (NodeCall K))
    (r : List (Flt K) × List (Flt K))
    (gb : Option ((List (Flt K) × List (Flt K)) × (List (Flt K) × List (Flt K))))
    (hb : b.indexMaps = []) (h1 : ∀ c ∈ before ++ after, ∀ r gb, c ≠ .setIndexMaps r gb)
    (h : nodeRun b (before ++ .setIndexMaps r gb :: after) = .ok b') (channel : ℕ) :
    b'.getIndexMapValues channel =
      match gb, channel with
      | _, 0 => .ok r
      | some (g, _), 1 => .ok g
      | some (_, bl), 2 => .ok bl
      | _, _ => .error .indexError := by
  have none_of : ∀ cs : List (NodeCall K), (∀ c ∈ cs, ∀ r gb, c ≠ .setIndexMaps r gb) →
      cs.flatMap Spec.mapEffect = [] := by
    intro cs hcs
    rw [List.flatMap_eq_nil_iff]
    intro c hc
    have := hcs c hc
    cases c with
    | setIndexMaps r gb => exact absurd rfl (this r gb)
    | _ => rfl
  rw [C105_maps b b' _ h, hb, List.flatMap_append, List.flatMap_cons,
    none_of before fun c hc => h1 c (List.mem_append_left _ hc),
    none_of after fun c hc => h1 c (List.mem_append_right _ hc)]
  cases gb with
  | none =>
    match channel with
    | 0 => rfl
    | 1 => rfl
    | n + 2 => cases n <;> rfl
  | some p =>
    obtain ⟨g, bl⟩ := p
    match channel with
    | 0 => rfl
    | 1 => rfl
    | 2 => rfl
    | n + 3 => rfl

/-- C105 is false for index maps: setting them a second time changes nothing for channel 0, and
processing then fails for want of a third map. -/
theorem C105_false : ∃ (b b' : Base ℚ) (r r' : List (Flt ℚ) × List (Flt ℚ)),
    nodeRun b [.setIndexMaps r none, .setIndexMaps r' none] = .ok b' ∧
      b'.getIndexMapValues 0 = .ok r ∧ b'.getIndexMapValues 0 ≠ .ok r' ∧
      ((match nodeRun b [.setIndexMaps r' none, .setLut1d 1 [.fin 0, .fin 1]] with
          | .ok c => processList ratArith 0 [.leaf .lut1d c] [.fin 1, .fin 2, .fin 1] 3
          | .error e => .error e) = .ok [.fin (1 / 2), .fin 1, .fin (1 / 2)] ∧
      (match nodeRun b' [.setLut1d 1 [.fin 0, .fin 1]] with
          | .ok c => processList ratArith 0 [.leaf .lut1d c] [.fin 1, .fin 2, .fin 1] 3
          | .error e => .error e) = .error .indexError) := by
  refine ⟨newLut1d (.str "16f") (.str "16f") (.str "") (.str ""), _,
    ([.fin 0, .fin 1], [.fin 0, .fin 1]), ([.fin 0, .fin 2], [.fin 0, .fin 1]), rfl, rfl, ?_, by decide +kernel, by decide +kernel⟩
  intro h
  have h2 : Except.ok (ε := PyErr) (([.fin 0, .fin 1], [.fin 0, .fin 1]) :
    List (Flt ℚ) × List (Flt ℚ)) = .ok ([.fin 0, .fin 2], [.fin 0, .fin 1]) := h
  injection h2 with h2
  have h3 := congrArg (fun p => p.1) h2
  simp at h3

/-- C105 is false for the dimension of an index map: the getter fails for every node and
channel. -/
theorem C105_dimensions (b : Base K) (channel : ℕ) :
    b.getIndexMapDimensions channel = .error .attributeError ∨
      b.getIndexMapDimensions channel = .error .indexError := by
  unfold Base.getIndexMapDimensions pyGet
  cases b.indexMaps[channel]? with
  | some m => exact Or.inl rfl
  | none => exact Or.inr rfl

/-- Calls of every sort: the attribute is removed again, the value is replaced, the table is the
second one, and the one index map is there. -/
example : ∃ b' : Base ℚ,
    nodeRun (newLut1d (.str "8i") (.str "10i") (.str "") (.str ""))
      [.setDefaultRange (.str "full"), .setMinInValue (.fin 1), .setLut3d [1, 1, 1] [.fin 1, .fin 2, .fin 3],
        .setIndexMaps ([.fin 0, .fin 1], [.fin 0, .fin 7]) none, .setDynamicParam "gain",
        .addValueElement "minInValue" (.fin 3), .setLut1d 2 [.fin 1, .fin 2, .fin 3, .fin 4, .fin 5],
        .setDefaultRange (.bool false), .setOutBitDepth (.str "16f")] = .ok b' ∧
      b'.getAttribute "defaultRange" = none ∧ b'.getAttribute "outBitDepth" = some (.str "16f") ∧
      b'.getValueElement "minInValue" = some (.fin 3) ∧ b'.getDynamicParam "gain" = true ∧
      b'.getLUTDimensions = .ok [2, 2] ∧
      b'.getIndexMapValues 0 = .ok ([.fin 0, .fin 1], [.fin 0, .fin 7]) := by
  exact ⟨_, rfl, by decide, by decide, by decide, by decide, rfl, rfl⟩

/-! ## C106 -/

/-- Tables of this output depth are stored as integers. -/
def Spec.StoresIntegers (v : Option AVal) : Prop :=
  ∃ d ∈ ["8i", "10i", "12i", "16i"], v = some (.str d)

theorem stores_iff (v : Option AVal) : bitDepthIsInteger v = true ↔ Spec.StoresIntegers v := by
  unfold Spec.StoresIntegers bitDepthIsInteger depth
  simp [or_assoc]

theorem depth_then_table (b : Base K) (d : AVal) :
    ((b.setAttribute "outBitDepth" d).attrs.get? "outBitDepth") = some d := by
  unfold Base.setAttribute
  rw [Dict.get?_set, if_pos rfl]

theorem add_same (b : Base K) (d : AVal) (a a' : Arr K) :
    (b.setAttribute "outBitDepth" d).addElement (.array a) =
      (b.addElement (.array a')).setAttribute "outBitDepth" d ↔ a = a' := by
  unfold Base.setAttribute Base.addElement
  simp

/-- C106: setting the output depth before or after the table leaves the same node exactly if
the old and the new depth both store integers or both do not.  What is missing: depths of
different sorts. -/
theorem C106_partial (b : Base K) (d : AVal) (t : NodeCall K) (ht : Spec.tableEffect t ≠ none)
    (hr : ∃ b', nodeStep b t = .ok b') :
    nodeRun b [.setOutBitDepth d, t] = nodeRun b [t, .setOutBitDepth d] ↔
      (Spec.StoresIntegers (some d) ↔ Spec.StoresIntegers (b.getAttribute "outBitDepth")) := by
  have flags : (Spec.StoresIntegers (some d) ↔ Spec.StoresIntegers (b.getAttribute "outBitDepth")) ↔
      bitDepthIsInteger (some d) = bitDepthIsInteger (b.attrs.get? "outBitDepth") := by
    rw [← stores_iff, ← stores_iff]
    exact Bool.eq_iff_iff.symm
  rw [flags]
  unfold nodeRun
  simp only [List.foldlM_cons, List.foldlM_nil, nodeStep, py_ok_bind, bind_pure]
  cases t with
  | setLut1d n vs =>
    obtain ⟨b', hr⟩ := hr
    obtain ⟨r, h1, -⟩ := py_bind_eq_ok.mp hr
    simp only [nodeStep, lut1dSetArray, h1, py_ok_bind, py_pure, Except.ok.injEq]
    rw [add_same, depth_then_table]
    have : (b.setAttribute "outBitDepth" d).flag "rawHalfs" = b.flag "rawHalfs" := by
      unfold Base.flag Base.setAttribute
      rw [Dict.get?_set, if_neg (by decide)]
    rw [this]
    simp
  | setLut3d ds vs =>
    simp only [nodeStep, lut3dSetArray, py_ok_bind, py_pure, Except.ok.injEq]
    rw [add_same, depth_then_table]
    simp
  | setMatrix ds vs =>
    simp only [nodeStep, CLF.setMatrix, py_ok_bind, py_pure, Except.ok.injEq]
    rw [add_same, depth_then_table]
    simp
  | _ => exact absurd rfl ht

/-- C106: setting the input depth before or after the table leaves the same node. -/
theorem C106_input (b : Base K) (d : AVal) (t : NodeCall K) (ht : Spec.tableEffect t ≠ none) :
    nodeRun b [.setInBitDepth d, t] = nodeRun b [t, .setInBitDepth d] := by
  have hk : ∀ k, k ≠ "inBitDepth" → (b.setAttribute "inBitDepth" d).attrs.get? k = b.attrs.get? k := by
    intro k hk
    unfold Base.setAttribute
    rw [Dict.get?_set, if_neg (fun h => hk h.symm)]
  unfold nodeRun
  simp only [List.foldlM_cons, List.foldlM_nil, nodeStep, py_ok_bind, bind_pure]
  cases t with
  | setLut1d n vs =>
    have hf : (b.setAttribute "inBitDepth" d).flag "rawHalfs" = b.flag "rawHalfs" := by
      unfold Base.flag
      rw [hk _ (by decide)]
    simp only [nodeStep, lut1dSetArray, hf, hk "outBitDepth" (by decide)]
    cases pyDivNat vs.length n <;> rfl
  | setLut3d ds vs =>
    simp only [nodeStep, lut3dSetArray, hk "outBitDepth" (by decide)]
    rfl
  | setMatrix ds vs =>
    simp only [nodeStep, CLF.setMatrix, hk "outBitDepth" (by decide)]
    rfl
  | _ => exact absurd rfl ht

theorem slice_finite {vs : List (SFlt K)} (h : ∀ x ∈ vs, intCheck x = .ok ()) (i j : ℕ) :
    ∀ x ∈ pySlice vs i j, intCheck x = .ok () := by
  intro x hx
  unfold pySlice at hx
  exact h x (List.mem_of_mem_drop (List.mem_of_mem_take hx))

theorem row_flag (compat : ℕ) (a : SArr K) (i : Bool) (xs : List (SFlt K))
    (h : ∀ x ∈ xs, intCheck x = .ok ()) :
    writeRow compat { a with integers := i } xs = writeRow compat a xs := by
  have hm : xs.mapM intCheck = .ok (xs.map fun _ => ()) := by
    induction xs with
    | nil => rfl
    | cons x xs ih =>
      rw [py_mapM_cons, ih fun y hy => h y (List.mem_cons_of_mem _ hy), h x (List.mem_cons_self ..)]
      rfl
  unfold writeRow
  simp only [hm, py_ok_bind]
  cases i <;> cases a.integers <;> rfl

/-- The integer flag of a finite table makes no difference to the file. -/
theorem write_flag (compat : ℕ) (a : Arr K) (i : Bool) (h : ∀ x ∈ a.values, ∃ m, x = .fin m) :
    Arr.write compat { a with integers := i } = a.write compat := by
  have hf : ∀ x ∈ a.toS.values, intCheck x = .ok () := by
    intro x hx
    obtain ⟨y, hy, rfl⟩ := List.mem_map.mp hx
    obtain ⟨m, rfl⟩ := h y hy
    rfl
  have hr : ∀ columns n, writeRow compat { a.toS with integers := i }
      (pySlice a.toS.values (n * columns) ((n + 1) * columns)) =
      writeRow compat a.toS (pySlice a.toS.values (n * columns) ((n + 1) * columns)) :=
    fun columns n => row_flag compat a.toS i _ (slice_finite hf _ _)
  show SArr.write compat { a.toS with integers := i } = SArr.write compat a.toS
  unfold SArr.write
  simp only [hr]

/-- C106: the order of depth and table makes no difference to the file if the table is
finite. -/
theorem C106_file (b b₁ b₂ : Base K) (d : AVal) (t : NodeCall K) (ds : List ℕ) (vs : List (Flt K))
    (ht : Spec.tableEffect t = some (ds, vs)) (hv : ∀ x ∈ vs, ∃ m, x = .fin m)
    (h₁ : nodeRun b [.setOutBitDepth d, t] = .ok b₁) (h₂ : nodeRun b [t, .setOutBitDepth d] = .ok b₂)
    (k : Kind K) (compat : ℕ) (flag : Option Bool) :
    (Node.leaf k b₁).write compat flag = (Node.leaf k b₂).write compat flag := by
  have key : ∀ (a : Arr K) (i : Bool), (∀ x ∈ a.values, ∃ m, x = .fin m) →
      writeBase compat k.tag ((b.setAttribute "outBitDepth" d).addElement (.array { a with integers := i })) k.extra =
      writeBase compat k.tag ((b.addElement (.array a)).setAttribute "outBitDepth" d) k.extra := by
    intro a i ha
    unfold writeBase Base.setAttribute Base.addElement
    simp only [py_mapM_append, py_mapM_cons, Elem.write, write_flag compat a i ha]
  have fin : ∀ (a : Arr K) (i : Bool),
      (∀ x ∈ a.values, ∃ m, x = .fin m) →
      b₁ = (b.setAttribute "outBitDepth" d).addElement (.array { a with integers := i }) →
      b₂ = (b.addElement (.array a)).setAttribute "outBitDepth" d →
      (Node.leaf k b₁).write compat flag = (Node.leaf k b₂).write compat flag := by
    rintro a i ha rfl rfl
    unfold Node.write
    rw [key a i ha]
  unfold nodeRun at h₁ h₂
  simp only [List.foldlM_cons, List.foldlM_nil, nodeStep, py_ok_bind, bind_pure] at h₁ h₂
  cases t with
  | setLut1d n ws =>
    injection ht with ht
    injection ht with ht1 ht2
    subst ht2
    have hd : ∃ r, pyDivNat ws.length n = .ok r := by
      obtain ⟨c, g, -⟩ := py_bind_eq_ok.mp h₂
      obtain ⟨r, g, -⟩ := py_bind_eq_ok.mp g
      exact ⟨r, g⟩
    obtain ⟨r, hr⟩ := hd
    have hfl : (b.setAttribute "outBitDepth" d).flag "rawHalfs" = b.flag "rawHalfs" := by
      unfold Base.flag Base.setAttribute
      rw [Dict.get?_set, if_neg (by decide)]
    simp only [nodeStep, lut1dSetArray, hr, py_ok_bind, py_pure, hfl, Except.ok.injEq] at h₁ h₂
    exact fin _ _ hv h₁.symm h₂.symm
  | setLut3d es ws =>
    injection ht with ht
    injection ht with ht1 ht2
    subst ht2
    simp only [nodeStep, lut3dSetArray, py_ok_bind, py_pure, Except.ok.injEq] at h₁ h₂
    exact fin _ _ hv h₁.symm h₂.symm
  | setMatrix es ws =>
    injection ht with ht
    injection ht with ht1 ht2
    subst ht2
    simp only [nodeStep, CLF.setMatrix, py_ok_bind, py_pure, Except.ok.injEq] at h₁ h₂
    exact fin _ _ hv h₁.symm h₂.symm
  | _ => cases ht

/-- What writing a node built by `calls` raises, if anything. -/
def writingRaises (calls : List (NodeCall ℚ)) : Option PyErr :=
  match (do
    let b ← nodeRun (newLut1d (.str "8i") (.str "8i") (.str "") (.str "")) calls
    PList.writeFile 0 false false ({ processes := [.leaf .lut1d b] } : PList ℚ)) with
  | .ok _ => none
  | .error e => some e

/-- C106 is false: a table with an infinite entry, set before its node gets a floating point
output depth, cannot be written; set afterwards it can. -/
theorem C106_false : ∃ (d : AVal) (t : NodeCall ℚ),
    writingRaises [.setOutBitDepth d, t] = none ∧
      writingRaises [t, .setOutBitDepth d] = some .overflow :=
  ⟨.str "16f", .setLut1d 1 [.fin 0, .inf false], by decide +kernel, by decide +kernel⟩

/-- A finite table in either order: two different nodes, one file. -/
example : ∃ b₁ b₂ : Base ℚ,
    nodeRun (newBase (.str "8i") (.str "8i") (.str "") (.str ""))
      [.setOutBitDepth (.str "16f"), .setMatrix [1, 1] [.fin (1 / 2)]] = .ok b₁ ∧
    nodeRun (newBase (.str "8i") (.str "8i") (.str "") (.str ""))
      [.setMatrix [1, 1] [.fin (1 / 2)], .setOutBitDepth (.str "16f")] = .ok b₂ ∧
    (arraysOf b₁.elements).map (·.integers) ≠ (arraysOf b₂.elements).map (·.integers) ∧
    (Node.leaf .matrix b₁).write 0 none = (Node.leaf .matrix b₂).write 0 none := by
  refine ⟨_, _, rfl, rfl, by decide, ?_⟩
  exact C106_file (newBase (.str "8i") (.str "8i") (.str "") (.str "")) _ _ (.str "16f")
    (.setMatrix [1, 1] [.fin (1 / 2)]) [1, 1] [.fin (1 / 2)] rfl (by simp) rfl rfl _ _ _

/-- Between depths of one sort the order does not matter; between depths of two sorts it does. -/
example : ∃ b' : Base ℚ,
    nodeStep (newLut3d (.str "8i") (.str "8i") (.str "") (.str "")) (.setLut3d [1, 1, 1] [.fin 1, .fin 2, .fin 3])
      = .ok b' ∧ Spec.StoresIntegers (some (.str "12i")) ∧ ¬ Spec.StoresIntegers (some (.str "32f")) :=
  ⟨_, rfl, by simp [Spec.StoresIntegers], by simp [Spec.StoresIntegers]⟩

end CLF
