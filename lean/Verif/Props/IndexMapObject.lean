import Verif.Model.IndexMapObject
import Verif.Props.IndexMapCache

/-!
# C115: index maps that are set again

An index map should evaluate with the values that were set last.  It does as long as the cache is
off.  Once a cached evaluation has filled the cache, no call empties it: later values are stored,
and returned by `getValues`, and not used.
-/

set_option linter.unusedSectionVars false

namespace CLF

variable {K : Type} [Field K] [LinearOrder K] [IsStrictOrderedRing K] [FloorRing K]

namespace Spec

/-- What was set last in a history of calls, latest call first; `s` if nothing was. -/
def latest {α β : Type} (f : α → Option β) (s : β) : List α → β
  | [] => s
  | c :: cs => (f c).getD (latest f s cs)

/-- The values that a call sets. -/
def valuesOf : MapObj.Call K → Option (Option (List (Flt K) × List (Flt K)))
  | .setValues vs => some (some vs)
  | .read _ vs => some (some vs)
  | _ => none

/-- The dimension that a call sets. -/
def dimensionOf : MapObj.Call K → Option (Option ℕ)
  | .setDimension d => some (some d)
  | .read (some d) _ => some (some d)
  | _ => none

/-- The cache switch that a call sets. -/
def switchOf : MapObj.Call K → Option Bool
  | .setUseCached b => some b
  | _ => none

end Spec

namespace MapObj

/-- The object after a history of calls, latest call first. -/
def after (o : MapObj K) : List (Call K) → MapObj K
  | [] => o
  | c :: cs => (after o cs).step c

end MapObj

theorem createCache_keeps (o : MapObj K) : o.createCache.1.values = o.values ∧
    o.createCache.1.dimension = o.dimension ∧ o.createCache.1.useCached = o.useCached := by
  unfold MapObj.createCache
  split <;> exact ⟨rfl, rfl, rfl⟩

theorem processObj_keeps (o : MapObj K) (v : Flt K) : (o.process v).1.values = o.values ∧
    (o.process v).1.dimension = o.dimension ∧ (o.process v).1.useCached = o.useCached := by
  have h := createCache_keeps o
  unfold MapObj.process
  split
  · split
    · exact ⟨rfl, rfl, rfl⟩
    · split
      · rename_i o' e
        rw [e] at h
        split <;> exact h
      · rename_i o' x e
        rw [e] at h
        exact h
  · exact ⟨rfl, rfl, rfl⟩

/-- C115: after every history of calls, raising or not, an index map holds the dimension, values
and switch that were set last. -/
theorem C115_stored (o : MapObj K) (cs : List (MapObj.Call K)) :
    (o.after cs).values = Spec.latest Spec.valuesOf o.values cs ∧
    (o.after cs).dimension = Spec.latest Spec.dimensionOf o.dimension cs ∧
    (o.after cs).useCached = Spec.latest Spec.switchOf o.useCached cs := by
  induction cs with
  | nil => exact ⟨rfl, rfl, rfl⟩
  | cons c cs ih =>
    obtain ⟨h1, h2, h3⟩ := ih
    cases c with
    | setDimension d => exact ⟨h1, rfl, h3⟩
    | setValues vs => exact ⟨rfl, h2, h3⟩
    | setUseCached b => exact ⟨h1, h2, rfl⟩
    | read d vs => cases d with
      | none => exact ⟨rfl, h2, h3⟩
      | some d => exact ⟨rfl, rfl, h3⟩
    | process v =>
      obtain ⟨k1, k2, k3⟩ := processObj_keeps (o.after cs) v
      exact ⟨k1.trans h1, k2.trans h2, k3.trans h3⟩

theorem search_dimension (d d' : ℕ) (i u : List (Flt K)) (v : Flt K) (n k : ℕ) :
    IndexMap.search ⟨d, i, u⟩ v k n = IndexMap.search ⟨d', i, u⟩ v k n := by
  induction n generalizing k with
  | zero => rfl
  | succ n ih =>
    unfold IndexMap.search
    simp only [ih]

theorem process_dimension (d d' : ℕ) (i u : List (Flt K)) (v : Flt K) :
    IndexMap.process ⟨d, i, u⟩ v = IndexMap.process ⟨d', i, u⟩ v := by
  unfold IndexMap.process IndexMap.processRaw
  cases v <;> simp only [search_dimension d d']

theorem cache_dimension (d d' : ℕ) (i u : List (Flt K)) :
    IndexMap.cache ⟨d, i, u⟩ = IndexMap.cache ⟨d', i, u⟩ := by
  have h : (IndexMap.mk d i u).processRaw = (IndexMap.mk d' i u).processRaw :=
    funext fun v => process_dimension d d' i u v
  unfold IndexMap.cache
  rw [h]

attribute [local irreducible] IndexMap.cache Arr.lookup1DHalfDomainInterpolated

/-- C115, as far as it holds: if the cache was switched off last, whatever was done before, an
index map evaluates with the values that were set last.  Missing: evaluation with the cache
(`C115_first`, `C115_stale`). -/
theorem C115_partial (o : MapObj K) (cs : List (MapObj.Call K)) (dim : ℕ) (i u : List (Flt K)) (v : Flt K)
    (hoff : Spec.latest Spec.switchOf o.useCached cs = false)
    (hvals : Spec.latest Spec.valuesOf o.values cs = some (i, u)) :
    ((o.after cs).process v).2 = IndexMap.process ⟨dim, i, u⟩ v := by
  obtain ⟨h1, -, h3⟩ := C115_stored o cs
  rw [hoff] at h3
  rw [hvals] at h1
  unfold MapObj.process
  rw [h3]
  simp only [Bool.false_eq_true, if_false]
  unfold MapObj.raw MapObj.map
  rw [h1]
  exact process_dimension _ dim i u v

/-- C115: the first evaluation with the cache uses the values that are set at that time, and the
table made from them stays. -/
theorem C115_first (o : MapObj K) (dim : ℕ) (i u : List (Flt K)) (a : Arr K) (v : Flt K)
    (hon : o.useCached = true) (hempty : o.cached = none) (hvals : o.values = some (i, u))
    (ha : IndexMap.cache ⟨dim, i, u⟩ = .ok a) :
    (o.process v).2 = IndexMap.processCached ⟨dim, i, u⟩ v ∧ (o.process v).1.cached = some a := by
  have hm : o.map.bind IndexMap.cache = .ok a := by
    unfold MapObj.map
    rw [hvals]
    show IndexMap.cache ⟨_, i, u⟩ = _
    rw [cache_dimension _ dim, ha]
  have hp : o.process v = ({ o with cached := some a }, a.lookup1DHalfDomainInterpolated v 0) := by
    unfold MapObj.process MapObj.createCache
    rw [hon, hempty, hm]
    rfl
  rw [hp]
  refine ⟨?_, rfl⟩
  unfold IndexMap.processCached
  rw [ha]
  rfl

/-- No call changes a table that is there. -/
theorem after_cached (o : MapObj K) (a : Arr K) (h : o.cached = some a) (cs : List (MapObj.Call K)) :
    (o.after cs).cached = some a := by
  induction cs with
  | nil => exact h
  | cons c cs ih =>
    cases c with
    | process v =>
      show ((o.after cs).process v).1.cached = some a
      unfold MapObj.process
      rw [ih]
      split <;> exact ih
    | _ => exact ih

/-- C115: once there is a table, evaluation with the cache uses it, whatever values are set. -/
theorem C115_stale (o : MapObj K) (a : Arr K) (h : o.cached = some a) (cs : List (MapObj.Call K))
    (v : Flt K) (hon : Spec.latest Spec.switchOf o.useCached cs = true) :
    ((o.after cs).process v).2 = a.lookup1DHalfDomainInterpolated v 0 := by
  have h1 := after_cached o a h cs
  have h2 := (C115_stored o cs).2.2
  rw [hon] at h2
  unfold MapObj.process
  rw [h2, h1]
  rfl

/-- C115: with the cache on, setting values raises an `AttributeError`, after storing them, if
there is a dimension. -/
theorem C115_raises (o : MapObj K) (vs : List (Flt K) × List (Flt K)) :
    ((o.setValues vs).1.values = some vs) ∧
    ((o.setValues vs).2 = .error .attributeError ↔ o.useCached = true ∧ o.dimension ≠ none) ∧
    ((o.setValues vs).2 = .ok () ↔ ¬ (o.useCached = true ∧ o.dimension ≠ none)) := by
  refine ⟨rfl, ?_, ?_⟩ <;>
  · unfold MapObj.setValues MapObj.wantsCache
    rcases o with ⟨_ | d, w, _ | _, c⟩ <;> simp

/-- C115 is false: two evaluations with the cache, and other values set between them.  The second
evaluation gives at every half what the first values give. -/
theorem C115_false (dim : ℕ) (xs ys xs' ys' : List K) (hne : xs ≠ []) (hl : xs.length = ys.length)
    (v : Flt K) (n : ℕ) (hn : Spec.halfFinite n) :
    let o : MapObj K := ⟨none, some (xs.map .fin, ys.map .fin), true, none⟩
    let o' := o.after [.setValues (xs'.map .fin, ys'.map .fin), .process v]
    o'.values = some (xs'.map .fin, ys'.map .fin) ∧
    (o'.process (.fin (Spec.halfValue n))).2 =
      IndexMap.process ⟨dim, xs.map .fin, ys.map .fin⟩ (.fin (Spec.halfValue n)) := by
  intro o o'
  obtain ⟨f, hf⟩ := map_function dim xs ys hne hl
  obtain ⟨a, ha, -⟩ := cache_table _ f hf
  have h1 := (C115_first o dim (xs.map .fin) (ys.map .fin) a v rfl rfl rfl ha).2
  refine ⟨rfl, ?_⟩
  have h2 := C115_stale (o.process v).1 a h1 [.setValues (xs'.map .fin, ys'.map .fin)]
    (.fin (Spec.halfValue n)) (processObj_keeps o v).2.2
  have e : o' = (o.process v).1.after [.setValues (xs'.map .fin, ys'.map .fin)] := rfl
  rw [e, h2]
  rw [← C114_halves dim xs ys hne hl n hn]
  unfold IndexMap.processCached
  rw [ha]
  rfl

/-- Witness: a rising map is replaced by a falling one; at 1/4 the object still rises. -/
example : ∃ (o : MapObj ℚ) (cs : List (MapObj.Call ℚ)),
    Spec.latest Spec.valuesOf o.values cs = some ([.fin 0, .fin 1], [.fin 1, .fin 0]) ∧
    ((o.after cs).process (.fin (1 / 4))).2 = .ok (.fin (1 / 4)) ∧
    IndexMap.process ⟨2, [.fin 0, .fin 1], [.fin 1, .fin 0]⟩ (.fin (1 / 4 : ℚ)) = .ok (.fin (3 / 4)) := by
  refine ⟨⟨none, some (([0, 1] : List ℚ).map .fin, ([0, 1] : List ℚ).map .fin), true, none⟩,
    [.setValues (([0, 1] : List ℚ).map .fin, ([1, 0] : List ℚ).map .fin), .process (.fin 0)], rfl, ?_,
    by decide +kernel⟩
  have h := (C115_false (K := ℚ) 2 [0, 1] [0, 1] [0, 1] [1, 0] (by simp) rfl (.fin 0) 13312
    (by unfold Spec.halfFinite; omega)).2
  rw [show (Spec.halfValue 13312 : ℚ) = 1 / 4 by norm_num [Spec.halfValue]] at h
  rw [h]
  decide +kernel

/-- The hypotheses of `C115_partial` hold for a map that was cached, set again and switched off. -/
example : ∃ (o : MapObj ℚ) (cs : List (MapObj.Call ℚ)),
    o.useCached = true ∧ Spec.latest Spec.switchOf o.useCached cs = false ∧
    Spec.latest Spec.valuesOf o.values cs = some ([.fin 0, .fin 1], [.fin 1, .fin 0]) :=
  ⟨⟨some 2, some ([.fin 0, .fin 1], [.fin 0, .fin 1]), true, none⟩,
    [.setUseCached false, .process (.fin 0), .setValues ([.fin 0, .fin 1], [.fin 1, .fin 0]),
      .process (.fin (1 / 2))], rfl, rfl, rfl⟩

end CLF
