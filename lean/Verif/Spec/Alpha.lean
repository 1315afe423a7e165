import Verif.Model.RoundedList

/-!
# Colours and further channels
-/

namespace CLF

variable {K : Type} [Field K] [LinearOrder K] [IsStrictOrderedRing K] [FloorRing K]

/-- A Matrix, if it is one, has at most three rows. -/
def Spec.SmallMatrix (k : Kind K) (b : Base K) : Prop :=
  match k with
  | .matrix => ∀ a d, b.array = .ok a → a.dims[0]? = some d → d ≤ 3
  | _ => True

/-- A node class that leaves further channels alone. -/
def Spec.LeavesAlpha : Kind K → Prop
  | .range => False
  | .exposureContrast .. => False
  | _ => True

/-- The matrices in a node have at most three rows. -/
inductive Spec.Colours : Node K → Prop
  | leaf {k b} (h : Spec.SmallMatrix k b) : Colours (.leaf k b)
  | group {b cs} (h : ∀ c ∈ cs, Colours c) : Colours (.group b cs)
  | ref {b w ns} (h : ∀ n ∈ ns, Colours n) : Colours (.ref b w ns)
  | missing {b w} : Colours (.refMissing b w)

/-- A node without Ranges, ExposureContrast nodes and bypassed nodes. -/
inductive Spec.KeepsAlpha : Node K → Prop
  | leaf {k b} (h : Spec.LeavesAlpha k) (hb : b.attrs.get? "bypass" = none) : KeepsAlpha (.leaf k b)
  | group {b cs} (h : ∀ c ∈ cs, KeepsAlpha c) (hb : b.attrs.get? "bypass" = none) : KeepsAlpha (.group b cs)
  | ref {b w ns} (h : ∀ n ∈ ns, KeepsAlpha n) (hb : b.attrs.get? "bypass" = none) : KeepsAlpha (.ref b w ns)
  | missing {b w} (hb : b.attrs.get? "bypass" = none) : KeepsAlpha (.refMissing b w)

/-- The first three values of every `s` values. -/
def Spec.coloursOf {α : Type} (s : ℕ) (l : List α) : List α := (List.range (l.length / s)).flatMap fun p => (l.drop (p * s)).take 3

end CLF
