import Verif.Spec.Nodes
import Verif.Spec.Basic

/-!
# Specifications: trees of nodes
-/

namespace CLF

variable {K : Type} [Field K] [LinearOrder K]

/-- `A.f32` behaves like a rounding: what it returns is storable, and so is 0. -/
structure Casts (A : Arith K) : Prop where
  idem : ∀ x, A.f32 (A.f32 x) = A.f32 x
  zero : A.f32 (.fin 0) = .fin 0

/-- A Matrix node has at most three rows. -/
def SmallMatrix (b : Base K) : Prop := ∀ a d, b.array = .ok a → a.dims[0]? = some d → d ≤ 3

/-- `Within m n`: the node `m` is `n` itself or sits somewhere inside it, as a member
of a group or of a list a reference resolved to. -/
inductive Within (m : Node K) : Node K → Prop
  | self : Within m m
  | group {b cs c} : c ∈ cs → Within m c → Within m (.group b cs)
  | ref {b w ns c} : c ∈ ns → Within m c → Within m (.ref b w ns)

/-- Leaf nodes that are meant to leave the channels after the third alone and do:
all but Range, ExposureContrast and matrices with more than three rows. -/
def KeepsExtra (k : Kind K) (b : Base K) : Prop :=
  match k with
  | .range => False
  | .exposureContrast _ _ _ => False
  | .matrix => SmallMatrix b
  | _ => True

/-- An ExposureContrast is only used on pixels of at most three channels. -/
def EcSmall (s : ℕ) : Kind K → Prop
  | .exposureContrast _ _ _ => s ≤ 3
  | _ => True

namespace Spec

/-- No node of the list, at any depth, carries a `bypass` attribute. -/
def NoBypass (ns : List (Node K)) : Prop := ∀ n ∈ ns, ∀ m, Within m n → m.attr "bypass" = none

/-- Where two lists are joined, bypassing plays no role: it is disabled, or neither
the last node of the first nor the first node of the second is bypassed. -/
def SeamFree (compat : ℕ) (ns ms : List (Node K)) : Prop :=
  hasFeature compat autodesk = false ∨
    ((∀ n, ns.getLast? = some n → n.attr "bypass" = none) ∧
     (∀ m, ms.head? = some m → m.attr "bypass" = none))

/-- The Range without bounds that takes code values of one depth to another. -/
def depthRange (din dout : AVal) : Node K :=
  .leaf .range { attrs := [("inBitDepth", din), ("outBitDepth", dout), ("style", .str "noClamp")] }

/-- A bypassed node replaced by the conversion between its two depths. -/
def unbypass (n : Node K) : Node K :=
  match n.attr "bypass", n.inDepth, n.outDepth with
  | some _, some din, some dout => depthRange din dout
  | _, _, _ => n

/-- Every node states its depths, and each node's input depth is its predecessor's
output depth. -/
inductive Chain : List (Node K) → Prop
  | nil : Chain []
  | single {n : Node K} {a b : AVal} : n.inDepth = some a → n.outDepth = some b → Chain [n]
  | cons {n m : Node K} {rest} {a b : AVal} : n.inDepth = some a → n.outDepth = some b →
      m.inDepth = some b → Chain (m :: rest) → Chain (n :: m :: rest)

/-- The base of a node without its `bypass` attribute. -/
def dropBypass (b : Base K) : Base K := { b with attrs := b.attrs.filter fun p => p.1 ≠ "bypass" }

/-- The node without its `bypass` attribute (nested nodes keep theirs). -/
def clearBypass : Node K → Node K
  | .leaf k b => .leaf k (dropBypass b)
  | .group b cs => .group (dropBypass b) cs
  | .ref b w ns => .ref (dropBypass b) w ns
  | .refMissing b w => .refMissing (dropBypass b) w

mutual
/-- The nodes a node stands for once every group is dissolved. -/
def inline : Node K → List (Node K)
  | .leaf k b => [.leaf k b]
  | .group _ cs => inlineAll cs
  | .ref b w ns => [.ref b w (inlineAll ns)]
  | .refMissing b w => [.refMissing b w]
/-- `inline` over a list. -/
def inlineAll : List (Node K) → List (Node K)
  | [] => []
  | n :: ns => inline n ++ inlineAll ns
end

end Spec

end CLF
