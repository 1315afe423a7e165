import Verif.Spec.RoundTrip

/-!
# What colours may depend on

`Twin` relates nodes that carry the same colour data: class, parameters, bit depths, style
and tables.  Names, ids, descriptions, comments, unknown attributes, dynamic parameters,
the file form of a table and earlier tables that a later one replaced may differ.
-/

namespace CLF.Spec

variable {K : Type}

/-- The attributes that say something about colours. -/
def colourAttrs : List String :=
  ["inBitDepth", "outBitDepth", "style", "interpolation", "halfDomain", "defaultRange", "bypass"]

/-- Shape and values of the tables among the elements. -/
def tablesOf : List (Elem K) → List (List ℕ × List (Flt K))
  | [] => []
  | .array a :: es => (a.dims, a.values) :: tablesOf es
  | _ :: es => tablesOf es

/-- The index maps among the elements, as inputs and outputs. -/
def mapsOf : List (Elem K) → List (List (Flt K) × List (Flt K))
  | [] => []
  | .indexMap m :: es => (m.inputs, m.outputs) :: mapsOf es
  | _ :: es => mapsOf es

/-- Those attributes agree. -/
def TwinAttrs (b b' : Base K) : Prop := ∀ k ∈ colourAttrs, b'.attrs.get? k = b.attrs.get? k

/-- The common parts of two nodes say the same about colours. -/
def TwinBase (b b' : Base K) : Prop :=
  TwinAttrs b b' ∧
  (∀ k ∈ ["minInValue", "maxInValue", "minOutValue", "maxOutValue"],
    b'.values.get? k = b.values.get? k) ∧
  (tablesOf b'.elements).getLast? = (tablesOf b.elements).getLast? ∧
  mapsOf b'.elements = mapsOf b.elements

/-- Nodes with the same colour data, at any depth. -/
inductive Twin : Node K → Node K → Prop
  | leaf {k : Kind K} {b b' : Base K} : TwinBase b b' → Twin (.leaf k b) (.leaf k b')
  | group {b b' : Base K} {cs cs' : List (Node K)} : TwinAttrs b b' →
      List.Forall₂ Twin cs cs' → Twin (.group b cs) (.group b' cs')
  | ref {b b' : Base K} {w w' : Bool} {ns ns' : List (Node K)} : TwinAttrs b b' →
      List.Forall₂ Twin ns ns' → Twin (.ref b w ns) (.ref b' w' ns')
  | refMissing {b b' : Base K} {w w' : Bool} : TwinAttrs b b' →
      Twin (.refMissing b w) (.refMissing b' w')

/-! ## Numbers that survive their text form -/

section
variable [Field K] [LinearOrder K]

/-- At most twelve significant digits, an infinity or NaN. -/
def Exact12 : Flt K → Prop
  | .fin v => Digits12 v
  | _ => True

/-- A table value with at most nine decimals that fits into float32, or a float of the
format the table is encoded in. -/
def ExactEntry (A : Arith K) (bits : Option (ℕ × ℕ)) (x : Flt K) : Prop :=
  match bits with
  | none => Decimals9 (SFlt.ofFlt x) ∧ A.f32 x = x
  | some (p, w) => IsFloat p w (SFlt.ofFlt x)

/-- Elements. -/
def ExactElem (A : Arith K) : Elem K → Prop
  | .array a => ∀ x ∈ a.values, ExactEntry A (encodingBits a.rawHalfs a.floatEncoding) x
  | .indexMap m => ∀ x ∈ m.inputs, Exact12 x
  | _ => True

/-- Parameters of the class. -/
def ExactKind : Kind K → Prop
  | .cdl _ v => (∀ l, v.slope = some l ∨ v.offset = some l ∨ v.power = some l → ∀ x ∈ l, Exact12 x) ∧
      ∀ x, v.saturation = some x → Exact12 x
  | .exposureContrast e c p => Exact12 e ∧ Exact12 c ∧ Exact12 p
  | .gamma ps => ∀ p ∈ ps, Exact12 p.gamma ∧ Exact12 p.offset
  | .log ps => ∀ p ∈ ps, Exact12 p.gamma ∧ Exact12 p.refWhite ∧ Exact12 p.refBlack ∧
      Exact12 p.highlight ∧ Exact12 p.shadow
  | _ => True

/-- All numbers of the node survive their text form, at any depth.  What a reference
resolves to is not written. -/
inductive TextExact (A : Arith K) : Node K → Prop
  | leaf {k : Kind K} {b : Base K} : ExactKind k → (∀ n x, b.values.get? n = some x → Exact12 x) →
      (∀ e ∈ b.elements, ExactElem A e) → TextExact A (.leaf k b)
  | group {b : Base K} {cs : List (Node K)} : (∀ c ∈ cs, TextExact A c) → TextExact A (.group b cs)
  | ref {b : Base K} {w : Bool} {ns : List (Node K)} : TextExact A (.ref b w ns)
  | refMissing {b : Base K} {w : Bool} : TextExact A (.refMissing b w)

end

end CLF.Spec
