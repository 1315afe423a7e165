import Verif.Spec.Xml
import Verif.Spec.Numerals

/-! # Specification of the parameters read from a node's element -/

namespace CLF.Spec

/-- The elements of a list that satisfy a condition, in order. -/
inductive Picked (P : Xml → Prop) : List Xml → List Xml → Prop
  | nil : Picked P [] []
  | take {c : Xml} {cs ds : List Xml} : P c → Picked P cs ds → Picked P (c :: cs) (c :: ds)
  | skip {c : Xml} {cs ds : List Xml} : ¬ P c → Picked P cs ds → Picked P (c :: cs) ds

/-- `cs` are the children of `x` with the name `name`. -/
def Children (x : Xml) (name : String) (cs : List Xml) : Prop :=
  Picked (fun c => Named c.tag name) x.children cs

/-- A text cut at its blanks. -/
inductive WordsOf : List Char → List (List Char) → Prop
  | nil {b : List Char} : (∀ c ∈ b, Blank c) → WordsOf b []
  | cons {b w rest : List Char} {ws : List (List Char)} : (∀ c ∈ b, Blank c) → w ≠ [] →
      (∀ c ∈ w, ¬ Blank c) → (∀ c r, rest = c :: r → Blank c) → WordsOf rest ws →
      WordsOf (b ++ (w ++ rest)) (w :: ws)

variable {K : Type} [Field K]

/-- A number, not telling the two zeros apart. -/
def Number (t : String) (v : Flt K) : Prop := ∃ n : SFlt K, NumberText t.toList n ∧ v = n.toFlt

/-- A row of numbers. -/
def Numbers (t : String) (vs : List (Flt K)) : Prop :=
  ∃ ws, WordsOf t.toList ws ∧ List.Forall₂ (fun w v => ∃ n : SFlt K, NumberText w n ∧ v = n.toFlt) ws vs

/-- `v` is the number in attribute `key`, or the default if there is no such attribute. -/
def Given (c : Xml) (key : String) (dflt : K) (v : Flt K) : Prop :=
  match c.attrs.lookup key with
  | none => v = .fin dflt
  | some t => Number t v

/-- Attribute `key` is a number, if it is there. -/
def NumericIfGiven (K : Type) [Field K] (c : Xml) (key : String) : Prop :=
  ∀ t, c.attrs.lookup key = some t → ∃ v : Flt K, Number t v

/-- What the last of some elements says, if there is one. -/
def LastText {α : Type} (R : String → α → Prop) (ds : List Xml) (r : Option α) : Prop :=
  match ds.getLast? with
  | none => r = none
  | some d => ∃ t v, d.text = some t ∧ R t v ∧ r = some v

/-- The name of `tag` in lower case is `name`. -/
def NamedNoCase (tag name : String) : Prop :=
  ∃ n, Named tag n ∧ n.toList.map Char.toLower = name.toList

/-- `ds` are the elements named `name` inside the children of `x` named `group` in any
case. -/
def Nested (x : Xml) (group name : String) (ds : List Xml) : Prop :=
  ∃ gs, Picked (fun c => NamedNoCase c.tag group) x.children gs ∧
    Picked (fun c => Named c.tag name) (gs.flatMap Xml.children) ds

/-- The attributes a node has if its element does not have them. -/
def defaultAttr (name key : String) : Option String :=
  if name = "ColorCorrection" then (if key = "id" then some "" else none)
  else match key with
    | "inBitDepth" | "outBitDepth" => some "16f"
    | "id" | "name" => some ""
    | "style" => match name with
      | "ASCCDL" => some "Fwd"
      | "ExposureContrast" => some "linear"
      | "Gamma" => some "basicFwd"
      | "Log" => some "log10"
      | _ => none
    | "interpolation" => match name with
      | "LUT1D" => some "linear"
      | "LUT3D" => some "trilinear"
      | _ => none
    | _ => none

end CLF.Spec
