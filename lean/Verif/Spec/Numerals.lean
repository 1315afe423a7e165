import Verif.Model.Text

/-! # Specification of number texts

The grammar of Python's `float`, written as texts and the numbers they stand for. -/

namespace CLF.Spec

/-- A decimal digit. -/
def Digit (c : Char) : Prop := c ∈ "0123456789".toList

/-- White space. -/
def Blank (c : Char) : Prop := c ∈ [' ', '\t', '\n', '\r', '\x0b', '\x0c']

/-- The number a row of digits stands for. -/
def digitsVal : List Char → ℕ
  | [] => 0
  | c :: r => (c.toNat - '0'.toNat) * 10 ^ r.length + digitsVal r

/-- An optional sign; `true` is minus. -/
inductive SignText : List Char → Bool → Prop
  | none : SignText [] false
  | plus : SignText ['+'] false
  | minus : SignText ['-'] true

/-- An optional exponent. -/
inductive ExpText : List Char → ℤ → Prop
  | none : ExpText [] 0
  | some {c : Char} {s ds : List Char} {neg : Bool} : c ∈ ['e', 'E'] → SignText s neg → ds ≠ [] →
      (∀ d ∈ ds, Digit d) → ExpText (c :: (s ++ ds)) (if neg then -(digitsVal ds : ℤ) else digitsVal ds)

variable {K : Type} [Field K]

/-- A number without blanks around it: an infinity, a NaN, or a decimal with at least one
digit. -/
inductive Literal : List Char → SFlt K → Prop
  | inf {s w : List Char} {neg : Bool} : SignText s neg →
      w.map Char.toLower ∈ ["inf".toList, "infinity".toList] → Literal (s ++ w) (.inf neg)
  | nan {s w : List Char} {neg : Bool} : SignText s neg → w.map Char.toLower = "nan".toList →
      Literal (s ++ w) .nan
  | dec {s ip point fp x : List Char} {neg : Bool} {e : ℤ} : SignText s neg →
      (∀ d ∈ ip, Digit d) → (∀ d ∈ fp, Digit d) → (ip ≠ [] ∨ fp ≠ []) →
      (point = ['.'] ∨ point = [] ∧ fp = []) → ExpText x e →
      Literal (s ++ (ip ++ (point ++ (fp ++ x))))
        (.fin neg ((digitsVal (ip ++ fp) : K) * 10 ^ (e - fp.length)))

/-- A number, perhaps with blanks around it. -/
def NumberText (t : List Char) (v : SFlt K) : Prop :=
  ∃ pre core post : List Char, (∀ c ∈ pre, Blank c) ∧ (∀ c ∈ post, Blank c) ∧
    t = pre ++ core ++ post ∧ Literal core v

end CLF.Spec
