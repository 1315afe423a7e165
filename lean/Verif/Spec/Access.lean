import Verif.Model.Accessors

/-! # Specifications: histories of calls -/

namespace CLF.Spec

open Access

/-- The nodes added, in order. -/
def added (cs : List Call) : List ℕ :=
  cs.filterMap fun c => match c with
    | .addProcess n => some n
    | _ => none

/-- The call `c`, made after the calls `before` on a new list, gives the attribute `key` of
node `n` the value `v`. -/
inductive Writes (before : List Call) (n : ℕ) : String → Call → AVal → Prop
  | node {key : String} {v : AVal} : Writes before n key (.nodeSetAttribute n key v) v
  | first {d : AVal} : (∃ rest, added before = n :: rest) →
      Writes before n "inBitDepth" (.setInBitDepth d) d
  | last {d : AVal} : (∃ front, added before = front ++ [n]) →
      Writes before n "outBitDepth" (.setOutBitDepth d) d

/-- The value of attribute `key` of node `n` after the calls is `r`: what the last call
that gives it a value gives it, or else its initial value. -/
def LastWritten (init : ℕ → Dict AVal) (cs : List Call) (n : ℕ) (key : String) (r : Option AVal) : Prop :=
  (∃ before c after v, cs = before ++ c :: after ∧ Writes before n key c v ∧ r = some v ∧
    ∀ b2 c2 a2 v2, after = b2 ++ c2 :: a2 → ¬ Writes (before ++ c :: b2) n key c2 v2) ∨
  ((∀ before c after v, cs = before ++ c :: after → ¬ Writes before n key c v) ∧ r = (init n).get? key)

end CLF.Spec
