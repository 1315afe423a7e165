import Verif.Model.ArrayText

/-! # Specifications for written arrays and index maps -/

namespace CLF.Spec

/-- The bit format an array is written in, if it is not written as decimals:
`rawHalfs` wins over `floatEncoding`. -/
def encodingBits (rawHalfs : Bool) (floatEncoding : String) : Option (ℕ × ℕ) :=
  if rawHalfs then some (10, 5)
  else match floatEncoding with
    | "integer16bit" | "hex16bit" => some (10, 5)
    | "integer32bit" | "hex32bit" => some (23, 8)
    | "integer64bit" | "hex64bit" => some (52, 11)
    | _ => none

/-- Length of a row of text: the last of two or four dimensions, otherwise the
second. -/
def rowLength : List ℕ → Option ℕ
  | [_, _, _, c] => some c
  | _ :: c :: _ => some c
  | _ => none

variable {K : Type} [Field K]

/-- A magnitude of at most twelve significant digits. -/
def Digits12 (x : K) : Prop := ∃ (n : ℕ) (k : ℤ), n < 10 ^ 12 ∧ (x = n * 10 ^ k ∨ x = -(n * 10 ^ k))

/-- A number of at most nine decimals, or none at all. -/
def Decimals9 : SFlt K → Prop
  | .fin _ m => ∃ n : ℕ, m = n / 10 ^ 9
  | _ => True

end CLF.Spec
