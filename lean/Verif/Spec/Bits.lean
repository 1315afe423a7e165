import Verif.Model.Text

/-!
# What bit patterns mean, and rounding to a binary format

Independent of the model's `encode`/`decode`: `p` fraction bits, `w` exponent bits
and a sign bit.  The data type `SFlt` (sign and magnitude, infinities, NaN) is the
only thing used.
-/

namespace CLF.Spec

/-- The pattern stands for NaN: exponent field all ones and fraction not zero. -/
def patternNaN (p w n : ℕ) : Prop := n / 2 ^ p % 2 ^ w = 2 ^ w - 1 ∧ n % 2 ^ p ≠ 0

variable {K : Type} [Field K]

/-- Magnitude for exponent field `e` and fraction field `m`. -/
def fieldsMag (p w e m : ℕ) : K :=
  if e = 0 then (m : K) * 2 ^ (2 - 2 ^ (w - 1) - p : ℤ)
  else (2 ^ p + m : K) * 2 ^ (e + 1 - 2 ^ (w - 1) - p : ℤ)

/-- The float a pattern stands for. -/
def patternFloat (p w n : ℕ) : SFlt K :=
  let e := n / 2 ^ p % 2 ^ w
  let neg := decide (n / 2 ^ (w + p) % 2 = 1)
  if e = 2 ^ w - 1 then (if n % 2 ^ p = 0 then .inf neg else .nan)
  else .fin neg (fieldsMag p w e (n % 2 ^ p))

/-- `x` is a float of the format. -/
def IsFloat (p w : ℕ) (x : SFlt K) : Prop := ∃ n < 2 ^ (1 + w + p), x = patternFloat p w n

variable [LinearOrder K]

/-- Half way between the largest finite magnitude and what would be the next one. -/
def overflowLimit (p w : ℕ) : K :=
  (fieldsMag p w (2 ^ w - 2) (2 ^ p - 1) + fieldsMag p w (2 ^ w - 1) 0) / 2

/-- `y` is `x` rounded to the format: a nearest float of the same sign, an infinity
when the magnitude is too large; infinities and NaN stay.  (Which of two equally near
floats is taken is left open.) -/
def Rounded (p w : ℕ) : SFlt K → SFlt K → Prop
  | .nan, y => y = .nan
  | .inf s, y => y = .inf s
  | .fin s m, y =>
    (m ≤ overflowLimit p w ∧ ∃ v, y = .fin s v ∧ IsFloat p w (.fin s v) ∧
      ∀ s' v', IsFloat p w (.fin s' v') → |v - m| ≤ |v' - m|) ∨
    (overflowLimit p w ≤ m ∧ y = .inf s)

/-- Same sign and magnitudes at most `ε` apart; infinities and NaN equal. -/
def Close (ε : K) : SFlt K → SFlt K → Prop
  | .fin s m, .fin s' m' => s = s' ∧ |m - m'| ≤ ε
  | x, y => x = y

/-- A float as Python has it: the magnitude of a finite one is not negative. -/
def Proper : SFlt K → Prop
  | .fin _ m => 0 ≤ m
  | _ => True

end CLF.Spec
