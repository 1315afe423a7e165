import Verif.Model.Py
import Mathlib.Algebra.Order.Field.Basic
import Mathlib.Algebra.Order.Floor.Ring
import Mathlib.Algebra.Order.Round

/-!
# Floats

`Flt K` is a Python/numpy float: a finite value, an infinity or NaN.  Finite
values live in an arbitrary linearly ordered field `K`, so finite arithmetic is
exact; rounding on stores into float32 arrays is the parameter `Arith.f32`.
The sign of zero is not represented.
-/

namespace CLF

/-- A float: finite, `+inf` (`inf false`), `-inf` (`inf true`) or NaN. -/
inductive Flt (K : Type)
  | fin (x : K)
  | inf (neg : Bool)
  | nan
  deriving DecidableEq, Repr

namespace Flt
variable {K : Type} [Field K] [LinearOrder K]

/-- `np.isnan`. -/
def isNaN : Flt K → Bool
  | nan => true
  | _ => false

/-- `np.isinf`. -/
def isInf : Flt K → Bool
  | inf _ => true
  | _ => false

/-- IEEE `a < b`; every comparison with NaN is false. -/
def lt : Flt K → Flt K → Bool
  | nan, _ => false
  | _, nan => false
  | inf a, inf b => a && !b
  | inf a, fin _ => a
  | fin _, inf b => !b
  | fin a, fin b => decide (a < b)

/-- IEEE `a <= b`. -/
def le : Flt K → Flt K → Bool
  | nan, _ => false
  | _, nan => false
  | inf a, inf b => a || !b
  | inf a, fin _ => a
  | fin _, inf b => !b
  | fin a, fin b => decide (a ≤ b)

/-- Sign test used by the IEEE product rules. -/
def isNeg : Flt K → Bool
  | fin a => decide (a < 0)
  | inf a => a
  | nan => false

/-- IEEE negation. -/
def neg : Flt K → Flt K
  | fin a => fin (-a)
  | inf a => inf (!a)
  | nan => nan

/-- IEEE addition (finite part exact). -/
def add : Flt K → Flt K → Flt K
  | nan, _ => nan
  | _, nan => nan
  | inf a, inf b => if a = b then inf a else nan
  | inf a, fin _ => inf a
  | fin _, inf b => inf b
  | fin a, fin b => fin (a + b)

/-- IEEE multiplication (finite part exact); `0 * inf` is NaN. -/
def mul : Flt K → Flt K → Flt K
  | nan, _ => nan
  | _, nan => nan
  | inf a, inf b => inf (xor a b)
  | inf a, fin b => if b = 0 then nan else inf (xor a (decide (b < 0)))
  | fin a, inf b => if a = 0 then nan else inf (xor (decide (a < 0)) b)
  | fin a, fin b => fin (a * b)

/-- numpy division: finite by zero is an infinity or NaN, never an exception.
(The sign of a zero divisor is not represented; it is taken as positive.) -/
def div : Flt K → Flt K → Flt K
  | nan, _ => nan
  | _, nan => nan
  | inf _, inf _ => nan
  | inf a, fin b => inf (xor a (decide (b < 0)))
  | fin _, inf _ => fin 0
  | fin a, fin b =>
    if b = 0 then (if a = 0 then nan else inf (decide (a < 0))) else fin (a / b)

instance : Add (Flt K) := ⟨add⟩
instance : Neg (Flt K) := ⟨neg⟩
instance : Sub (Flt K) := ⟨fun a b => add a (neg b)⟩
instance : Mul (Flt K) := ⟨mul⟩
instance : Div (Flt K) := ⟨div⟩

/-- Python's two-argument `max(a, b)`: `b` only if `b > a`. -/
def pmax (a b : Flt K) : Flt K := if lt a b then b else a

/-- Python's two-argument `min(a, b)`: `b` only if `b < a`. -/
def pmin (a b : Flt K) : Flt K := if lt b a then b else a

end Flt

/-- The arithmetic the code runs on: `f32` is the rounding performed when a
value is stored into a `float32` array, `pow` and `log10` are Python's `pow`
and `math.log10` on floats.  `pow` here is numpy's and never raises; the Python
one is `pyPow` below.  `log10` is only ever applied to arguments the code has
forced above zero. -/
structure Arith (K : Type) where
  f32 : Flt K → Flt K
  pow : Flt K → Flt K → Flt K
  log10 : Flt K → Flt K

/-- "Exact arithmetic": storing does not round. -/
def Arith.Exact {K : Type} (A : Arith K) : Prop := ∀ x, A.f32 x = x

variable {K : Type} [Field K] [LinearOrder K]

/-- Division of two Python (not numpy) floats: a zero divisor raises. -/
def pyDivF (a b : Flt K) : Py (Flt K) :=
  if b = .fin 0 then .error .zeroDivision else .ok (a / b)

/-- `pow` on two Python (not numpy) floats: a zero base with a negative exponent
raises `ZeroDivisionError`, a negative base with a fractional exponent
`ValueError`.  Overflow (`OverflowError`) is not modelled, finite arithmetic
being exact. -/
def pyPow [FloorRing K] (A : Arith K) (base exp : Flt K) : Py (Flt K) :=
  match base, exp with
  | .fin b, .fin e =>
    if b = 0 ∧ e < 0 then .error .zeroDivision
    else if b < 0 ∧ (⌊e⌋ : K) ≠ e then .error .valueError
    else .ok (A.pow base exp)
  | _, _ => .ok (A.pow base exp)

/-- `clf/Common.py:79-81` `clamp(value, minValue, maxValue)`
`= min(maxValue, max(minValue, value))`. -/
def clamp (v lo hi : Flt K) : Flt K := Flt.pmin hi (Flt.pmax lo v)

/-- `clamp` with its default bounds 0.0 and 1.0 (`clf/Common.py:79`). -/
def clamp01 (v : Flt K) : Flt K := clamp v (.fin 0) (.fin 1)

/-- `clf/Common.py:83-88` `mix`: the output has the length of `value1`, and
`value2` is indexed by the same positions. -/
def mix (value1 value2 : List (Flt K)) (mixAmount : Flt K) : Py (List (Flt K)) :=
  (List.range value1.length).mapM fun i => do
    let a ← pyGet value1 i
    let b ← pyGet value2 i
    pure ((Flt.fin 1 - mixAmount) * a + mixAmount * b)

end CLF
