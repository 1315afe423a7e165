import Verif.Model.Num
import Verif.Model.BitDepth

/-!
# Specifications: bit depths and ranges

Independent of the model's functions (only its data types are used).
-/

namespace CLF.Spec

/-- Number of bits of an integer bit depth; `none` for float depths and anything
unknown. -/
def bits : Depth → Option ℕ
  | some (.str "8i") => some 8
  | some (.str "10i") => some 10
  | some (.str "12i") => some 12
  | some (.str "16i") => some 16
  | _ => none

variable {K : Type} [Field K] [LinearOrder K]

/-- Full-scale code value of a depth: the largest integer, or 1. -/
def fullScale (d : Depth) : K :=
  match bits d with
  | some n => 2 ^ n - 1
  | none => 1

/-- The affine map taking `a ↦ c` and `b ↦ d`. -/
def affine (a b c d x : K) : K := c + (x - a) * ((d - c) / (b - a))

/-- The map that keeps distances relative to full scale and takes `a ↦ c`. -/
def shift (din dout : Depth) (a c x : K) : K := c + (x - a) / fullScale din * fullScale dout

/-- Rescaling code values from one depth to another; infinities and NaN stay. -/
def convert (din dout : Depth) : Flt K → Flt K
  | .fin x => .fin (x / fullScale din * fullScale dout)
  | .inf s => .inf s
  | .nan => .nan

end CLF.Spec
