import Verif.Model.Rounded
import Verif.Model.Sampling

/-! # Sample positions with rounding

As in `Model/Rounded.lean` a rounding follows each operation.  Numbers of Python are `float64`. -/

namespace CLF

variable {K : Type} [Field K] [LinearOrder K] [IsStrictOrderedRing K] [FloorRing K]

/-- `float(i)/(n-1)` (`lutFormats/Sampling.py:128, 282, 321, 343-347, 458, 481-483, 515`,
`lutFormats/LutCSP.py:206`, `clf/LUT1D.py:236`, `clf/LUT3D.py:220-226`). -/
def unitPointR (R : Rounding K) (n i : ℕ) : Py (Flt K) := do
  let t ← pyDivF (.fin (i : K)) (.fin ((n : K) - 1))
  pure (R double t)

/-- `float(i)/(n-1)*(hi-lo)+lo` (`lutFormats/Sampling.py:321-322, 343-348, 458-459`). -/
def samplePointR (R : Rounding K) (n : ℕ) (lo hi : Flt K) (i : ℕ) : Py (Flt K) := do
  let t ← unitPointR R n i
  pure (R double (R double (t * R double (hi - lo)) + lo))

end CLF
