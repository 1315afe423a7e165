import Verif.Model.Num
import Mathlib.Data.Matrix.Mul
import Mathlib.Data.List.OfFn

/-!
# Specifications: table layouts
-/

namespace CLF.Spec

variable {α : Type}

/-- Row-major text order of a two-dimensional table. -/
def rowMajor {n m : ℕ} (M : Fin n → Fin m → α) : List α :=
  (List.ofFn fun i => List.ofFn (M i)).flatten

/-- Row-major text order of a matrix with an extra column. -/
def rowMajorAug {n m : ℕ} (M : Fin n → Fin m → α) (t : Fin n → α) : List α :=
  (List.ofFn fun i => List.ofFn (M i) ++ [t i]).flatten

/-- Table column that channel `ch` reads in a table of `c + 1` columns: its own, or
the last one there is (so a one-column table serves every channel). -/
def column (c ch : ℕ) : Fin (c + 1) := ⟨min ch c, by omega⟩

/-- Apply a per-channel function to the colour channels (the first three) of a
pixel. -/
def mapColour (g : ℕ → α → α) (p : List α) : List α :=
  p.mapIdx fun i x => if i < 3 then g i x else x

variable {K : Type}

/-- A finite colour (or list of channels) as floats. -/
def fins {n : ℕ} (v : Fin n → K) : List (Flt K) := List.ofFn fun i => .fin (v i)

/-- An image row: each pixel is `n` colour channels followed by extra channels. -/
def image {n : ℕ} (pixels : List ((Fin n → K) × List (Flt K))) : List (Flt K) :=
  (pixels.map fun p => fins p.1 ++ p.2).flatten

/-- A pixel: three colour channels and any further channels. -/
structure Pixel (K : Type) where
  r : Flt K
  g : Flt K
  b : Flt K
  extra : List (Flt K)

/-- The channel values of a pixel in order. -/
def Pixel.toList (p : Pixel K) : List (Flt K) := p.r :: p.g :: p.b :: p.extra

end CLF.Spec
