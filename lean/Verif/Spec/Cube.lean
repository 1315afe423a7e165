import Verif.Spec.Layout

/-!
# Specifications: three-dimensional tables
-/

namespace CLF.Spec

variable {α : Type}

/-- Text order of an `a × b × c` table of colours: the last index varies fastest. -/
def cube {a b c : ℕ} (V : Fin a → Fin b → Fin c → Fin 3 → α) : List α :=
  (List.ofFn fun i => (List.ofFn fun j => (List.ofFn fun k =>
    List.ofFn (V i j k)).flatten).flatten).flatten

variable {K : Type} [Field K] [LinearOrder K]

/-- A channel value confined to [0, 1]; NaN counts as 0. -/
def unit : Flt K → K
  | .fin x => min 1 (max 0 x)
  | .inf false => 1
  | .inf true => 0
  | .nan => 0

/-- Lattice index `i` of an axis with `m` cells is an end of the cell that position
`x` (in [0, 1]) lies in, and is `x` itself if `x` is a lattice position. -/
def near (m : ℕ) (x : K) (i : Fin (m + 1)) : Prop := |x * m - (i : ℕ)| < 1

/-- Barycentric interpolation in the tetrahedron of the unit cell that is reached from
corner (0,0,0) by raising the axes `s 0`, `s 1`, `s 2` one after another. -/
def tetra (f : Fin 3 → K) (corner : (Fin 3 → Bool) → K) (s : Fin 3 → Fin 3) : K :=
  (1 - f (s 0)) * corner (fun _ => false)
  + (f (s 0) - f (s 1)) * corner (fun a => a == s 0)
  + (f (s 1) - f (s 2)) * corner (fun a => a == s 0 || a == s 1)
  + f (s 2) * corner (fun _ => true)

end CLF.Spec
