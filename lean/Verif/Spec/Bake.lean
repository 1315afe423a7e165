import Verif.Spec.StoredChain
import Verif.Model.Scripts

/-!
# Specification of sampled maps

A map of colours, and how far the polygon through its samples may be off.
-/

namespace CLF.Spec

variable {K : Type} [Field K] [LinearOrder K] [FloorRing K]

/-- A colour of the unit cube. -/
def InCube (u : Fin 3 → K) : Prop := ∀ i, 0 ≤ u i ∧ u i ≤ 1

/-- On the unit cube, `F` changes distances (the largest of the three channels) by at most the factor `l`. -/
def Gentle (F : (Fin 3 → K) → Fin 3 → K) (l : K) : Prop :=
  ∀ u v, InCube u → InCube v → ∀ d, (∀ i, |u i - v i| ≤ d) → ∀ i, |F u i - F v i| ≤ l * d

/-- The nearest number of the unit interval. -/
def unitClamp (x : K) : K := min 1 (max 0 x)

/-- `Slope ss B l`: on colours that are at most `B` in size, the chain changes distances by at most the factor `l`. -/
inductive Slope : List (Stage K) → K → K → Prop
  | nil {B : K} : Slope [] B 1
  | cons {s : Stage K} {ss : List (Stage K)} {B l d B' l' : K} (h : Gauge s B l d B') (hs : Slope ss B' l') : Slope (s :: ss) B (l' * l)

/-- How far a sample is off that is computed up to `e`, at a `float32` position, and written up to `w`, if the map has slope `l`. -/
def sampleError (l e w : K) : K := e + l / 2 ^ 23 + w

/-- How far a map of slope `l` is off after it was sampled at the multiples of `1 / m` along `a` axes, each sample off by at most `d` and at
most `C` in size, and the samples were stored and interpolated in `float32`: interpolation, samples, evaluation, storage. -/
def bakeError (m : ℕ) (a l d C : K) : K :=
  a * (l / (2 * m)) + d + ((a * (l / m + 2 * d + 2 * storeError C) * m + (C + storeError C)) / 2 ^ 23 + 2 ^ (-150 : ℤ) + storeError C)

/-- Numbers of `float32` that are at most `C` in size are read back from their texts up to `w`. -/
def TextsWithin (back : Flt K → Flt K) (C w : K) : Prop :=
  ∀ x, single.round (.fin x) = .fin x → |x| ≤ C → ∃ y, back (.fin x) = .fin y ∧ |y - x| ≤ w

/-- The options of `convertCLFtoLUT` that bake the file at `clf` into a table over [0, 1] at `path`. -/
structure Bakes (o : ToLutOptions K) (clf : String) (path : Txt) : Prop where
  clf : o.clf = some clf
  lut : o.lut = some path
  lo : o.lo = .fin 0
  hi : o.hi = .fin 1
  shapers : o.shaperIn = [] ∧ o.shaperOut = []

end CLF.Spec
