import Mathlib.Algebra.Order.Floor.Ring
import Mathlib.Algebra.BigOperators.Fin
import Mathlib.Algebra.Order.Field.Basic
import Mathlib.Data.Fin.VecNotation
import Verif.Spec.Cube
import Verif.Spec.Real
import Verif.Model.Ieee

/-!
# Specification of chains of colour operations

A chain is a list of maps on RGB triples of numbers, and a bound on how far a computation of it
may be off.
-/

namespace CLF.Spec

variable {K : Type} [Field K] [LinearOrder K] [FloorRing K]

/-- The polygon through the points `(k / m, f k)`, continued by constants to both sides. -/
def polyline {m : ℕ} (f : Fin (m + 1) → K) (x : K) : K :=
  if x ≤ 0 then f 0 else if 1 ≤ x then f (Fin.last m)
  else
    let k := ⌊x * m⌋₊
    f (Fin.ofNat (m + 1) k) + (x * m - k) * (f (Fin.ofNat (m + 1) (k + 1)) - f (Fin.ofNat (m + 1) k))

/-- The axes, from the largest number to the smallest. -/
def descending (f : Fin 3 → K) : Fin 3 → Fin 3 :=
  if f 1 ≤ f 0 then if f 2 ≤ f 1 then ![0, 1, 2] else if f 2 ≤ f 0 then ![0, 2, 1] else ![2, 0, 1]
  else if f 2 ≤ f 0 then ![1, 0, 2] else if f 2 ≤ f 1 then ![1, 2, 0] else ![2, 1, 0]

/-- The function that is affine on each of the six tetrahedra into which the diagonals cut the cells of a cube of samples at the
multiples of `1 / m`, and continued by constants. -/
def simplicial {m : ℕ} (V : Fin (m + 1) → Fin (m + 1) → Fin (m + 1) → K) (v : Fin 3 → K) : K :=
  let p a := min 1 (max 0 (v a)) * m
  let k a := min ⌊p a⌋₊ (m - 1)
  let n a (e : Bool) := Fin.ofNat (m + 1) (if e then k a + 1 else k a)
  tetra (fun a => p a - k a) (fun e => V (n 0 (e 0)) (n 1 (e 1)) (n 2 (e 2))) (descending fun a => p a - k a)

/-- One colour operation.  `curves`, `cube` and `tetra` have samples at the multiples of `S / m`; `grade` takes colours of full scale `S`
to colours of full scale `T`, and so does `tone`, by one curve per channel on the interval from `-D` to `D`, continued by constants;
the curve is known, or computed, up to `ε`. -/
inductive Stage (K : Type)
  | linear (M : Fin 3 → Fin 3 → K) (s : Fin 3 → K)
  | curves (S : K) (m : ℕ) (V : Fin 3 → Fin (m + 1) → K)
  | cube (S : K) (m : ℕ) (V : Fin 3 → Fin (m + 1) → Fin (m + 1) → Fin (m + 1) → K)
  | tetra (S : K) (m : ℕ) (V : Fin 3 → Fin (m + 1) → Fin (m + 1) → Fin (m + 1) → K)
  | clamp (a b c d : K)
  | grade (S T : K) (s o : Fin 3 → K) (φ : Fin 3 → K → K) (σ : K)
  | tone (S T D ε : K) (ψ : Fin 3 → K → K)
  | map (D ε : K) (Φ : (Fin 3 → K) → Fin 3 → K)

/-- Slope, offset and a curve per channel. -/
def graded (S : K) (s o : Fin 3 → K) (φ : Fin 3 → K → K) (v : Fin 3 → K) (i : Fin 3) : K := φ i (clip (v i / S * s i + o i))

/-- What an operation does to a colour.  `clamp a b c d` takes `a` to `c` and `b` to `d`, is affine between and constant beyond. -/
def Stage.eval : Stage K → (Fin 3 → K) → Fin 3 → K
  | .linear M s, v => fun i => ∑ j, M i j * v j + s i
  | .curves S _ V, v => fun i => polyline (V i) (v i / S)
  | .cube S _ V, v => fun i =>
    polyline (fun r => polyline (fun g => polyline (fun b => V i r g b) (v 2 / S)) (v 1 / S)) (v 0 / S)
  | .tetra S _ V, v => fun i => simplicial (V i) fun a => v a / S
  | .clamp a b c d, v => fun i => c + (min b (max a (v i)) - a) * ((d - c) / (b - a))
  | .grade S T s o φ σ, v => fun i =>
    clip (luma (graded S s o φ v) + σ * (graded S s o φ v i - luma (graded S s o φ v))) * T
  | .tone S T D _ ψ, v => fun i => ψ i (min D (max (-D) (v i / S))) * T
  | .map D _ Φ, v => Φ fun j => min D (max (-D) (v j))

/-- All operations, one after another. -/
def evalChain : List (Stage K) → (Fin 3 → K) → Fin 3 → K
  | [], v => v
  | s :: ss, v => evalChain ss (s.eval v)

/-- Powers of `float64` numbers with exponent `p`, as `L` computes them, are close to `φ` on the unit interval. -/
def PowerNear (L : Arith K) (p : K) (φ : K → K) : Prop :=
  ∀ b, double.round (.fin b) = .fin b → 0 ≤ b → b ≤ 1 → ∃ w, L.pow (.fin b) (.fin p) = .fin w ∧ |w - φ b| ≤ 1 / 2 ^ 40

/-- Neighbouring samples differ by at most `J`. -/
def StepsWithin {m : ℕ} (f : Fin (m + 1) → K) (J : K) : Prop :=
  ∀ (k : ℕ) (hk : k + 1 ≤ m), |f ⟨k + 1, by omega⟩ - f ⟨k, by omega⟩| ≤ J

/-- `φ` maps the unit interval to itself and changes distances by at most the factor `k`. -/
structure Curve (φ : K → K) (k : K) : Prop where
  mem : ∀ x, 0 ≤ x → x ≤ 1 → 0 ≤ φ x ∧ φ x ≤ 1
  close : ∀ x y, 0 ≤ x → x ≤ 1 → 0 ≤ y → y ≤ 1 → |φ x - φ y| ≤ k * |x - y|

/-- Between `-D` and `D`, `ψ` is at most `C` in size and changes distances by at most the factor `k`. -/
structure ToneBounds (ψ : K → K) (D k C : K) : Prop where
  nonneg : 0 ≤ k
  size : ∀ x, |x| ≤ D → |ψ x| ≤ C
  close : ∀ x y, |x| ≤ D → |y| ≤ D → |ψ x - ψ y| ≤ k * |x - y|

/-- On colours whose channels are at most `D` in size, `Φ` is at most `C` in size and changes distances by at most the factor `l`. -/
structure MapBounds (Φ : (Fin 3 → K) → Fin 3 → K) (D l C : K) : Prop where
  nonneg : 0 ≤ l
  size : ∀ u, (∀ j, |u j| ≤ D) → ∀ i, |Φ u i| ≤ C
  close : ∀ u v, (∀ j, |u j| ≤ D) → (∀ j, |v j| ≤ D) → ∀ d, (∀ j, |u j - v j| ≤ d) → ∀ i, |Φ u i - Φ v i| ≤ l * d

/-- `Gauge s B l e B'`: on colours whose channels are at most `B` in size, `s` changes distances by at most the factor `l`, one
evaluation of `s` in `float32` is off by at most `e`, and its result is at most `B'` in size. -/
inductive Gauge : Stage K → K → K → K → K → Prop
  | linear {M : Fin 3 → Fin 3 → K} {s : Fin 3 → K} {B N T : K} (hM : ∀ i, ∑ j, |M i j| ≤ N) (hs : ∀ i, |s i| ≤ T)
    (hB : N * B + T ≤ 2 ^ 120) :
    Gauge (.linear M s) B N (20 * ((N * B + T) / 2 ^ 24 + 2 ^ (-150 : ℤ))) (2 * (N * B + T) + 1)
  | curves {S B J C : K} {m : ℕ} {V : Fin 3 → Fin (m + 1) → K} (hJ : ∀ i, StepsWithin (V i) J) (hC : ∀ i k, |V i k| ≤ C) :
    Gauge (.curves S m V) B (J * m / S) ((J * m + C) / 2 ^ 23 + 2 ^ (-150 : ℤ)) C
  | cube {S B J C : K} {m : ℕ} {V : Fin 3 → Fin (m + 1) → Fin (m + 1) → Fin (m + 1) → K}
    (hr : ∀ i g b, StepsWithin (fun r => V i r g b) J) (hg : ∀ i r b, StepsWithin (fun g => V i r g b) J)
    (hb : ∀ i r g, StepsWithin (fun b => V i r g b) J) (hC : ∀ i r g b, |V i r g b| ≤ C) :
    Gauge (.cube S m V) B (3 * J * m / S) ((3 * J * m + C) / 2 ^ 23 + 2 ^ (-150 : ℤ)) C
  | tetra {S B J C : K} {m : ℕ} {V : Fin 3 → Fin (m + 1) → Fin (m + 1) → Fin (m + 1) → K}
    (hr : ∀ i g b, StepsWithin (fun r => V i r g b) J) (hg : ∀ i r b, StepsWithin (fun g => V i r g b) J)
    (hb : ∀ i r g, StepsWithin (fun b => V i r g b) J) (hC : ∀ i r g b, |V i r g b| ≤ C) :
    Gauge (.tetra S m V) B (3 * J * m / S) ((3 * J * m + C) / 2 ^ 23 + 2 ^ (-150 : ℤ)) C
  | clamp {a b c d B : K} :
    Gauge (.clamp a b c d) B ((d - c) / (b - a)) ((b * ((d - c) / (b - a)) + d) / 2 ^ 20 + 2 ^ (-129 : ℤ)) d
  | grade {S T B N O k G : K} {s o : Fin 3 → K} {φ : Fin 3 → K → K} {σ : K} (hs : ∀ i, |s i| ≤ N) (ho : ∀ i, |o i| ≤ O)
    (hφ : ∀ i, Curve (φ i) k) (hN : N ≤ 2 ^ 120) (hZ : N * (B / S) + O ≤ 2 ^ 120) (hσ : |σ| ≤ 2 ^ 120) (hG : G = |1 - σ| + |σ|) :
    Gauge (.grade S T s o φ σ) B (T * (G * (k * (N / S))))
      (T * (G * (k * ((N * (B / S) + O) / 2 ^ 23 + (N + 1) * 2 ^ (-146 : ℤ)) + 1 / 2 ^ 21))) T
  | tone {S T D ε B k C : K} {ψ : Fin 3 → K → K} (hψ : ∀ i, ToneBounds (ψ i) D k C) (hD : B / S * (1 + 1 / 2 ^ 23) + 1 / 2 ^ 100 ≤ D)
    (hC : C + ε ≤ 2 ^ 90) :
    Gauge (.tone S T D ε ψ) B (T * (k / S)) (T * (k * (B / S / 2 ^ 23 + 1 / 2 ^ 140) + ε + (C + ε) / 2 ^ 22 + 1 / 2 ^ 140)) (T * (2 * (C + ε) + 1))
  | map {D ε B l C : K} {Φ : (Fin 3 → K) → Fin 3 → K} (hΦ : MapBounds Φ D l C) (hB : B ≤ D) : Gauge (.map D ε Φ) B l ε (C + ε)

/-- `Budget ss B e e'`: colours that are at most `B` in size and off by at most `e` leave the chain off by at most `e'`. -/
inductive Budget : List (Stage K) → K → K → K → Prop
  | nil {B e : K} : Budget [] B e e
  | cons {s : Stage K} {ss : List (Stage K)} {B e l d B' e' : K} (h : Gauge s B l d B') (hs : Budget ss B' (d + l * e) e') :
    Budget (s :: ss) B e e'

end CLF.Spec
