import Verif.Spec.Chain

/-!
# Chains of colour operations after storage

Storage in a CLF file keeps nine decimals of the numbers in tables and reading rounds them to
`float32`.  `StoredGauge` and `StoredBudget` bound what that and the evaluation in `float32` add up to.
-/

namespace CLF.Spec

variable {K : Type} [Field K] [LinearOrder K] [FloorRing K]

/-- What storage changes a number that is at most `C` in size by, at most. -/
def storeError (C : K) : K := 1 / 10 ^ 9 + C / 2 ^ 24

/-- `StoredGauge s B l e B'`: on colours whose channels are at most `B` in size, `s` changes distances by at most the factor `l`,
one evaluation of the stored `s` in `float32` is off from `s` by at most `e`, and its result is at most `B'` in size. -/
inductive StoredGauge : Stage K → K → K → K → K → Prop
  | linear {M : Fin 3 → Fin 3 → K} {s : Fin 3 → K} {B N T N' T' : K} (hM : ∀ i, ∑ j, |M i j| ≤ N) (hs : ∀ i, |s i| ≤ T)
    (hN : N ≤ 2 ^ 120) (hT : T ≤ 2 ^ 120) (hN' : N' = N + (3 / 10 ^ 9 + N / 2 ^ 24)) (hT' : T' = T + storeError T)
    (hB : N' * B + T' ≤ 2 ^ 120) :
    StoredGauge (.linear M s) B N (20 * ((N' * B + T') / 2 ^ 24 + 2 ^ (-150 : ℤ)) + ((N' - N) * B + (T' - T)))
      (2 * (N' * B + T') + 1)
  | curves {S B J C J' C' : K} {m : ℕ} {V : Fin 3 → Fin (m + 1) → K} (hJ : ∀ i, StepsWithin (V i) J) (hC : ∀ i k, |V i k| ≤ C)
    (hC0 : C ≤ 2 ^ 120) (hJ' : J' = J + 2 * storeError C) (hC' : C' = C + storeError C) :
    StoredGauge (.curves S m V) B (J * m / S) ((J' * m + C') / 2 ^ 23 + 2 ^ (-150 : ℤ) + storeError C) C'
  | cube {S B J C J' C' : K} {m : ℕ} {V : Fin 3 → Fin (m + 1) → Fin (m + 1) → Fin (m + 1) → K}
    (hr : ∀ i g b, StepsWithin (fun r => V i r g b) J) (hg : ∀ i r b, StepsWithin (fun g => V i r g b) J)
    (hb : ∀ i r g, StepsWithin (fun b => V i r g b) J) (hC : ∀ i r g b, |V i r g b| ≤ C)
    (hC0 : C ≤ 2 ^ 120) (hJ' : J' = J + 2 * storeError C) (hC' : C' = C + storeError C) :
    StoredGauge (.cube S m V) B (3 * J * m / S) ((3 * J' * m + C') / 2 ^ 23 + 2 ^ (-150 : ℤ) + storeError C) C'
  | tetra {S B J C J' C' : K} {m : ℕ} {V : Fin 3 → Fin (m + 1) → Fin (m + 1) → Fin (m + 1) → K}
    (hr : ∀ i g b, StepsWithin (fun r => V i r g b) J) (hg : ∀ i r b, StepsWithin (fun g => V i r g b) J)
    (hb : ∀ i r g, StepsWithin (fun b => V i r g b) J) (hC : ∀ i r g b, |V i r g b| ≤ C)
    (hC0 : C ≤ 2 ^ 120) (hJ' : J' = J + 2 * storeError C) (hC' : C' = C + storeError C) :
    StoredGauge (.tetra S m V) B (3 * J * m / S) ((3 * J' * m + C') / 2 ^ 23 + 2 ^ (-150 : ℤ) + storeError C) C'
  | clamp {a b c d B : K} :
    StoredGauge (.clamp a b c d) B ((d - c) / (b - a)) ((b * ((d - c) / (b - a)) + d) / 2 ^ 20 + 2 ^ (-129 : ℤ)) d

/-- `StoredBudget ss B e e'`: colours that are at most `B` in size and off by at most `e` leave the stored chain off by at most `e'`
from what the chain makes of them. -/
inductive StoredBudget : List (Stage K) → K → K → K → Prop
  | nil {B e : K} : StoredBudget [] B e e
  | cons {s : Stage K} {ss : List (Stage K)} {B e l d B' e' : K} (h : StoredGauge s B l d B') (hs : StoredBudget ss B' (d + l * e) e') :
    StoredBudget (s :: ss) B e e'

end CLF.Spec
