import Verif.Model.Csp

/-! # Specification: the rows of LUT files -/

namespace CLF.Spec

variable {K : Type} [Field K] [LinearOrder K] [IsStrictOrderedRing K] [FloorRing K]

/-- A line without text. -/
def BlankLine (line : Txt) : Prop := ∀ c ∈ line, isSpace c = true

/-- The numbers of a line. -/
def RowNumbers (line : Txt) (vs : List (Flt K)) : Prop :=
  List.Forall₂ (fun w v => readFlt w = .ok v) (words line) vs

/-- The first three lines of an SPI 3D file of version 1 with sides `a`, `b`, `c`. -/
def Spi3dHead (l0 l1 l2 : Txt) (a b c : ℕ) : Prop :=
  (∃ v ws, words l0 = "SPILUT".toList :: v :: ws ∧ readFlt (K := K) v = .ok (.fin 1)) ∧
  (∃ ns, readNats l1 = .ok (3 :: ns)) ∧
  readNats l2 = .ok [a, b, c]

/-- The order of lattice points in which blue varies fastest. -/
def Before (p q : ℕ × ℕ × ℕ) : Prop :=
  p.1 < q.1 ∨ p.1 = q.1 ∧ (p.2.1 < q.2.1 ∨ p.2.1 = q.2.1 ∧ p.2.2 < q.2.2)

end CLF.Spec
