import Verif.Spec.Real
import Verif.Spec.Nodes

/-!
# Specifications: gamma and log curves, per-channel parameter rows
-/

namespace CLF.Spec

/-- The letter a file uses for a colour channel. -/
def letter (i : Fin 3) : String := ["R", "G", "B"].get i

/-- The row that applies to channel `i`: the last one given for all channels or for
this channel. -/
def rowFor {ρ : Type} (chan : ρ → Option String) (rows : List ρ) (i : Fin 3) : Option ρ :=
  rows.reverse.find? fun p => chan p = none ∨ chan p = some (letter i)

/-- Every row is for all channels, or for R, G or B. -/
def GoodLetters {ρ : Type} (chan : ρ → Option String) (rows : List ρ) : Prop :=
  ∀ p ∈ rows, chan p = none ∨ ∃ i, chan p = some (letter i)

/-- The gamma and offset of channel `i`: 1 and 0 unless given. -/
def gammaFor {K : Type} [Field K] (rows : List (GammaParam K)) (i : Fin 3) : Flt K × Flt K :=
  match rowFor GammaParam.channel rows i with
  | some p => (p.gamma, p.offset)
  | none => (.fin 1, .fin 0)

/-- Break point of the monitor curve. -/
noncomputable def monBreak (g o : ℝ) : ℝ := o / (g - 1)

/-- The monitor curve with exponent `g` and offset `o`: a power segment above the
break point and the line through the origin that meets it there. -/
noncomputable def moncurve (g o x : ℝ) : ℝ :=
  if x ≤ monBreak g o then ((monBreak g o + o) / (1 + o)) ^ g / monBreak g o * x
  else ((x + o) / (1 + o)) ^ g

/-- The smallest normal single-precision number, as the code writes it. -/
noncomputable def floor32 : ℝ := 1.1754943508222875e-38

/-- The parameters of a film log curve. -/
structure FilmLog where
  gamma : ℝ
  refWhite : ℝ
  refBlack : ℝ
  highlight : ℝ
  shadow : ℝ

/-- Relative exposure of a normalised log code value. -/
noncomputable def FilmLog.exposure (p : FilmLog) (x : ℝ) : ℝ :=
  10 ^ ((1023 * x - p.refWhite) * 0.002 / p.gamma)

/-- Relative exposure of reference black (kept below 1). -/
noncomputable def FilmLog.black (p : FilmLog) : ℝ :=
  10 ^ (min (-0.00001) ((p.refBlack - p.refWhite) * 0.002 / p.gamma))

/-- Linear value of a relative exposure: black goes to `shadow`, 1 to `highlight`. -/
noncomputable def FilmLog.linear (p : FilmLog) (e : ℝ) : ℝ :=
  p.shadow + (e - p.black) * ((p.highlight - p.shadow) / (1 - p.black))

/-- Relative exposure of a linear value. -/
noncomputable def FilmLog.ofLinear (p : FilmLog) (y : ℝ) : ℝ :=
  p.black + (y - p.shadow) / ((p.highlight - p.shadow) / (1 - p.black))

/-- The five numbers in effect for channel `i` are those of `p`. -/
def LogIs (rows : List (LogParam ℝ)) (i : Fin 3) (p : FilmLog) : Prop :=
  match rowFor LogParam.channel rows i with
  | some r => r.gamma = .fin p.gamma ∧ r.refWhite = .fin p.refWhite ∧ r.refBlack = .fin p.refBlack ∧
      r.highlight = .fin p.highlight ∧ r.shadow = .fin p.shadow
  | none => p = ⟨0.6, 685, 95, 1, 0⟩

end CLF.Spec
