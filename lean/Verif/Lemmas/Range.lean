import Verif.Lemmas.Loops
import Verif.Spec.Basic

/-! Lemmas about bit depths and the Range node. -/

set_option linter.unusedSectionVars false

namespace CLF

variable {K : Type} [Field K] [LinearOrder K] [IsStrictOrderedRing K]

theorem bitDepthSize_eq_fullScale (d : Depth) : (bitDepthSize d : K) = Spec.fullScale d := by
  unfold bitDepthSize Spec.fullScale
  split_ifs with h1 h2 h3 h4
  · subst h1; rfl
  · subst h2; rfl
  · subst h3; rfl
  · subst h4; rfl
  · unfold Spec.bits
    split <;> simp_all [depth]

theorem fullScale_pos (d : Depth) : 0 < (Spec.fullScale d : K) := by
  rw [← bitDepthSize_eq_fullScale]; exact bitDepthSize_pos d

theorem fullScale_ne (d : Depth) : (Spec.fullScale d : K) ≠ 0 := (fullScale_pos d).ne'

theorem convert_fin (d1 d2 : Depth) (x : K) :
    Spec.convert d1 d2 (.fin x) = .fin (x / Spec.fullScale d1 * Spec.fullScale d2) := rfl

variable [FloorRing K]

/-- `rangeProcess` is a pointwise map. -/
theorem rangeProcess_eq (A : Arith K) (b : Base K) (din dout : AVal) (values : List (Flt K))
    (hin : b.attrs.get? "inBitDepth" = some din) (hout : b.attrs.get? "outBitDepth" = some dout)
    (cl : Bool)
    (hcl : (match b.attrs.get? "style" with
      | some s => decide (s = AVal.str "clamp") | none => true) = cl)
    (mi ma mo mx : Option (Flt K))
    (h1 : (if (b.attrs.get? "defaultRange").isSome && (rangeBound b "minInValue" (some din)).isNone
      then some (.fin 0) else rangeBound b "minInValue" (some din)) = mi)
    (h2 : (if (b.attrs.get? "defaultRange").isSome && (rangeBound b "maxInValue" (some din)).isNone
      then some (.fin 1) else rangeBound b "maxInValue" (some din)) = ma)
    (h3 : (if (b.attrs.get? "defaultRange").isSome && (rangeBound b "minOutValue" (some dout)).isNone
      then some (.fin 0) else rangeBound b "minOutValue" (some dout)) = mo)
    (h4 : (if (b.attrs.get? "defaultRange").isSome && (rangeBound b "maxOutValue" (some dout)).isNone
      then some (.fin 1) else rangeBound b "maxOutValue" (some dout)) = mx) :
    rangeProcess A b values = (do
      let out ← values.mapM (rangeStep A (some din) (some dout) cl mi ma mo mx)
      .ok ⟨out, out, true⟩) := by
  subst hcl h1 h2 h3 h4
  unfold rangeProcess
  have e1 : b.attrE "inBitDepth" = .ok (some din) := by simp [Base.attrE, Dict.getE, hin]
  have e2 : b.attrE "outBitDepth" = .ok (some dout) := by simp [Base.attrE, Dict.getE, hout]
  rw [e1, e2]
  simp only [py_ok_bind]
  rw [chanLoop_const]
  rfl

end CLF
