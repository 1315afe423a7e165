import Mathlib.Data.Rat.Floor
import Mathlib.Tactic.Ring
import Mathlib.Tactic.Linarith
import Mathlib.Tactic.FieldSimp
import Verif.Model.Process

/-! Simplification lemmas for floats, depths and Python values. -/

set_option linter.unusedSectionVars false

namespace CLF

section Except
variable {α β : Type}

@[simp] theorem py_ok_bind (a : α) (f : α → Py β) : (Except.ok a : Py α) >>= f = f a := rfl
@[simp] theorem py_error_bind (e : PyErr) (f : α → Py β) :
    (Except.error e : Py α) >>= f = .error e := rfl
@[simp] theorem py_pure (a : α) : (pure a : Py α) = .ok a := rfl

theorem py_bind_eq_ok {x : Py α} {f : α → Py β} {b : β} :
    x >>= f = .ok b ↔ ∃ a, x = .ok a ∧ f a = .ok b := by
  cases x with
  | error e => simp
  | ok a => simp

@[simp] theorem pyGet_nil (i : ℕ) : pyGet ([] : List α) i = .error .indexError := by
  simp [pyGet]
@[simp] theorem pyGet_zero (a : α) (l : List α) : pyGet (a :: l) 0 = .ok a := rfl
@[simp] theorem pyGet_succ (a : α) (l : List α) (i : ℕ) : pyGet (a :: l) (i + 1) = pyGet l i := by
  simp [pyGet]
theorem pyGet_eq_ok {l : List α} {i : ℕ} {x : α} : pyGet l i = .ok x ↔ l[i]? = some x := by
  unfold pyGet; cases l[i]? <;> simp
theorem pyGet_of_lt {l : List α} {i : ℕ} (h : i < l.length) : pyGet l i = .ok l[i] := by
  simp [pyGet, h]
theorem pyGet_of_ge {l : List α} {i : ℕ} (h : l.length ≤ i) : pyGet l i = .error .indexError := by
  simp [pyGet, h]
theorem pyIdx_of_lt {l : List α} {i : ℕ} (h : i < l.length) : pyIdx l (i : ℤ) = .ok l[i] := by
  have h0 : ¬ ((i : ℤ) < 0) := by omega
  simp [pyIdx, h, h0]
theorem pyIdx_natCast {l : List α} {i : ℕ} : pyIdx l (i : ℤ) = pyGet l i := by
  have h0 : ¬ ((i : ℤ) < 0) := by omega
  simp [pyIdx, pyGet, h0]
theorem pyIdx_neg_one {l : List α} (h : l ≠ []) : pyIdx l (-1) = .ok (l.getLast h) := by
  have hl : 0 < l.length := List.length_pos_iff.mpr h
  have h1 : ¬ ((-1 : ℤ) + l.length < 0) := by omega
  have h2 : ((-1 : ℤ) + l.length).toNat = l.length - 1 := by omega
  simp only [pyIdx, show (-1 : ℤ) < 0 by decide, if_true, h1, if_false, h2]
  rw [List.getElem?_eq_getElem (by omega)]
  simp [List.getLast_eq_getElem]
theorem pySet_of_lt {l : List α} {i : ℕ} {x : α} (h : i < l.length) :
    pySet l i x = .ok (l.set i x) := by simp [pySet, h]
end Except

namespace Flt
variable {K : Type} [Field K] [LinearOrder K]

@[simp] theorem fin_add (a b : K) : (fin a : Flt K) + fin b = fin (a + b) := rfl
@[simp] theorem fin_sub (a b : K) : (fin a : Flt K) - fin b = fin (a - b) := by
  show add (fin a) (neg (fin b)) = _
  simp [add, neg, sub_eq_add_neg]
@[simp] theorem fin_mul (a b : K) : (fin a : Flt K) * fin b = fin (a * b) := rfl
@[simp] theorem fin_neg (a : K) : -(fin a : Flt K) = fin (-a) := rfl
theorem fin_div {a b : K} (h : b ≠ 0) : (fin a : Flt K) / fin b = fin (a / b) := by
  show div (fin a) (fin b) = _
  simp [div, h]
@[simp] theorem nan_add (a : Flt K) : (nan : Flt K) + a = nan := by cases a <;> rfl
@[simp] theorem add_nan (a : Flt K) : a + (nan : Flt K) = nan := by cases a <;> rfl
@[simp] theorem nan_mul (a : Flt K) : (nan : Flt K) * a = nan := by cases a <;> rfl
@[simp] theorem mul_nan (a : Flt K) : a * (nan : Flt K) = nan := by cases a <;> rfl
@[simp] theorem nan_div (a : Flt K) : (nan : Flt K) / a = nan := by cases a <;> rfl
@[simp] theorem div_nan (a : Flt K) : a / (nan : Flt K) = nan := by cases a <;> rfl
@[simp] theorem nan_sub (a : Flt K) : (nan : Flt K) - a = nan := by cases a <;> rfl
@[simp] theorem sub_nan (a : Flt K) : a - (nan : Flt K) = nan := by cases a <;> rfl
@[simp] theorem lt_fin (a b : K) : lt (fin a) (fin b) = decide (a < b) := rfl
@[simp] theorem le_fin (a b : K) : le (fin a) (fin b) = decide (a ≤ b) := rfl
@[simp] theorem lt_nan (a : Flt K) : lt a nan = false := by cases a <;> rfl
@[simp] theorem nan_lt (a : Flt K) : lt nan a = false := by cases a <;> rfl
@[simp] theorem le_nan (a : Flt K) : le a nan = false := by cases a <;> rfl
@[simp] theorem nan_le (a : Flt K) : le nan a = false := by cases a <;> rfl
@[simp] theorem lt_fin_inf (a : K) (s : Bool) : lt (fin a) (inf s) = !s := rfl
@[simp] theorem lt_inf_fin (a : K) (s : Bool) : lt (inf s) (fin a) = s := rfl
@[simp] theorem pmax_fin (a b : K) : pmax (fin a) (fin b) = fin (max a b) := by
  simp only [pmax, lt_fin, decide_eq_true_eq]
  split
  · next h => rw [max_eq_right h.le]
  · next h => rw [max_eq_left (not_lt.mp h)]
@[simp] theorem pmin_fin (a b : K) : pmin (fin a) (fin b) = fin (min a b) := by
  simp only [pmin, lt_fin, decide_eq_true_eq]
  split
  · next h => rw [min_eq_right h.le]
  · next h => rw [min_eq_left (not_lt.mp h)]

end Flt

section Depth
variable {K : Type} [Field K] [LinearOrder K] [IsStrictOrderedRing K]

theorem bitDepthSize_pos (d : Depth) : 0 < (bitDepthSize d : K) := by
  unfold bitDepthSize
  split_ifs <;> norm_num

theorem bitDepthSize_ne (d : Depth) : (bitDepthSize d : K) ≠ 0 := (bitDepthSize_pos d).ne'

/-- `bitDepthToNormalized` divides by the full scale. -/
theorem toNormalized_eq (v : Flt K) (d : Depth) :
    bitDepthToNormalized v d = v / .fin (bitDepthSize d) := by
  unfold bitDepthToNormalized bitDepthSize
  split_ifs
  · rfl
  · rfl
  · rfl
  · rfl
  · cases v with
    | fin x => rw [Flt.fin_div one_ne_zero]; simp
    | inf s => show _ = Flt.div _ _; simp [Flt.div, not_lt.mpr (zero_le_one (α := K))]
    | nan => simp

/-- `normalizedToBitDepth` multiplies by the full scale. -/
theorem toDepth_eq (v : Flt K) (d : Depth) :
    normalizedToBitDepth v d = v * .fin (bitDepthSize d) := by
  unfold normalizedToBitDepth bitDepthSize
  split_ifs
  · rfl
  · rfl
  · rfl
  · rfl
  · cases v with
    | fin x => simp
    | inf s => show _ = Flt.mul _ _; simp [Flt.mul, not_lt.mpr (zero_le_one (α := K))]
    | nan => simp

@[simp] theorem toNormalized_fin (x : K) (d : Depth) :
    bitDepthToNormalized (.fin x) d = .fin (x / bitDepthSize d) := by
  rw [toNormalized_eq, Flt.fin_div (bitDepthSize_ne d)]

@[simp] theorem toDepth_fin (x : K) (d : Depth) :
    normalizedToBitDepth (.fin x) d = .fin (x * bitDepthSize d) := by
  rw [toDepth_eq, Flt.fin_mul]

@[simp] theorem toNormalized_nan (d : Depth) :
    bitDepthToNormalized (.nan : Flt K) d = .nan := by rw [toNormalized_eq]; simp

@[simp] theorem toNormalized_inf (s : Bool) (d : Depth) :
    bitDepthToNormalized (.inf s : Flt K) d = .inf s := by
  rw [toNormalized_eq]
  show Flt.div _ _ = _
  simp [Flt.div, not_lt.mpr (bitDepthSize_pos (K := K) d).le]

@[simp] theorem toDepth_nan (d : Depth) :
    normalizedToBitDepth (.nan : Flt K) d = .nan := by rw [toDepth_eq]; simp

@[simp] theorem toDepth_inf (s : Bool) (d : Depth) :
    normalizedToBitDepth (.inf s : Flt K) d = .inf s := by
  rw [toDepth_eq]
  show Flt.mul _ _ = _
  simp [Flt.mul, not_lt.mpr (bitDepthSize_pos (K := K) d).le, bitDepthSize_ne]

end Depth

section Clamp
variable {K : Type} [Field K] [LinearOrder K]

theorem clamp_fin (x lo hi : K) :
    clamp (.fin x) (.fin lo) (.fin hi) = .fin (min hi (max lo x)) := by
  simp [clamp]

/-- `clamp` of any float by finite bounds is finite and in range. -/
theorem clamp_mem (v : Flt K) {lo hi : K} (h : lo ≤ hi) :
    ∃ y, clamp v (.fin lo) (.fin hi) = .fin y ∧ lo ≤ y ∧ y ≤ hi := by
  cases v with
  | fin x => exact ⟨_, clamp_fin x lo hi, le_min h (le_max_left _ _), min_le_left _ _⟩
  | inf s =>
    cases s with
    | false => exact ⟨hi, by simp [clamp, Flt.pmax, Flt.pmin], h, le_rfl⟩
    | true => exact ⟨lo, by
      simp only [clamp, Flt.pmax, Flt.pmin]
      simpa using fun h' => le_antisymm h' h, le_rfl, h⟩
  | nan => exact ⟨lo, by
      simp only [clamp, Flt.pmax, Flt.pmin]
      simpa using fun h' => le_antisymm h' h, le_rfl, h⟩

end Clamp

section Clamp01
variable {K : Type} [Field K] [LinearOrder K] [IsStrictOrderedRing K]
theorem clamp01_fin (x : K) : clamp01 (.fin x) = .fin (min 1 (max 0 x)) := clamp_fin x 0 1

theorem clamp01_mem (v : Flt K) : ∃ y, clamp01 v = .fin y ∧ 0 ≤ y ∧ y ≤ 1 :=
  clamp_mem v zero_le_one

theorem clamp01_of_mem {x : K} (h0 : 0 ≤ x) (h1 : x ≤ 1) : clamp01 (.fin x) = .fin x := by
  rw [clamp01_fin, max_eq_right h0, min_eq_right h1]

end Clamp01

theorem pyDivF_fin {K : Type} [Field K] [LinearOrder K] {a b : K} (h : b ≠ 0) :
    pyDivF (.fin a) (.fin b) = .ok (.fin (a / b)) := by
  simp [pyDivF, h, Flt.fin_div h]

end CLF
