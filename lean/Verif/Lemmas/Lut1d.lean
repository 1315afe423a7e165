import Verif.Lemmas.Matrix
import Verif.Lemmas.IndexMap
import Verif.Model.Build

/-! Lemmas about one-dimensional tables. -/

set_option linter.unusedSectionVars false

namespace CLF

variable {K : Type} [Field K] [LinearOrder K] [IsStrictOrderedRing K] [FloorRing K]

theorem pyIdx_of_nonneg {α : Type} (l : List α) (i : ℤ) (h : 0 ≤ i) :
    pyIdx l i = pyGet l i.toNat := by
  conv_lhs => rw [← Int.toNat_of_nonneg h]
  exact pyIdx_natCast

/-- Nearest table row to an integer index. -/
def clampRow (m : ℕ) (i : ℤ) : Fin (m + 1) :=
  ⟨(max 0 (min i m)).toNat, by omega⟩

theorem lookup1D_table {m c : ℕ} (a : Arr K) (T : Fin (m + 1) → Fin (c + 1) → Flt K)
    (rest : List ℕ) (hd : a.dims = (m + 1) :: (c + 1) :: rest) (hv : a.values = Spec.rowMajor T)
    (hc : c = 0 ∨ c = 2) (i : ℤ) (ch : ℕ) :
    a.lookup1D i ch = .ok (T (clampRow m i) (Spec.column c ch)) := by
  have h0 : pyGet a.dims 0 = .ok (m + 1) := by rw [hd]; rfl
  have h1 : pyGet a.dims 1 = .ok (c + 1) := by rw [hd]; rfl
  have hget : ∀ (r k : ℕ) (hr : r < m + 1) (hk : k < c + 1),
      pyGet a.values (k + r * (c + 1)) = .ok (T ⟨r, hr⟩ ⟨k, hk⟩) := by
    intro r k hr hk; rw [hv]; exact rowMajor_get T r k hr hk
  unfold Arr.lookup1D
  simp only [h0, h1, py_ok_bind]
  rcases hc with rfl | rfl
  · simp only [show ¬ (0 + 1 = 3) by decide, if_false]
    have e : Spec.column 0 ch = ⟨0, by omega⟩ := by simp [Spec.column]
    rw [e]
    split_ifs with h2 h3
    · have := hget 0 0 (by omega) (by omega)
      have e2 : clampRow m i = ⟨0, by omega⟩ := by
        ext; simp only [clampRow]; omega
      rw [e2, pyIdx_of_nonneg _ _ le_rfl]; simpa using this
    · have := hget m 0 (by omega) (by omega)
      have e2 : clampRow m i = ⟨m, by omega⟩ := by
        ext; simp only [clampRow]; omega
      rw [e2, pyIdx_of_nonneg _ _ (by omega)]
      rw [← this]; congr 1; push_cast; omega
    · have := hget i.toNat 0 (by omega) (by omega)
      have e2 : clampRow m i = ⟨i.toNat, by omega⟩ := by
        ext; simp only [clampRow]; omega
      rw [e2, pyIdx_of_nonneg _ _ (by omega)]
      rw [← this]; congr 1; omega
  · simp only [show (2 + 1 = 3) from rfl, if_true]
    obtain ⟨w, hw, hch0, hch2⟩ : ∃ w : ℤ, max 0 (min 2 (ch : ℤ)) = w ∧ 0 ≤ w ∧ w ≤ 2 :=
      ⟨_, rfl, by omega, by omega⟩
    have e : Spec.column 2 ch = ⟨w.toNat, by omega⟩ := by
      ext; simp only [Spec.column]; omega
    rw [e, hw]
    split_ifs with h2 h3
    · have := hget 0 w.toNat (by omega) (by omega)
      have e2 : clampRow m i = ⟨0, by omega⟩ := by
        ext; simp only [clampRow]; omega
      rw [e2, pyIdx_of_nonneg _ _ (by omega)]
      rw [← this]; congr 1; omega
    · have := hget m w.toNat (by omega) (by omega)
      have e2 : clampRow m i = ⟨m, by omega⟩ := by
        ext; simp only [clampRow]; omega
      rw [e2, pyIdx_of_nonneg _ _ (by push_cast; omega)]
      rw [← this]; congr 1; push_cast; omega
    · have := hget i.toNat w.toNat (by omega) (by omega)
      have e2 : clampRow m i = ⟨i.toNat, by omega⟩ := by
        ext; simp only [clampRow]; omega
      rw [e2, pyIdx_of_nonneg _ _ (by push_cast; omega)]
      rw [← this]; congr 1; push_cast; omega

/-- A linear lookup in a finite table, in terms of the scaled position. -/
theorem lookup1DLinear_table {m c : ℕ} (a : Arr K) (V : Fin (m + 1) → Fin (c + 1) → K)
    (rest : List ℕ) (hd : a.dims = (m + 1) :: (c + 1) :: rest)
    (hv : a.values = Spec.rowMajor fun i j => .fin (V i j))
    (hc : c = 0 ∨ c = 2) (x : K) (ch : ℕ) :
    a.lookup1DLinear (.fin x) ch = .ok (.fin ((1 - (x * m - ⌊x * m⌋)) *
      V (clampRow m ⌊x * m⌋) (Spec.column c ch) +
      (x * m - ⌊x * m⌋) * V (clampRow m ⌈x * m⌉) (Spec.column c ch))) := by
  have h0 : pyGet a.dims 0 = .ok (m + 1) := by rw [hd]; rfl
  unfold Arr.lookup1DLinear
  simp only [h0, py_ok_bind, Flt.fin_mul]
  have e : x * (((m + 1 : ℕ) : K) - 1) = x * m := by push_cast; ring
  simp only [e, lookup1D_table a _ rest hd hv hc, py_ok_bind, py_pure, Flt.fin_sub, Flt.fin_mul,
    Flt.fin_add]

/-- Interpolating on the scaled axis. -/
def lerpRow {m : ℕ} (f : Fin (m + 1) → K) (t : K) : K :=
  (1 - (t - ⌊t⌋)) * f (clampRow m ⌊t⌋) + (t - ⌊t⌋) * f (clampRow m ⌈t⌉)

theorem clampRow_of {m : ℕ} {k : ℕ} (hk : k ≤ m) :
    clampRow m (k : ℤ) = ⟨k, Nat.lt_succ_of_le hk⟩ := by
  ext; simp only [clampRow]; omega

theorem clampRow_neg {m : ℕ} {i : ℤ} (h : i ≤ 0) : clampRow m i = ⟨0, by omega⟩ := by
  ext; simp only [clampRow]; omega

theorem clampRow_big {m : ℕ} {i : ℤ} (h : (m : ℤ) ≤ i) : clampRow m i = ⟨m, by omega⟩ := by
  ext; simp only [clampRow]; omega

theorem lerpRow_below {m : ℕ} (f : Fin (m + 1) → K) {t : K} (h : t ≤ 0) :
    lerpRow f t = f ⟨0, by omega⟩ := by
  unfold lerpRow
  have h1 : ⌊t⌋ ≤ 0 := by
    have : (⌊t⌋ : K) ≤ 0 := (Int.floor_le t).trans h
    exact_mod_cast this
  have h2 : ⌈t⌉ ≤ 0 := Int.ceil_le.mpr (by simpa using h)
  rw [clampRow_neg h1, clampRow_neg h2]; ring

theorem lerpRow_above {m : ℕ} (f : Fin (m + 1) → K) {t : K} (h : (m : K) ≤ t) :
    lerpRow f t = f ⟨m, by omega⟩ := by
  unfold lerpRow
  have h1 : (m : ℤ) ≤ ⌊t⌋ := Int.le_floor.mpr (by simpa using h)
  have h2 : (m : ℤ) ≤ ⌈t⌉ := h1.trans (Int.floor_le_ceil t)
  rw [clampRow_big h1, clampRow_big h2]; ring

theorem lerpRow_nat {m : ℕ} (f : Fin (m + 1) → K) (k : ℕ) (hk : k ≤ m) :
    lerpRow f (k : K) = f ⟨k, by omega⟩ := by
  unfold lerpRow
  rw [Int.floor_natCast, clampRow_of hk]
  simp

theorem lerpRow_between {m : ℕ} (f : Fin (m + 1) → K) (k : ℕ) (hk : k + 1 ≤ m) {t : K}
    (h1 : (k : K) ≤ t) (h2 : t ≤ (k + 1 : ℕ)) :
    lerpRow f t = f ⟨k, by omega⟩ + (t - k) * (f ⟨k + 1, by omega⟩ - f ⟨k, by omega⟩) := by
  rcases eq_or_lt_of_le h2 with h | h
  · rw [h, lerpRow_nat f (k + 1) hk]; push_cast; ring
  rcases eq_or_lt_of_le h1 with h' | h'
  · rw [← h', lerpRow_nat f k (by omega)]; ring
  have hf : ⌊t⌋ = (k : ℤ) := Int.floor_eq_iff.mpr ⟨by simpa using h1, by push_cast at h ⊢; exact h⟩
  have hcl : ⌈t⌉ = ((k + 1 : ℕ) : ℤ) := by
    rw [Int.ceil_eq_iff]; push_cast at h2 ⊢; constructor
    · linarith
    · exact h2
  unfold lerpRow
  rw [hf, hcl, clampRow_of (by omega), clampRow_of hk]
  push_cast; ring

/-- Every scaled position is below, above, or in a unit interval. -/
theorem row_cases (m : ℕ) (t : K) : t ≤ 0 ∨ (m : K) ≤ t ∨
    ∃ k : ℕ, k + 1 ≤ m ∧ (k : K) < t ∧ t ≤ (k + 1 : ℕ) := by
  rcases le_or_gt t 0 with h | h
  · exact .inl h
  rcases le_or_gt (m : K) t with h' | h'
  · exact .inr (.inl h')
  refine .inr (.inr ⟨(⌈t⌉ - 1).toNat, ?_, ?_, ?_⟩)
  · have hc1 : 1 ≤ ⌈t⌉ := Int.one_le_ceil_iff.mpr h
    have hc2 : ⌈t⌉ ≤ m := Int.ceil_le.mpr (by simpa using h'.le)
    omega
  · have hc1 : 1 ≤ ⌈t⌉ := Int.one_le_ceil_iff.mpr h
    have e : (((⌈t⌉ - 1).toNat : ℕ) : K) = (⌈t⌉ : K) - 1 := by
      have : (((⌈t⌉ - 1).toNat : ℕ) : ℤ) = ⌈t⌉ - 1 := Int.toNat_of_nonneg (by omega)
      have h3 : ((((⌈t⌉ - 1).toNat : ℕ) : ℤ) : K) = ((⌈t⌉ - 1 : ℤ) : K) := by rw [this]
      push_cast at h3; exact_mod_cast h3
    rw [e]
    have := Int.ceil_lt_add_one t
    linarith
  · have hc1 : 1 ≤ ⌈t⌉ := Int.one_le_ceil_iff.mpr h
    have e : (((⌈t⌉ - 1).toNat + 1 : ℕ) : K) = (⌈t⌉ : K) := by
      have : (((⌈t⌉ - 1).toNat + 1 : ℕ) : ℤ) = ⌈t⌉ := by omega
      have h3 : ((((⌈t⌉ - 1).toNat + 1 : ℕ) : ℤ) : K) = ((⌈t⌉ : ℤ) : K) := by rw [this]
      push_cast at h3 ⊢; exact_mod_cast h3
    rw [e]
    exact Int.le_ceil t

theorem lerpRow_mem {m : ℕ} (f : Fin (m + 1) → K) (t : K) :
    (∃ k, f k ≤ lerpRow f t) ∧ (∃ k, lerpRow f t ≤ f k) := by
  rcases row_cases m t with h | h | ⟨k, hk, h1, h2⟩
  · rw [lerpRow_below f h]; exact ⟨⟨_, le_rfl⟩, ⟨_, le_rfl⟩⟩
  · rw [lerpRow_above f h]; exact ⟨⟨_, le_rfl⟩, ⟨_, le_rfl⟩⟩
  · rw [lerpRow_between f k hk h1.le h2]
    push_cast at h2
    have a : 0 ≤ t - k := by linarith
    have b : 0 ≤ 1 - (t - k) := by linarith
    rcases le_total (f ⟨k, by omega⟩) (f ⟨k + 1, by omega⟩) with h | h
    · exact ⟨⟨⟨k, by omega⟩, by nlinarith⟩, ⟨⟨k + 1, by omega⟩, by nlinarith⟩⟩
    · exact ⟨⟨⟨k + 1, by omega⟩, by nlinarith⟩, ⟨⟨k, by omega⟩, by nlinarith⟩⟩

theorem lerpRow_mono {m : ℕ} (f : Fin (m + 1) → K) (hf : Monotone f) {s t : K} (hst : s ≤ t) :
    lerpRow f s ≤ lerpRow f t := by
  have hseg : ∀ (k : ℕ) (hk : k + 1 ≤ m) (u : K), (k : K) < u → u ≤ (k + 1 : ℕ) →
      f ⟨k, by omega⟩ ≤ lerpRow f u ∧ lerpRow f u ≤ f ⟨k + 1, by omega⟩ := by
    intro k hk u h1 h2
    rw [lerpRow_between f k hk h1.le h2]
    push_cast at h2
    have h := hf (show (⟨k, by omega⟩ : Fin (m + 1)) ≤ ⟨k + 1, by omega⟩ by
      simp [Fin.le_def])
    have a : 0 ≤ u - k := by linarith
    have b : 0 ≤ 1 - (u - k) := by linarith
    constructor <;> nlinarith
  have hlo : ∀ u, f ⟨0, by omega⟩ ≤ lerpRow f u := by
    intro u
    obtain ⟨k, hk⟩ := (lerpRow_mem f u).1
    exact (hf (by simp)).trans hk
  have hhi : ∀ u, lerpRow f u ≤ f ⟨m, by omega⟩ := by
    intro u
    obtain ⟨k, hk⟩ := (lerpRow_mem f u).2
    exact hk.trans (hf (by rw [Fin.le_def]; exact Nat.lt_succ_iff.mp k.2))
  rcases row_cases m s with h | h | ⟨k, hk, h1, h2⟩
  · rw [lerpRow_below f h]; exact hlo t
  · rw [lerpRow_above f h, lerpRow_above f (h.trans hst)]
  · rcases row_cases m t with h' | h' | ⟨k', hk', h1', h2'⟩
    · have : (0 : K) ≤ k := Nat.cast_nonneg k
      linarith
    · rw [lerpRow_above f h']; exact hhi s
    · rcases lt_trichotomy k k' with h | h | h
      · exact (hseg k hk s h1 h2).2.trans ((hf (by
          rw [Fin.le_def]; exact h)).trans (hseg k' hk' t h1' h2').1)
      · subst h
        rw [lerpRow_between f k hk h1.le h2, lerpRow_between f k hk h1'.le h2']
        have h := hf (show (⟨k, by omega⟩ : Fin (m + 1)) ≤ ⟨k + 1, by omega⟩ by
          simp [Fin.le_def])
        have := mul_le_mul_of_nonneg_right (sub_le_sub_right hst (k : K)) (sub_nonneg.mpr h)
        linarith
      · have : ((k' + 1 : ℕ) : K) ≤ k := by exact_mod_cast h
        linarith

end CLF
