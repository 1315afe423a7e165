import Verif.Lemmas.RoundedCube
import Verif.Props.Precision

/-!
# Exact tetrahedral interpolation over a whole cube
-/

set_option linter.unusedSectionVars false

namespace CLF

variable {K : Type} [Field K] [LinearOrder K] [IsStrictOrderedRing K] [FloorRing K]

/-- Interpolation in a cell: the corner, plus a multiple of the smallest fraction for every set of axes. -/
def lov (fx fy fz : K) (c : Bool → Bool → Bool → K) : K :=
  c false false false + (c true false false - c false false false) * fx + (c false true false - c false false false) * fy
    + (c false false true - c false false false) * fz
    + (c true true false - c true false false - c false true false + c false false false) * min fx fy
    + (c true false true - c true false false - c false false true + c false false false) * min fx fz
    + (c false true true - c false true false - c false false true + c false false false) * min fy fz
    + (c true true true - c true true false - c true false true - c false true true + c true false false + c false true false
        + c false false true - c false false false) * min fx (min fy fz)

theorem perm3_cases {s : Fin 3 → Fin 3} (hs : Function.Injective s) :
    s = ![0, 1, 2] ∨ s = ![0, 2, 1] ∨ s = ![1, 0, 2] ∨ s = ![1, 2, 0] ∨ s = ![2, 0, 1] ∨ s = ![2, 1, 0] := by
  revert s
  decide +kernel

/-- Whatever the order of equal fractions. -/
theorem tetra_eq_lov (f : Fin 3 → K) (corner : (Fin 3 → Bool) → K) {s : Fin 3 → Fin 3} (hs : Function.Injective s)
    (h01 : f (s 1) ≤ f (s 0)) (h12 : f (s 2) ≤ f (s 1)) :
    Spec.tetra f corner s = lov (f 0) (f 1) (f 2) fun a b c => corner ![a, b, c] := by
  have k : ∀ g : Fin 3 → Bool, g = ![g 0, g 1, g 2] := by
    intro g; funext a; fin_cases a <;> rfl
  have c0 : corner (fun _ => false) = corner ![false, false, false] := congrArg corner (k _)
  have c1 : corner (fun _ => true) = corner ![true, true, true] := congrArg corner (k _)
  have ca : ∀ i : Fin 3, corner (fun a => a == i) = corner ![0 == i, 1 == i, 2 == i] := fun i => congrArg corner (k _)
  have cb : ∀ i j : Fin 3, corner (fun a => a == i || a == j) = corner ![0 == i || 0 == j, 1 == i || 1 == j, 2 == i || 2 == j] :=
    fun i j => congrArg corner (k _)
  unfold Spec.tetra lov
  rw [c0, c1, ca, cb]
  rcases perm3_cases hs with rfl | rfl | rfl | rfl | rfl | rfl <;>
    simp only [Matrix.cons_val_zero, Matrix.cons_val_one, Matrix.cons_val] at h01 h12 ⊢
  · rw [min_eq_right h01, min_eq_right (h12.trans h01), min_eq_right h12, min_eq_right (h12.trans h01)]
    simp
    ring
  · rw [min_eq_right (h12.trans h01), min_eq_right h01, min_eq_left h12, min_eq_right (h12.trans h01)]
    simp
    ring
  · rw [min_eq_left h01, min_eq_right h12, min_eq_right (h12.trans h01), min_eq_right h12]
    simp
    ring
  · rw [min_eq_left (h12.trans h01), min_eq_left h12, min_eq_right h01, min_eq_left h12]
    simp
    ring
  · rw [min_eq_right h12, min_eq_left h01, min_eq_left (h12.trans h01), min_eq_right h12]
    simp
    ring
  · rw [min_eq_left h12, min_eq_left (h12.trans h01), min_eq_left h01, min_eq_left h12]
    simp
    ring

theorem min_step {a a' p q : K} (ha : a ≤ a') (hpq : p ≤ q) : 0 ≤ min a' p - min a p ∧ min a' p - min a p ≤ min a' q - min a q ∧
    min a' q - min a q ≤ a' - a := by
  simp only [min_def]
  split_ifs <;> refine ⟨?_, ?_, ?_⟩ <;> linarith

/-- Interpolation rises with a fraction along whose axis the corners rise. -/
theorem lov_mono {fx fx' fy fz : K} {c : Bool → Bool → Bool → K} (h : fx ≤ fx') (hc : ∀ b d, c false b d ≤ c true b d) :
    lov fx fy fz c ≤ lov fx' fy fz c := by
  have h00 := hc false false
  have h10 := hc true false
  have h01 := hc false true
  have h11 := hc true true
  rw [← sub_nonneg]
  rcases le_total fy fz with hyz | hyz
  · obtain ⟨d1, d2, d3⟩ := min_step h hyz
    have e : lov fx' fy fz c - lov fx fy fz c = (c true true true - c false true true) * (min fx' fy - min fx fy)
        + (c true false true - c false false true) * ((min fx' fz - min fx fz) - (min fx' fy - min fx fy))
        + (c true false false - c false false false) * ((fx' - fx) - (min fx' fz - min fx fz)) := by
      unfold lov
      rw [min_eq_left hyz]
      ring
    rw [e]
    exact add_nonneg (add_nonneg (mul_nonneg (by linarith) d1) (mul_nonneg (by linarith) (by linarith)))
      (mul_nonneg (by linarith) (by linarith))
  · obtain ⟨d1, d2, d3⟩ := min_step h hyz
    have e : lov fx' fy fz c - lov fx fy fz c = (c true true true - c false true true) * (min fx' fz - min fx fz)
        + (c true true false - c false true false) * ((min fx' fy - min fx fy) - (min fx' fz - min fx fz))
        + (c true false false - c false false false) * ((fx' - fx) - (min fx' fy - min fx fy)) := by
      unfold lov
      rw [min_eq_right hyz]
      ring
    rw [e]
    exact add_nonneg (add_nonneg (mul_nonneg (by linarith) d1) (mul_nonneg (by linarith) (by linarith)))
      (mul_nonneg (by linarith) (by linarith))

/-- Interpolation on the lower face. -/
theorem lov_zero {fy fz : K} (hy : 0 ≤ fy) (hz : 0 ≤ fz) (c : Bool → Bool → Bool → K) :
    lov 0 fy fz c = c false false false + (c false true false - c false false false) * fy + (c false false true - c false false false) * fz
      + (c false true true - c false true false - c false false true + c false false false) * min fy fz := by
  unfold lov
  rw [min_eq_left hy, min_eq_left hz, min_eq_left (le_min hy hz)]
  ring

/-- The upper face of a cell is the lower face of the next one. -/
theorem lov_one {fy fz : K} (hy0 : 0 ≤ fy) (hz0 : 0 ≤ fz) (hy : fy ≤ 1) (hz : fz ≤ 1) (c : Bool → Bool → Bool → K) :
    lov 1 fy fz c = lov 0 fy fz fun _ b d => c true b d := by
  rw [lov_zero hy0 hz0]
  unfold lov
  rw [min_eq_right hy, min_eq_right hz, min_eq_right ((min_le_left _ _).trans hy)]
  ring

theorem lov_zero_congr {fy fz : K} (hy : 0 ≤ fy) (hz : 0 ≤ fz) {c c' : Bool → Bool → Bool → K} (h : ∀ b d, c false b d = c' false b d) :
    lov 0 fy fz c = lov 0 fy fz c' := by
  rw [lov_zero hy hz, lov_zero hy hz]
  simp only [h]

theorem lov_zero_mono {fy fz : K} (hy : 0 ≤ fy) (hz : 0 ≤ fz) (hy1 : fy ≤ 1) (hz1 : fz ≤ 1) {c c' : Bool → Bool → Bool → K}
    (h : ∀ b d, c false b d ≤ c' false b d) : lov 0 fy fz c ≤ lov 0 fy fz c' := by
  rw [lov_zero hy hz, lov_zero hy hz, ← sub_nonneg]
  have h00 := sub_nonneg.mpr (h false false)
  have h10 := sub_nonneg.mpr (h true false)
  have h01 := sub_nonneg.mpr (h false true)
  have h11 := sub_nonneg.mpr (h true true)
  rcases le_total fy fz with hyz | hyz
  · rw [min_eq_left hyz]
    have := mul_nonneg h00 (sub_nonneg.mpr hz1)
    have := mul_nonneg h01 (sub_nonneg.mpr hyz)
    have := mul_nonneg h11 hy
    linarith
  · rw [min_eq_right hyz]
    have := mul_nonneg h00 (sub_nonneg.mpr hy1)
    have := mul_nonneg h10 (sub_nonneg.mpr hyz)
    have := mul_nonneg h11 hz
    linarith

/-- The lower or upper index of a scaled position. -/
def ax (m : ℕ) (a : Bool) (t : K) : Fin (m + 1) := if a then axHi m t else axLo m t

/-- Exact tetrahedral interpolation at a scaled position. -/
def tetRow {m : ℕ} (V : Fin (m + 1) → Fin (m + 1) → Fin (m + 1) → K) (x y z : K) : K :=
  lov (Int.fract x) (Int.fract y) (Int.fract z) fun a b c => V (ax m a x) (ax m b y) (ax m c z)

theorem axLo_le_axHi {m : ℕ} (t : K) : axLo m t ≤ axHi m t := by
  rw [Fin.le_def]
  simp only [axLo, axHi, clampRow]
  omega

theorem axHi_le_axLo {m : ℕ} {t t' : K} (h : ⌊t⌋ < ⌊t'⌋) : axHi m t ≤ axLo m t' := by
  rw [Fin.le_def]
  simp only [axLo, axHi, clampRow]
  omega

theorem tetRow_mono {m : ℕ} (V : Fin (m + 1) → Fin (m + 1) → Fin (m + 1) → K) (hV : ∀ i i' j k, i ≤ i' → V i j k ≤ V i' j k)
    {x x' y z : K} (h : x ≤ x') : tetRow V x y z ≤ tetRow V x' y z := by
  have y0 := Int.fract_nonneg y
  have z0 := Int.fract_nonneg z
  have y1 := (Int.fract_lt_one y).le
  have z1 := (Int.fract_lt_one z).le
  rcases eq_or_lt_of_le (Int.floor_le_floor h) with hf | hf
  · have e : (fun a b c => V (ax m a x) (ax m b y) (ax m c z)) = fun a b c => V (ax m a x') (ax m b y) (ax m c z) := by
      funext a b c
      simp only [ax, axHi, axLo, hf]
    unfold tetRow
    rw [e]
    refine lov_mono ?_ fun b d => hV _ _ _ _ (axLo_le_axHi x')
    simp only [Int.fract, hf]
    linarith
  · unfold tetRow
    refine (lov_mono (Int.fract_lt_one x).le fun b d => hV _ _ _ _ (axLo_le_axHi x)).trans ?_
    rw [lov_one y0 z0 y1 z1]
    refine (lov_zero_mono y0 z0 y1 z1 (c' := fun a b c => V (ax m a x') (ax m b y) (ax m c z)) fun b d => hV _ _ _ _ (axHi_le_axLo hf)).trans ?_
    exact lov_mono (Int.fract_nonneg x') fun b d => hV _ _ _ _ (axLo_le_axHi x')

theorem lov_add (fx fy fz : K) (c d : Bool → Bool → Bool → K) : lov fx fy fz (fun a b e => c a b e + d a b e) = lov fx fy fz c + lov fx fy fz d := by
  unfold lov; ring

theorem lov_neg (fx fy fz : K) (c : Bool → Bool → Bool → K) : lov fx fy fz (fun a b e => -c a b e) = -lov fx fy fz c := by
  unfold lov; ring

/-- Interpolating the index gives the position. -/
theorem tetRow_index {m : ℕ} (J : K) {x y z : K} (h0 : 0 ≤ x) (h1 : x ≤ m) :
    tetRow (fun (i : Fin (m + 1)) _ _ => J * ((i : ℕ) : K)) x y z = J * x := by
  have y0 := Int.fract_nonneg y
  have z0 := Int.fract_nonneg z
  have hf0 : 0 ≤ ⌊x⌋ := Int.floor_nonneg.mpr h0
  have hlo : ((axLo m x : ℕ) : K) = ⌊x⌋ := by
    have : ⌊x⌋ ≤ m := by
      have := (Int.floor_le x).trans h1
      exact_mod_cast this
    have e : ((axLo m x : ℕ) : ℤ) = ⌊x⌋ := by
      simp only [axLo, clampRow]
      omega
    exact_mod_cast congrArg (Int.cast : ℤ → K) e
  have hx : x = ⌊x⌋ + Int.fract x := (Int.floor_add_fract x).symm
  rcases eq_or_lt_of_le h1 with hm | hm
  · have hfr : Int.fract x = 0 := by rw [hm]; exact Int.fract_natCast m
    unfold tetRow
    rw [hfr, lov_zero y0 z0]
    simp only [ax, Bool.false_eq_true, if_false, hlo]
    have hx' : (⌊x⌋ : K) = x := by rw [hfr] at hx; linarith
    rw [hx']
    ring
  · have hhi : ((axHi m x : ℕ) : K) = ⌊x⌋ + 1 := by
      have : ⌊x⌋ < m := by
        have := (Int.floor_le x).trans_lt hm
        exact_mod_cast this
      have e : ((axHi m x : ℕ) : ℤ) = ⌊x⌋ + 1 := by
        simp only [axHi, clampRow]
        omega
      have := congrArg (Int.cast : ℤ → K) e
      push_cast at this
      exact this
    unfold tetRow lov
    simp only [ax, Bool.false_eq_true, if_false, if_true, hlo, hhi]
    conv_rhs => rw [hx]
    ring

theorem lov_swap12 (fx fy fz : K) (c : Bool → Bool → Bool → K) : lov fx fy fz c = lov fy fx fz fun a b d => c b a d := by
  unfold lov
  rw [min_comm fy fx, ← min_assoc, min_left_comm fy fx fz, ← min_assoc]
  ring

theorem lov_swap23 (fx fy fz : K) (c : Bool → Bool → Bool → K) : lov fx fy fz c = lov fx fz fy fun a b d => c a d b := by
  unfold lov
  rw [min_comm fz fy]
  ring

theorem tetRow_swap12 {m : ℕ} (V : Fin (m + 1) → Fin (m + 1) → Fin (m + 1) → K) (x y z : K) :
    tetRow V x y z = tetRow (fun j i k => V i j k) y x z := lov_swap12 _ _ _ _

theorem tetRow_swap23 {m : ℕ} (V : Fin (m + 1) → Fin (m + 1) → Fin (m + 1) → K) (x y z : K) :
    tetRow V x y z = tetRow (fun i k j => V i j k) x z y := lov_swap23 _ _ _ _

theorem tetRow_lip1 {m : ℕ} (V : Fin (m + 1) → Fin (m + 1) → Fin (m + 1) → K) (J : K)
    (hJ : ∀ (n : ℕ) (hn : n + 1 ≤ m) (j k : Fin (m + 1)), |V ⟨n + 1, by omega⟩ j k - V ⟨n, by omega⟩ j k| ≤ J) {x x' y z : K}
    (hx : 0 ≤ x ∧ x ≤ m) (hx' : 0 ≤ x' ∧ x' ≤ m) : |tetRow V x y z - tetRow V x' y z| ≤ J * |x - x'| := by
  have mono : ∀ (j k : Fin (m + 1)) (d i : ℕ) (hi : i + d < m + 1), |V ⟨i + d, hi⟩ j k - V ⟨i, by omega⟩ j k| ≤ J * d := by
    intro j k d
    induction d with
    | zero => intro i hi; simp
    | succ d ih =>
      intro i hi
      have h1 := ih i (by omega)
      have h2 := hJ (i + d) (by omega) j k
      have := abs_add_le (V ⟨i + d + 1, by omega⟩ j k - V ⟨i + d, by omega⟩ j k) (V ⟨i + d, by omega⟩ j k - V ⟨i, by omega⟩ j k)
      rw [sub_add_sub_cancel] at this
      refine this.trans ?_
      push_cast
      linarith
  have mono' : ∀ (i i' j k : Fin (m + 1)), i ≤ i' → |V i' j k - V i j k| ≤ J * (i' : ℕ) - J * (i : ℕ) := by
    intro i i' j k h
    have h' : (i : ℕ) ≤ i' := h
    have := mono j k (i' - i) i (by omega)
    have e : (⟨(i : ℕ) + ((i' : ℕ) - i), by omega⟩ : Fin (m + 1)) = i' := Fin.ext (by simp only; omega)
    rw [e] at this
    refine this.trans (le_of_eq ?_)
    rw [Nat.cast_sub h']
    ring
  have add : ∀ (F G : Fin (m + 1) → Fin (m + 1) → Fin (m + 1) → K) (x : K),
      tetRow (fun i j k => F i j k + G i j k) x y z = tetRow F x y z + tetRow G x y z := fun F G x => lov_add _ _ _ _ _
  have neg : ∀ (F : Fin (m + 1) → Fin (m + 1) → Fin (m + 1) → K) (x : K),
      tetRow (fun i j k => -F i j k) x y z = -tetRow F x y z := fun F x => lov_neg _ _ _ _
  have key : ∀ {x x' : K}, (0 ≤ x ∧ x ≤ m) → (0 ≤ x' ∧ x' ≤ m) → x ≤ x' → |tetRow V x y z - tetRow V x' y z| ≤ J * (x' - x) := by
    intro x x' hx hx' h
    have h1 := tetRow_mono (y := y) (z := z) (fun i j k => J * ((i : ℕ) : K) + V i j k) (fun i i' j k hi => by
      have := (abs_le.mp (mono' i i' j k hi)).1
      linarith) h
    have h2 := tetRow_mono (y := y) (z := z) (fun i j k => J * ((i : ℕ) : K) + -V i j k) (fun i i' j k hi => by
      have := (abs_le.mp (mono' i i' j k hi)).2
      linarith) h
    rw [add, add, tetRow_index J hx.1 hx.2, tetRow_index J hx'.1 hx'.2] at h1 h2
    rw [neg, neg] at h2
    rw [abs_le]
    constructor <;> linarith
  rcases le_total x x' with h | h
  · rw [abs_sub_comm x, abs_of_nonneg (sub_nonneg.mpr h)]
    exact key hx hx' h
  · rw [abs_sub_comm, abs_of_nonneg (sub_nonneg.mpr h)]
    exact key hx' hx h

theorem tetRow_lipschitz {m : ℕ} (V : Fin (m + 1) → Fin (m + 1) → Fin (m + 1) → K) (J : K) (hJ : Spec.Smooth V J) {x y z x' y' z' : K}
    (hx : 0 ≤ x ∧ x ≤ m) (hy : 0 ≤ y ∧ y ≤ m) (hz : 0 ≤ z ∧ z ≤ m) (hx' : 0 ≤ x' ∧ x' ≤ m) (hy' : 0 ≤ y' ∧ y' ≤ m)
    (hz' : 0 ≤ z' ∧ z' ≤ m) :
    |tetRow V x y z - tetRow V x' y' z'| ≤ J * |x - x'| + J * |y - y'| + J * |z - z'| := by
  have s1 : |tetRow V x y z - tetRow V x' y z| ≤ J * |x - x'| := tetRow_lip1 V J (fun n hn j k => (hJ n hn j k).1) hx hx'
  have s2 : |tetRow V x' y z - tetRow V x' y' z| ≤ J * |y - y'| := by
    rw [tetRow_swap12 V x' y z, tetRow_swap12 V x' y' z]
    exact tetRow_lip1 _ J (fun n hn j k => (hJ n hn j k).2.1) hy hy'
  have s3 : |tetRow V x' y' z - tetRow V x' y' z'| ≤ J * |z - z'| := by
    rw [tetRow_swap23 V x' y' z, tetRow_swap23 V x' y' z', tetRow_swap12, tetRow_swap12 _ x' z' y']
    exact tetRow_lip1 _ J (fun n hn j k => (hJ n hn j k).2.2) hz hz'
  have e : tetRow V x y z - tetRow V x' y' z' = (tetRow V x y z - tetRow V x' y z) + (tetRow V x' y z - tetRow V x' y' z)
      + (tetRow V x' y' z - tetRow V x' y' z') := by ring
  rw [e]
  exact (abs_add_le _ _).trans (add_le_add ((abs_add_le _ _).trans (add_le_add s1 s2)) s3)

/-! ## In a given cell -/

theorem lov_shift {m : ℕ} (g : Fin (m + 1) → Bool → Bool → K) {n : ℕ} (hn : n + 1 ≤ m) {x fy fz : K} (y0 : 0 ≤ fy) (y1 : fy ≤ 1)
    (z0 : 0 ≤ fz) (z1 : fz ≤ 1) (h1 : (n : K) ≤ x) (h2 : x ≤ (n + 1 : ℕ)) :
    lov (Int.fract x) fy fz (fun a b c => g (ax m a x) b c)
      = lov (x - n) fy fz fun a b c => g (if a then ⟨n + 1, by omega⟩ else ⟨n, by omega⟩) b c := by
  rcases eq_or_lt_of_le h2 with h | h
  · subst h
    have e : ((n + 1 : ℕ) : K) - n = 1 := by push_cast; ring
    rw [e, lov_one y0 z0 y1 z1, Int.fract_natCast]
    refine lov_zero_congr y0 z0 fun b d => ?_
    have : axLo m ((n + 1 : ℕ) : K) = ⟨n + 1, by omega⟩ := axLo_nat m (⟨n + 1, by omega⟩ : Fin (m + 1))
    simp only [ax, Bool.false_eq_true, if_false, if_true, this]
  · have hf : ⌊x⌋ = n := by
      rw [Int.floor_eq_iff]
      push_cast at h ⊢
      exact ⟨h1, h⟩
    have e1 : axLo m x = ⟨n, by omega⟩ := by
      refine Fin.ext ?_
      simp only [axLo, clampRow, hf]
      omega
    have e2 : axHi m x = ⟨n + 1, by omega⟩ := by
      refine Fin.ext ?_
      simp only [axHi, clampRow, hf]
      omega
    have e3 : Int.fract x = x - n := by
      simp only [Int.fract, hf, Int.cast_natCast]
    simp only [ax, e1, e2, e3]

/-- The exact interpolation in any cell that contains the position. -/
theorem tetRow_cell {m : ℕ} (V : Fin (m + 1) → Fin (m + 1) → Fin (m + 1) → K) {i j k : ℕ} (hi : i + 1 ≤ m) (hj : j + 1 ≤ m) (hk : k + 1 ≤ m)
    {x y z : K} (i1 : (i : K) ≤ x) (i2 : x ≤ (i + 1 : ℕ)) (j1 : (j : K) ≤ y) (j2 : y ≤ (j + 1 : ℕ)) (k1 : (k : K) ≤ z) (k2 : z ≤ (k + 1 : ℕ)) :
    tetRow V x y z = lov (x - i) (y - j) (z - k) fun a b c => V (if a then ⟨i + 1, by omega⟩ else ⟨i, by omega⟩)
      (if b then ⟨j + 1, by omega⟩ else ⟨j, by omega⟩) (if c then ⟨k + 1, by omega⟩ else ⟨k, by omega⟩) := by
  have u : ∀ t : K, 0 ≤ Int.fract t ∧ Int.fract t ≤ 1 := fun t => ⟨Int.fract_nonneg t, (Int.fract_lt_one t).le⟩
  have v : ∀ (n : ℕ) (t : K), (n : K) ≤ t → t ≤ (n + 1 : ℕ) → 0 ≤ t - n ∧ t - n ≤ 1 := by
    intro n t h1 h2
    push_cast at h2
    constructor <;> linarith
  obtain ⟨vx0, vx1⟩ := v i x i1 i2
  obtain ⟨vy0, vy1⟩ := v j y j1 j2
  unfold tetRow
  rw [lov_shift (fun p b c => V p (ax m b y) (ax m c z)) hi (u y).1 (u y).2 (u z).1 (u z).2 i1 i2, lov_swap12,
    lov_shift (fun q a c => V (if a then ⟨i + 1, by omega⟩ else ⟨i, by omega⟩) q (ax m c z)) hj vx0 vx1 (u z).1 (u z).2 j1 j2,
    lov_swap23, lov_swap12,
    lov_shift (fun r b a => V (if a then ⟨i + 1, by omega⟩ else ⟨i, by omega⟩) (if b then ⟨j + 1, by omega⟩ else ⟨j, by omega⟩) r) hk
      vy0 vy1 vx0 vx1 k1 k2, lov_swap12, lov_swap23, lov_swap12]

/-! ## In IEEE arithmetic -/

theorem sum4F_near {w0 w1 w2 w3 v0 v1 v2 v3 a b c d B : K} (hB : (2 : K) ^ (-1075 : ℤ) ≤ 1 / 2 ^ 53 * B)
    (h0 : |w0| ≤ 1) (h1 : |w1| ≤ 1) (h2 : |w2| ≤ 1) (h3 : |w3| ≤ 1)
    (e0 : |v0 - w0| ≤ 2 * (1 / 2 ^ 53)) (e1 : |v1 - w1| ≤ 2 * (1 / 2 ^ 53)) (e2 : |v2 - w2| ≤ 2 * (1 / 2 ^ 53))
    (e3 : |v3 - w3| ≤ 2 * (1 / 2 ^ 53)) (ha : |a| ≤ B) (hb : |b| ≤ B) (hc : |c| ≤ B) (hd : |d| ≤ B) :
    |sum4F v0 v1 v2 v3 a b c d - (w0 * a + w1 * b + w2 * c + w3 * d)| ≤ 64 * (1 / 2 ^ 53 * B) := by
  have hB0 : 0 ≤ B := (abs_nonneg a).trans ha
  have hE : 0 ≤ 1 / 2 ^ 53 * B := mul_nonneg (by positivity) hB0
  have hEB : 64 * (1 / 2 ^ 53 * B) ≤ B := by
    norm_num
    linarith
  have hN : ∀ (t M : K), |t| ≤ M * B → |double.near t - t| ≤ M * (1 / 2 ^ 53 * B) + 1 / 2 ^ 53 * B := by
    intro t M h
    have e := double_rounder.err t
    have := mul_le_mul_of_nonneg_right h (show (0 : K) ≤ 1 / 2 ^ 53 by positivity)
    have q : M * B * (1 / 2 ^ 53) = M * (1 / 2 ^ 53 * B) := by ring
    rw [q] at this
    generalize (2 : K) ^ (-1075 : ℤ) = η at *
    generalize (1 : K) / 2 ^ 53 * B = E at *
    linarith
  have hp : ∀ v w t : K, |w| ≤ 1 → |v - w| ≤ 2 * (1 / 2 ^ 53) → |t| ≤ B →
      |double.near (v * t) - w * t| ≤ 5 * (1 / 2 ^ 53 * B) ∧ |double.near (v * t)| ≤ 2 * B := by
    intro v w t hw hv ht
    have hwt : |w * t| ≤ B := by
      rw [abs_mul]
      calc |w| * |t| ≤ 1 * B := mul_le_mul hw ht (abs_nonneg t) zero_le_one
        _ = B := one_mul B
    have hvt : |v * t - w * t| ≤ 2 * (1 / 2 ^ 53 * B) := by
      rw [← sub_mul, abs_mul, ← mul_assoc]
      exact mul_le_mul hv ht (abs_nonneg t) (by positivity)
    have hvt2 : |v * t| ≤ 2 * B := by
      have := abs_add_le (v * t - w * t) (w * t)
      rw [sub_add_cancel] at this
      linarith
    have hn := hN (v * t) 2 hvt2
    have g := abs_add_le (double.near (v * t) - v * t) (v * t - w * t)
    rw [sub_add_sub_cancel] at g
    have g' := abs_add_le (double.near (v * t) - w * t) (w * t)
    rw [sub_add_cancel] at g'
    refine ⟨by linarith, by linarith⟩
  obtain ⟨p0, q0⟩ := hp _ _ _ h0 e0 ha
  obtain ⟨p1, q1⟩ := hp _ _ _ h1 e1 hb
  obtain ⟨p2, q2⟩ := hp _ _ _ h2 e2 hc
  obtain ⟨p3, q3⟩ := hp _ _ _ h3 e3 hd
  have add : ∀ (s p M : K), |s| ≤ M * B → |p| ≤ 2 * B → |s + p| ≤ (M + 2) * B := by
    intro s p M hs hp
    have := abs_add_le s p
    have e : (M + 2) * B = M * B + 2 * B := by ring
    rw [e]
    linarith
  have back : ∀ (t M : K), |t| ≤ M * B → M ≤ 20 → |double.near t| ≤ (M + 1) * B := by
    intro t M h hM
    have e := hN t M h
    have := abs_add_le (double.near t - t) t
    rw [sub_add_cancel] at this
    have g := mul_le_mul_of_nonneg_right hM hE
    have q : (M + 1) * B = M * B + B := by ring
    rw [q]
    linarith
  have a1 := add _ _ 2 q0 q1
  have n1 := hN _ _ a1
  have b1 := back _ _ a1 (by norm_num)
  have a2 := add _ _ _ b1 q2
  have n2 := hN _ _ a2
  have b2 := back _ _ a2 (by norm_num)
  have a3 := add _ _ _ b2 q3
  have n3 := hN _ _ a3
  unfold sum4F
  generalize double.near (v0 * a) = P0 at *
  generalize double.near (v1 * b) = P1 at *
  generalize double.near (v2 * c) = P2 at *
  generalize double.near (v3 * d) = P3 at *
  generalize double.near (P0 + P1) = S1 at *
  generalize double.near (S1 + P2) = S2 at *
  generalize double.near (S2 + P3) = S3 at *
  generalize (1 : K) / 2 ^ 53 * B = E at *
  rw [abs_le] at p0 p1 p2 p3 n1 n2 n3 ⊢
  obtain ⟨_, _⟩ := p0
  obtain ⟨_, _⟩ := p1
  obtain ⟨_, _⟩ := p2
  obtain ⟨_, _⟩ := p3
  obtain ⟨_, _⟩ := n1
  obtain ⟨_, _⟩ := n2
  obtain ⟨_, _⟩ := n3
  constructor <;> linarith

/-- The error of interpolation in a tetrahedron. -/
theorem tetraF_close (f : Fin 3 → K) (corner : (Fin 3 → Bool) → K) (s : Fin 3 → Fin 3) (h0 : ∀ a, 0 ≤ f a) (h1 : ∀ a, f a ≤ 1)
    (h01 : f (s 1) ≤ f (s 0)) (h12 : f (s 2) ≤ f (s 1)) {B : K} (hB : (2 : K) ^ (-1075 : ℤ) ≤ 1 / 2 ^ 53 * B) (hc : ∀ e, |corner e| ≤ B) :
    |tetraF f corner s - Spec.tetra f corner s| ≤ 64 * (1 / 2 ^ 53 * B) := by
  have g0 := h0 (s 0)
  have g1 := h0 (s 1)
  have g2 := h0 (s 2)
  have g3 := h1 (s 0)
  have hη := eta_le (K := K)
  have hw : ∀ w : K, 0 ≤ w → w ≤ 1 → |w| ≤ 1 ∧ |double.near w - w| ≤ 2 * (1 / 2 ^ 53) := by
    intro w w0 w1
    have e := double_rounder.err w
    rw [abs_of_nonneg w0] at e ⊢
    have := mul_le_mul_of_nonneg_right w1 (show (0 : K) ≤ 1 / 2 ^ 53 by positivity)
    refine ⟨w1, ?_⟩
    generalize (2 : K) ^ (-1075 : ℤ) = η at *
    generalize (1 : K) / 2 ^ 53 = u at *
    linarith
  obtain ⟨a0, b0⟩ := hw (1 - f (s 0)) (by linarith) (by linarith)
  obtain ⟨a1, b1⟩ := hw (f (s 0) - f (s 1)) (by linarith) (by linarith)
  obtain ⟨a2, b2⟩ := hw (f (s 1) - f (s 2)) (by linarith) (by linarith)
  obtain ⟨a3, _⟩ := hw (f (s 2)) g2 (by linarith)
  unfold tetraF Spec.tetra
  exact sum4F_near hB a0 a1 a2 a3 b0 b1 b2 (by rw [sub_self, abs_zero]; positivity) (hc _) (hc _) (hc _) (hc _)

/-- What the rounded interpolation works out, without rounding. -/
theorem tetra_row {m : ℕ} (V : Fin (m + 1) → Fin (m + 1) → Fin (m + 1) → Fin 3 → K) (x y z : K) (ch : Fin 3) :
    Spec.tetra ![Int.fract x, Int.fract y, Int.fract z] (cellCorner V x y z ch) (tetraOrder (Int.fract x) (Int.fract y) (Int.fract z))
      = tetRow (fun i j k => V i j k ch) x y z := by
  obtain ⟨s1, s2, s3⟩ := tetraOrder_sorted (Int.fract x) (Int.fract y) (Int.fract z)
  rw [tetra_eq_lov _ _ s3 s1 s2]
  rfl

theorem tetRow_abs {m : ℕ} (V : Fin (m + 1) → Fin (m + 1) → Fin (m + 1) → Fin 3 → K) (ch : Fin 3) (B : K) (hB : ∀ i j k, |V i j k ch| ≤ B)
    (x y z : K) : |tetRow (fun i j k => V i j k ch) x y z| ≤ B := by
  obtain ⟨s1, s2, _⟩ := tetraOrder_sorted (Int.fract x) (Int.fract y) (Int.fract z)
  rw [← tetra_row]
  have h0 : ∀ a, 0 ≤ ![Int.fract x, Int.fract y, Int.fract z] a := by
    intro a; fin_cases a <;> exact Int.fract_nonneg _
  have h1 : ∀ a, ![Int.fract x, Int.fract y, Int.fract z] a ≤ 1 := by
    intro a; fin_cases a <;> exact (Int.fract_lt_one _).le
  have hc : ∀ e, |cellCorner V x y z ch e| ≤ B := fun e => hB _ _ _
  generalize ![Int.fract x, Int.fract y, Int.fract z] = f at *
  generalize tetraOrder (Int.fract x) (Int.fract y) (Int.fract z) = s at *
  generalize cellCorner V x y z ch = c at *
  have k : ∀ w e, 0 ≤ w → |w * c e| ≤ w * B := by
    intro w e hw
    rw [abs_mul, abs_of_nonneg hw]
    exact mul_le_mul_of_nonneg_left (hc e) hw
  have g3 := h1 (s 0)
  have k0 := k (1 - f (s 0)) (fun _ => false) (by linarith)
  have k1 := k (f (s 0) - f (s 1)) (fun a => a == s 0) (by linarith)
  have k2 := k (f (s 1) - f (s 2)) (fun a => a == s 0 || a == s 1) (by linarith)
  have k3 := k (f (s 2)) (fun _ => true) (h0 _)
  unfold Spec.tetra
  rw [abs_le] at k0 k1 k2 k3 ⊢
  constructor <;> linarith [k0.1, k0.2, k1.1, k1.2, k2.1, k2.2, k3.1, k3.2]

/-- The error of a stored tetrahedral lookup. -/
theorem tetraF_near {m : ℕ} (V : Fin (m + 1) → Fin (m + 1) → Fin (m + 1) → Fin 3 → K)
    (hV : ∀ i j k ch, Spec.IsSingle (V i j k ch)) (ch : Fin 3) (J B : K) (hJ : Spec.Smooth (fun i j k => V i j k ch) J) (hJ0 : 0 ≤ J)
    (hB : ∀ i j k, |V i j k ch| ≤ B) {X Y Z x y z : K}
    (hX : 0 ≤ X ∧ X ≤ m) (hY : 0 ≤ Y ∧ Y ≤ m) (hZ : 0 ≤ Z ∧ Z ≤ m) (hx : 0 ≤ x ∧ x ≤ m) (hy : 0 ≤ y ∧ y ≤ m) (hz : 0 ≤ z ∧ z ≤ m)
    (ex : |X - x| ≤ m * (5 / 4 * (1 / 2 ^ 24))) (ey : |Y - y| ≤ m * (5 / 4 * (1 / 2 ^ 24))) (ez : |Z - z| ≤ m * (5 / 4 * (1 / 2 ^ 24))) :
    |single.near (tetraF ![Int.fract X, Int.fract Y, Int.fract Z] (cellCorner V X Y Z ch)
        (tetraOrder (Int.fract X) (Int.fract Y) (Int.fract Z))) - tetRow (fun i j k => V i j k ch) x y z|
      ≤ (3 * J * m + B) / 2 ^ 23 + 2 ^ (-150 : ℤ) := by
  have hB0 : 0 ≤ B := (abs_nonneg _).trans (hB 0 0 0)
  have hm0 : (0 : K) ≤ m := Nat.cast_nonneg m
  have hμ := (two_zpow_pos (K := K) (-150)).le
  by_cases hzero : ∀ i j k, V i j k ch = 0
  · have e1 : tetRow (fun i j k => V i j k ch) x y z = 0 := by
      unfold tetRow lov
      simp [hzero]
    have e2 : ∀ f s, tetraF f (cellCorner V X Y Z ch) s = 0 := by
      intro f s
      unfold tetraF sum4F cellCorner
      simp [hzero, Fmt.near_zero]
    rw [e1, e2, Fmt.near_zero, sub_self, abs_zero]
    positivity
  push Not at hzero
  obtain ⟨i, j, k, hk⟩ := hzero
  have hη : (2 : K) ^ (-1075 : ℤ) ≤ 1 / 2 ^ 53 * B := by
    refine ((hV i j k ch).eta.resolve_left hk).trans ?_
    refine mul_le_mul_of_nonneg_left ?_ (by positivity)
    have := hB i j k
    have := abs_nonneg (V i j k ch)
    linarith
  have l4 : |tetraF ![Int.fract X, Int.fract Y, Int.fract Z] (cellCorner V X Y Z ch)
      (tetraOrder (Int.fract X) (Int.fract Y) (Int.fract Z)) - tetRow (fun i j k => V i j k ch) X Y Z| ≤ 64 * (1 / 2 ^ 53 * B) := by
    obtain ⟨s1, s2, _⟩ := tetraOrder_sorted (Int.fract X) (Int.fract Y) (Int.fract Z)
    rw [← tetra_row]
    refine tetraF_close _ _ _ ?_ ?_ s1 s2 hη fun e => hB _ _ _
    · intro a; fin_cases a <;> exact Int.fract_nonneg _
    · intro a; fin_cases a <;> exact (Int.fract_lt_one _).le
  have hl := tetRow_lipschitz _ J hJ hX hY hZ hx hy hz
  have jx := mul_le_mul_of_nonneg_left ex hJ0
  have jy := mul_le_mul_of_nonneg_left ey hJ0
  have jz := mul_le_mul_of_nonneg_left ez hJ0
  have hT : |tetRow (fun i j k => V i j k ch) X Y Z| ≤ B := tetRow_abs V ch B hB X Y Z
  generalize tetraF ![Int.fract X, Int.fract Y, Int.fract Z] (cellCorner V X Y Z ch)
      (tetraOrder (Int.fract X) (Int.fract Y) (Int.fract Z)) = F at *
  generalize tetRow (fun i j k => V i j k ch) X Y Z = T at *
  generalize tetRow (fun i j k => V i j k ch) x y z = t at *
  have hs := single_rounder.err F
  have g0 := abs_add_le (F - T) T
  rw [sub_add_cancel] at g0
  have g1 : |F| ≤ 9 / 8 * B := by
    refine g0.trans ((add_le_add l4 hT).trans ?_)
    norm_num
    linarith
  have g2 := mul_le_mul_of_nonneg_right g1 (show (0 : K) ≤ 1 / 2 ^ 24 by positivity)
  have e : single.near F - t = (single.near F - F) + (F - T) + (T - t) := by ring
  rw [e]
  refine (abs_add_le _ _).trans ((add_le_add (abs_add_le _ _) hl).trans ?_)
  have hJm : 0 ≤ J * m := mul_nonneg hJ0 hm0
  have q1 : J * (m * (5 / 4 * (1 / 2 ^ 24))) = J * m * (5 / 4 * (1 / 2 ^ 24)) := by ring
  have q2 : 3 * J * m = 3 * (J * m) := by ring
  rw [q1] at jx jy jz
  rw [q2]
  generalize J * (m : K) = w at *
  generalize (2 : K) ^ (-150 : ℤ) = μ at *
  generalize (2 : K) ^ (-1075 : ℤ) = η at *
  norm_num at *
  linarith

end CLF
