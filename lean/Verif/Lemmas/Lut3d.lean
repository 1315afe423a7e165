import Verif.Lemmas.Lut1d
import Verif.Spec.Cube

/-! Lemmas about three-dimensional tables. -/

set_option linter.unusedSectionVars false

namespace CLF

variable {K : Type} [Field K] [LinearOrder K] [IsStrictOrderedRing K] [FloorRing K]

/-! ### Layout -/

/-- A slice that stays inside one of a list of equally long rows. -/
theorem flatten_slice {α : Type} (s : ℕ) (rows : List (List α)) (h : ∀ r ∈ rows, r.length = s)
    (i x w : ℕ) (hi : i < rows.length) (hx : x + w ≤ s) :
    pySlice rows.flatten (i * s + x) (i * s + x + w) = pySlice rows[i] x (x + w) := by
  induction rows generalizing i with
  | nil => simp at hi
  | cons r rows ih =>
    have hr : r.length = s := h r (by simp)
    cases i with
    | zero =>
      simp only [Nat.zero_mul, Nat.zero_add, List.flatten_cons, List.getElem_cons_zero, pySlice]
      rw [List.drop_append_of_le_length (by omega), List.take_append_of_le_length (by simp; omega)]
    | succ i =>
      simp only [List.flatten_cons, List.getElem_cons_succ]
      rw [← ih (fun x hx => h x (by simp [hx])) i (by simpa using hi)]
      unfold pySlice
      rw [List.drop_append, Nat.succ_mul]
      rw [List.drop_of_length_le (by omega), List.nil_append]
      have e1 : i * s + s + x - r.length = i * s + x := by omega
      have e2 : i * s + s + x + w - (i * s + s + x) = i * s + x + w - (i * s + x) := by omega
      rw [e1, e2]

theorem cube_slice {α : Type} {a b c : ℕ} (V : Fin a → Fin b → Fin c → Fin 3 → α) (i j k : ℕ)
    (hi : i < a) (hj : j < b) (hk : k < c) :
    pySlice (Spec.cube V) (((i * b + j) * c + k) * 3) (((i * b + j) * c + k) * 3 + 3)
      = List.ofFn (V ⟨i, hi⟩ ⟨j, hj⟩ ⟨k, hk⟩) := by
  have e : ((i * b + j) * c + k) * 3 = i * (b * (c * 3)) + (j * (c * 3) + k * 3) := by ring
  have hk' : k * 3 + 3 ≤ c * 3 := by omega
  have hj' : j * (c * 3) + (k * 3 + 3) ≤ b * (c * 3) := by
    have : (j + 1) * (c * 3) ≤ b * (c * 3) := Nat.mul_le_mul_right _ hj
    rw [Nat.add_mul] at this
    omega
  rw [e, Spec.cube, flatten_slice (b * (c * 3)) _ (by
    intro r hr
    obtain ⟨q, rfl⟩ := List.mem_ofFn.mp hr
    rw [List.length_flatten, List.map_ofFn]
    simp [Function.comp_def, List.length_flatten]) i _ 3 (by simpa using hi) (by omega)]
  rw [List.getElem_ofFn, flatten_slice (c * 3) _ (by
    intro r hr
    obtain ⟨q, rfl⟩ := List.mem_ofFn.mp hr
    rw [List.length_flatten, List.map_ofFn]
    simp [Function.comp_def]) j _ 3 (by simpa using hj) (by omega)]
  have := flatten_slice 3 (List.ofFn fun k => List.ofFn (V ⟨i, hi⟩ ⟨j, hj⟩ k)) (by simp) k 0 3
    (by simpa using hk) (by omega)
  rw [List.getElem_ofFn] at this ⊢
  rw [Nat.add_zero] at this
  rw [this]
  simp [pySlice]

theorem cube_length {α : Type} {a b c : ℕ} (V : Fin a → Fin b → Fin c → Fin 3 → α) :
    (Spec.cube V).length = a * b * c * 3 := by
  simp [Spec.cube, List.length_flatten, List.map_ofFn, Function.comp_def]
  ring

/-- `a` is an `(m+1) × (m+1) × (m+1)` table of finite colours. -/
structure Table3D {m : ℕ} (a : Arr K) (V : Fin (m + 1) → Fin (m + 1) → Fin (m + 1) → Fin 3 → K) :
    Prop where
  dims : ∃ rest, a.dims = (m + 1) :: (m + 1) :: (m + 1) :: rest
  values : a.values = Spec.cube fun i j k ch => .fin (V i j k ch)

theorem lookup3D_table {m : ℕ} {a : Arr K}
    {V : Fin (m + 1) → Fin (m + 1) → Fin (m + 1) → Fin 3 → K} (h : Table3D a V) (i j k : ℤ) :
    a.lookup3D i j k
      = .ok (Spec.fins (V (clampRow m i) (clampRow m j) (clampRow m k))) := by
  obtain ⟨rest, hd⟩ := h.dims
  unfold Arr.lookup3D Arr.dims3
  simp only [hd, py_ok_bind, py_pure]
  have e : ∀ i : ℤ, (max 0 (min i (((m + 1 : ℕ) : ℤ) - 1))).toNat = (clampRow m i : ℕ) := by
    intro i; simp only [clampRow]; push_cast; omega
  simp only [e]
  have e2 : (clampRow m i : ℕ) * (m + 1) * (m + 1) + (clampRow m j : ℕ) * (m + 1) + (clampRow m k : ℕ)
      = ((clampRow m i : ℕ) * (m + 1) + (clampRow m j : ℕ)) * (m + 1) + (clampRow m k : ℕ) := by ring
  rw [e2, h.values, cube_slice _ _ _ _ (clampRow m i).2 (clampRow m j).2 (clampRow m k).2]
  rfl

/-! ### One axis -/

/-- Lower lattice index of a scaled position. -/
def axLo (m : ℕ) (t : K) : Fin (m + 1) := clampRow m ⌊t⌋
/-- Upper lattice index of a scaled position. -/
def axHi (m : ℕ) (t : K) : Fin (m + 1) := clampRow m (⌊t⌋ + 1)

/-- Linear interpolation along one axis. -/
def axL (m : ℕ) (t : K) (g : Fin (m + 1) → K) : K :=
  (1 - Int.fract t) * g (axLo m t) + Int.fract t * g (axHi m t)

/-- What the ends of a cell are, for a scaled position in range. -/
theorem ax_cases (m : ℕ) (t : K) (h0 : 0 ≤ t) (h1 : t ≤ m) :
    ((axLo m t : ℕ) : K) = t - Int.fract t ∧
    (((axHi m t : ℕ) : K) = t - Int.fract t + 1 ∨ (axHi m t = axLo m t ∧ Int.fract t = 0)) := by
  have hf0 : 0 ≤ ⌊t⌋ := Int.floor_nonneg.mpr h0
  have hfm : ⌊t⌋ ≤ m := by
    have : (⌊t⌋ : K) ≤ m := (Int.floor_le t).trans h1
    exact_mod_cast this
  have e1 : (axLo m t : ℕ) = ⌊t⌋.toNat := by
    simp only [axLo, clampRow]; omega
  have e1' : ((axLo m t : ℕ) : K) = t - Int.fract t := by
    rw [e1]
    have : ((⌊t⌋.toNat : ℤ) : K) = (⌊t⌋ : K) := by rw [Int.toNat_of_nonneg hf0]
    rw [Int.self_sub_fract, ← this]; exact (Int.cast_natCast _).symm
  refine ⟨e1', ?_⟩
  rcases eq_or_lt_of_le hfm with h | h
  · right
    constructor
    · ext
      simp only [axHi, axLo, clampRow, h]; omega
    · have hge : (⌊t⌋ : K) = m := by rw [h]; simp
      have := Int.floor_le t
      rw [Int.fract, hge]; rw [hge] at this; linarith
  · left
    have e2 : (axHi m t : ℕ) = (axLo m t : ℕ) + 1 := by
      simp only [axHi, axLo, clampRow]; omega
    rw [e2, ← e1']; push_cast; ring

theorem axL_nat (m : ℕ) (g : Fin (m + 1) → K) (i : Fin (m + 1)) : axL m ((i : ℕ) : K) g = g i := by
  have : axLo m (((i : ℕ) : K)) = i := by
    unfold axLo
    rw [Int.floor_natCast, clampRow_of (Nat.lt_succ_iff.mp i.2)]
  simp [axL, this]

theorem axL_affine (m : ℕ) (t : K) (h0 : 0 ≤ t) (h1 : t ≤ m) (g : Fin (m + 1) → K) (α β : K)
    (hg : ∀ i, g i = α + β * (i : ℕ)) : axL m t g = α + β * t := by
  obtain ⟨e1, e2⟩ := ax_cases m t h0 h1
  unfold axL
  rcases e2 with e2 | ⟨e2, e3⟩
  · rw [hg, hg, e1, e2]; ring
  · rw [e2, e3, hg, e1, e3]; ring

/-- Both ends with non-zero weight are near. -/
theorem ax_near (m : ℕ) (x : K) (h0 : 0 ≤ x) (h1 : x ≤ 1) :
    Spec.near m x (axLo m (x * m)) ∧
    (Int.fract (x * (m : K)) ≠ 0 → Spec.near m x (axHi m (x * m))) := by
  have hm : (0 : K) ≤ m := Nat.cast_nonneg m
  obtain ⟨e1, e2⟩ := ax_cases m (x * m) (mul_nonneg h0 hm) (by nlinarith)
  have f0 := Int.fract_nonneg (x * (m : K))
  have f1 := Int.fract_lt_one (x * (m : K))
  unfold Spec.near
  constructor
  · rw [e1, abs_lt]; constructor <;> linarith
  · intro hne
    rcases e2 with e2 | ⟨_, e3⟩
    · have : 0 < Int.fract (x * (m : K)) := lt_of_le_of_ne f0 (Ne.symm hne)
      rw [e2, abs_lt]; constructor <;> linarith
    · exact absurd e3 hne

theorem axL_mem (m : ℕ) (x : K) (h0 : 0 ≤ x) (h1 : x ≤ 1) (g : Fin (m + 1) → K) (lo hi : K)
    (hg : ∀ i, Spec.near m x i → lo ≤ g i ∧ g i ≤ hi) :
    lo ≤ axL m (x * m) g ∧ axL m (x * m) g ≤ hi := by
  obtain ⟨n1, n2⟩ := ax_near m x h0 h1
  have f0 := Int.fract_nonneg (x * (m : K))
  have f1 := (Int.fract_lt_one (x * (m : K))).le
  unfold axL
  obtain ⟨a1, a2⟩ := hg _ n1
  by_cases hz : Int.fract (x * (m : K)) = 0
  · rw [hz]; constructor <;> linarith
  · obtain ⟨b1, b2⟩ := hg _ (n2 hz)
    constructor <;> nlinarith

/-! ### The eight corners -/

theorem clamp01_unit (v : Flt K) : clamp01 v = .fin (Spec.unit v) := by
  cases v with
  | fin x => exact clamp01_fin x
  | inf s =>
    cases s
    · simp [clamp01, clamp, Flt.pmax, Flt.pmin, Spec.unit]
    · have : ¬ (1 : K) < 0 := not_lt.mpr zero_le_one
      simp [clamp01, clamp, Flt.pmax, Flt.pmin, Spec.unit]
  | nan => simp [clamp01, clamp, Flt.pmax, Flt.pmin, Spec.unit]

theorem unit_mem (v : Flt K) : 0 ≤ Spec.unit v ∧ Spec.unit v ≤ 1 := by
  obtain ⟨y, h, h0, h1⟩ := clamp01_mem v
  rw [clamp01_unit] at h
  cases h
  exact ⟨h0, h1⟩

theorem modf_nonneg {x : K} (h : 0 ≤ x) : Arr.modf x = (Int.fract x, ⌊x⌋) := by
  unfold Arr.modf
  rw [if_neg (not_lt.mpr h)]
  rfl

theorem corners_table {m : ℕ} {a : Arr K}
    {V : Fin (m + 1) → Fin (m + 1) → Fin (m + 1) → Fin 3 → K} (h : Table3D a V)
    (pr pg pb : Flt K) (rest : List (Flt K)) (x y z : K)
    (hx : Spec.unit pr * m = x) (hy : Spec.unit pg * m = y) (hz : Spec.unit pb * m = z) :
    a.corners (pr :: pg :: pb :: rest) = .ok ((Int.fract x, Int.fract y, Int.fract z),
      [Spec.fins (V (axLo m x) (axLo m y) (axLo m z)),
       Spec.fins (V (axLo m x) (axLo m y) (axHi m z)),
       Spec.fins (V (axLo m x) (axHi m y) (axLo m z)),
       Spec.fins (V (axLo m x) (axHi m y) (axHi m z)),
       Spec.fins (V (axHi m x) (axLo m y) (axLo m z)),
       Spec.fins (V (axHi m x) (axLo m y) (axHi m z)),
       Spec.fins (V (axHi m x) (axHi m y) (axLo m z)),
       Spec.fins (V (axHi m x) (axHi m y) (axHi m z))]) := by
  obtain ⟨rest', hd⟩ := h.dims
  have hm : (0 : K) ≤ m := Nat.cast_nonneg m
  have em : ((m + 1 : ℕ) : K) - 1 = m := by push_cast; ring
  have hx0 : 0 ≤ x := hx ▸ mul_nonneg (unit_mem pr).1 hm
  have hy0 : 0 ≤ y := hy ▸ mul_nonneg (unit_mem pg).1 hm
  have hz0 : 0 ≤ z := hz ▸ mul_nonneg (unit_mem pb).1 hm
  unfold Arr.corners
  simp only [hd, List.map_cons, pyGet_zero, pyGet_succ, py_ok_bind, clamp01_unit, Flt.fin_mul, em,
    hx, hy, hz, modf_nonneg hx0, modf_nonneg hy0, modf_nonneg hz0, lookup3D_table h, py_pure]
  rfl

theorem mix_fins (u v : Fin 3 → K) (t : K) :
    mix (Spec.fins u) (Spec.fins v) (.fin t)
      = .ok (Spec.fins fun ch => (1 - t) * u ch + t * v ch) := by
  unfold mix
  have e : List.range (Spec.fins u).length = [0, 1, 2] := by simp [Spec.fins]; rfl
  rw [e]
  simp [Spec.fins, List.ofFn_succ, pyGet]

/-- Trilinear interpolation as three nested one-dimensional interpolations. -/
theorem trilinear_table {m : ℕ} {a : Arr K}
    {V : Fin (m + 1) → Fin (m + 1) → Fin (m + 1) → Fin 3 → K} (h : Table3D a V)
    (pr pg pb : Flt K) (rest : List (Flt K)) :
    a.lookup3DTrilinear (pr :: pg :: pb :: rest) = .ok (Spec.fins fun ch =>
      axL m (Spec.unit pr * m) fun i => axL m (Spec.unit pg * m) fun j =>
        axL m (Spec.unit pb * m) fun k => V i j k ch) := by
  unfold Arr.lookup3DTrilinear
  rw [corners_table h pr pg pb rest _ _ _ rfl rfl rfl]
  simp only [py_ok_bind, mix_fins]
  rfl

/-- One blended channel of finite colours. -/
theorem blend4_fins (w0 w1 w2 w3 : K) (a b c d : Fin 3 → K) (ch : Fin 3) :
    Arr.blend4 w0 w1 w2 w3 (Spec.fins a) (Spec.fins b) (Spec.fins c) (Spec.fins d) ch
      = .ok (.fin (w0 * a ch + w1 * b ch + w2 * c ch + w3 * d ch)) := by
  have g : ∀ u : Fin 3 → K, pyGet (Spec.fins u) (ch : ℕ) = .ok (.fin (u ch)) := by
    intro u
    rw [pyGet_eq_ok, Spec.fins, List.getElem?_ofFn, dif_pos ch.2]
  simp only [Arr.blend4, g, py_ok_bind, py_pure, Flt.fin_mul, Flt.fin_add]

/-- Corner of a cell: lower or upper index on each axis. -/
def cellCorner {m : ℕ} (V : Fin (m + 1) → Fin (m + 1) → Fin (m + 1) → Fin 3 → K) (x y z : K)
    (ch : Fin 3) (e : Fin 3 → Bool) : K :=
  V (if e 0 then axHi m x else axLo m x) (if e 1 then axHi m y else axLo m y)
    (if e 2 then axHi m z else axLo m z) ch

/-- The axis order of the branch the code takes. -/
def tetraOrder (fx fy fz : K) : Fin 3 → Fin 3 :=
  if fx > fy then
    if fy > fz then ![0, 1, 2]
    else if fx > fz then ![0, 2, 1]
    else ![2, 0, 1]
  else
    if fz > fy then ![2, 1, 0]
    else if fz > fx then ![1, 2, 0]
    else ![1, 0, 2]

theorem tetraOrder_sorted (fx fy fz : K) :
    (![fx, fy, fz] (tetraOrder fx fy fz 1) ≤ ![fx, fy, fz] (tetraOrder fx fy fz 0)) ∧
    (![fx, fy, fz] (tetraOrder fx fy fz 2) ≤ ![fx, fy, fz] (tetraOrder fx fy fz 1)) ∧
    Function.Injective (tetraOrder fx fy fz) := by
  unfold tetraOrder
  split_ifs with h1 h2 h3 h4 h5
  · exact ⟨h1.le, h2.le, by decide⟩
  · exact ⟨h3.le, not_lt.mp h2, by decide⟩
  · exact ⟨not_lt.mp h3, h1.le, by decide⟩
  · exact ⟨h4.le, not_lt.mp h1, by decide⟩
  · exact ⟨not_lt.mp h4, h5.le, by decide⟩
  · exact ⟨not_lt.mp h1, not_lt.mp h5, by decide⟩

/-- The tetrahedral lookup, by the branch taken. -/
theorem tetrahedral_table {m : ℕ} {a : Arr K}
    {V : Fin (m + 1) → Fin (m + 1) → Fin (m + 1) → Fin 3 → K} (h : Table3D a V)
    (pr pg pb : Flt K) (rest : List (Flt K)) (x y z : K)
    (hx : Spec.unit pr * m = x) (hy : Spec.unit pg * m = y) (hz : Spec.unit pb * m = z) :
    a.lookup3DTetrahedral (pr :: pg :: pb :: rest) = .ok (Spec.fins fun ch =>
      Spec.tetra ![Int.fract x, Int.fract y, Int.fract z] (cellCorner V x y z ch)
        (tetraOrder (Int.fract x) (Int.fract y) (Int.fract z))) := by
  have key : ∀ (f g : ℕ → Py (Flt K)) (r : Fin 3 → K), f = g →
      (∀ ch : Fin 3, g ch = .ok (.fin (r ch))) → (do
        let r ← f 0
        let g ← f 1
        let b ← f 2
        pure [r, g, b] : Py (List (Flt K))) = .ok (Spec.fins r) := by
    intro f g r hfg hg
    subst hfg
    have h0 := hg 0
    have h1 := hg 1
    have h2 := hg 2
    simp only [Fin.val_zero, Fin.val_one, Fin.val_two] at h0 h1 h2
    simp [h0, h1, h2, Spec.fins, List.ofFn_succ]
  unfold Arr.lookup3DTetrahedral
  rw [corners_table h pr pg pb rest _ _ _ hx hy hz]
  simp only [py_ok_bind]
  generalize Int.fract x = fx
  generalize Int.fract y = fy
  generalize Int.fract z = fz
  unfold tetraOrder
  split_ifs with h1 h2 h3 h4 h5
  all_goals
    refine key _ _ _ rfl (fun ch => ?_)
    rw [blend4_fins]
    simp [Spec.tetra, cellCorner]

/-! ### Barycentric interpolation -/

theorem inj3_cases {s : Fin 3 → Fin 3} (hs : Function.Injective s) (a : Fin 3) :
    a = s 0 ∨ a = s 1 ∨ a = s 2 := by
  obtain ⟨b, hb⟩ := (Finite.injective_iff_surjective.mp hs) a
  have : b = 0 ∨ b = 1 ∨ b = 2 := by omega
  rcases this with rfl | rfl | rfl
  · exact .inl hb.symm
  · exact .inr (.inl hb.symm)
  · exact .inr (.inr hb.symm)

theorem tetra_mem (f : Fin 3 → K) (corner : (Fin 3 → Bool) → K) (s : Fin 3 → Fin 3)
    (hs : Function.Injective s) (h0 : ∀ a, 0 ≤ f a) (h1 : ∀ a, f a ≤ 1)
    (h01 : f (s 1) ≤ f (s 0)) (h12 : f (s 2) ≤ f (s 1)) (lo hi : K)
    (hc : ∀ e, (∀ a, e a = true → f a ≠ 0) → lo ≤ corner e ∧ corner e ≤ hi) :
    lo ≤ Spec.tetra f corner s ∧ Spec.tetra f corner s ≤ hi := by
  have term : ∀ (w : K) (e : Fin 3 → Bool), 0 ≤ w → (0 < w → ∀ a, e a = true → 0 < f a) →
      w * lo ≤ w * corner e ∧ w * corner e ≤ w * hi := by
    intro w e hw he
    rcases eq_or_lt_of_le hw with h | h
    · rw [← h]; simp
    · obtain ⟨a1, a2⟩ := hc e (fun a ha => (he h a ha).ne')
      exact ⟨mul_le_mul_of_nonneg_left a1 hw, mul_le_mul_of_nonneg_left a2 hw⟩
  obtain ⟨a1, a2⟩ := term (1 - f (s 0)) (fun _ => false) (by linarith [h1 (s 0)]) (by simp)
  obtain ⟨b1, b2⟩ := term (f (s 0) - f (s 1)) (fun a => a == s 0) (by linarith) (by
    intro hw a ha
    rw [beq_iff_eq.mp ha]; linarith [h0 (s 1)])
  obtain ⟨c1, c2⟩ := term (f (s 1) - f (s 2)) (fun a => a == s 0 || a == s 1) (by linarith) (by
    intro hw a ha
    rw [Bool.or_eq_true, beq_iff_eq, beq_iff_eq] at ha
    rcases ha with rfl | rfl <;> linarith [h0 (s 2)])
  obtain ⟨d1, d2⟩ := term (f (s 2)) (fun _ => true) (h0 _) (by
    intro hw a _
    rcases inj3_cases hs a with rfl | rfl | rfl <;> linarith)
  unfold Spec.tetra
  constructor <;> linarith

/-- Any two orders of the axes that sort the fractions give the same value. -/
theorem tetra_order (f : Fin 3 → K) (corner : (Fin 3 → Bool) → K) (s s' : Fin 3 → Fin 3)
    (hs : Function.Injective s) (hs' : Function.Injective s')
    (h01 : f (s 1) ≤ f (s 0)) (h12 : f (s 2) ≤ f (s 1))
    (h01' : f (s' 1) ≤ f (s' 0)) (h12' : f (s' 2) ≤ f (s' 1)) :
    Spec.tetra f corner s = Spec.tetra f corner s' := by
  have six : ∀ s : Fin 3 → Fin 3, Function.Injective s → s = ![0, 1, 2] ∨ s = ![0, 2, 1] ∨
      s = ![1, 0, 2] ∨ s = ![1, 2, 0] ∨ s = ![2, 0, 1] ∨ s = ![2, 1, 0] := by decide
  have e0 : (fun a : Fin 3 => a == 0 || a == 1) = (fun a => a == 1 || a == 0) := by decide
  have e1 : (fun a : Fin 3 => a == 0 || a == 2) = (fun a => a == 2 || a == 0) := by decide
  have e2 : (fun a : Fin 3 => a == 1 || a == 2) = (fun a => a == 2 || a == 1) := by decide
  obtain ⟨f0, hf0⟩ : ∃ x, f 0 = x := ⟨_, rfl⟩
  obtain ⟨f1, hf1⟩ : ∃ x, f 1 = x := ⟨_, rfl⟩
  obtain ⟨f2, hf2⟩ : ∃ x, f 2 = x := ⟨_, rfl⟩
  rcases six s hs with rfl | rfl | rfl | rfl | rfl | rfl <;>
  rcases six s' hs' with rfl | rfl | rfl | rfl | rfl | rfl <;>
  simp only [Spec.tetra, Matrix.cons_val_zero, Matrix.cons_val_one, Matrix.cons_val,
    hf0, hf1, hf2, e0, e1, e2] at h01 h12 h01' h12' ⊢ <;>
  first
  | ring1
  | (obtain rfl : f0 = f1
     · linarith
     first
     | ring1
     | (obtain rfl : f0 = f2
        · linarith
        ring1))
  | (obtain rfl : f0 = f2
     · linarith
     ring1)
  | (obtain rfl : f1 = f2
     · linarith
     ring1)

/-- Barycentric interpolation reproduces affine functions of the corner. -/
theorem tetra_affine (f : Fin 3 → K) (c0 : K) (u : Fin 3 → K) (s : Fin 3 → Fin 3)
    (hs : Function.Injective s) :
    Spec.tetra f (fun e => c0 + (if e 0 then u 0 else 0) + (if e 1 then u 1 else 0)
      + (if e 2 then u 2 else 0)) s = c0 + f 0 * u 0 + f 1 * u 1 + f 2 * u 2 := by
  have six : ∀ s : Fin 3 → Fin 3, Function.Injective s → s = ![0, 1, 2] ∨ s = ![0, 2, 1] ∨
      s = ![1, 0, 2] ∨ s = ![1, 2, 0] ∨ s = ![2, 0, 1] ∨ s = ![2, 1, 0] := by decide
  rcases six s hs with rfl | rfl | rfl | rfl | rfl | rfl <;>
    simp [Spec.tetra] <;> ring

/-! ### Sampling into a cube -/

theorem seg_loop {α : Type} (w : ℕ) (body : List α → ℕ → Py (List α)) (row : ℕ → List α)
    (hrow : ∀ z, (row z).length = w) (off : ℕ) (n : ℕ)
    (hb : ∀ z < n, ∀ pre post : List α, pre.length = off + z * w → w ≤ post.length →
      body (pre ++ post) z = .ok (pre ++ row z ++ post.drop w))
    (pre post : List α) (hpre : pre.length = off) (hpost : n * w ≤ post.length) :
    (List.range n).foldlM (init := pre ++ post) body
      = .ok (pre ++ ((List.range n).map row).flatten ++ post.drop (n * w)) := by
  induction n with
  | zero => simp
  | succ n ih =>
    rw [List.range_succ, List.foldlM_append, ih (fun z hz => hb z (by omega)) (by
      rw [Nat.succ_mul] at hpost; omega)]
    rw [Nat.succ_mul] at hpost
    simp only [py_ok_bind, List.foldlM_cons, List.foldlM_nil]
    rw [hb n (by omega) _ _ (by
      simp only [List.length_append, List.length_flatten, List.map_map, Function.comp_def, hrow,
        hpre]
      simp) (by simp; omega)]
    simp [List.drop_drop, Nat.succ_mul]

theorem map_range_ofFn {α : Type} (n : ℕ) (f : ℕ → α) :
    (List.range n).map f = List.ofFn fun i : Fin n => f i := by
  apply List.ext_getElem (by simp)
  intro i h1 h2
  simp

/-- The values `simple3DLUT` computes for a cube. -/
theorem simple3DLUT_cube (id tid inD outD : AVal) (m : ℕ) (f : Flt K → Flt K → Flt K → Py (List (Flt K)))
    (g : K → K → K → Fin 3 → K) (hf : ∀ x y z, f (.fin x) (.fin y) (.fin z) = .ok (Spec.fins (g x y z))) :
    simple3DLUT id tid [m + 2, m + 2, m + 2] f inD outD
      = .ok (lut3dSetArray (newLut3d inD outD id tid) [m + 2, m + 2, m + 2]
        (Spec.cube fun (i j k : Fin (m + 1 + 1)) (ch : Fin 3) => Flt.fin
          (g ((i : ℕ) / ((m + 1 : ℕ) : K)) ((j : ℕ) / ((m + 1 : ℕ) : K)) ((k : ℕ) / ((m + 1 : ℕ) : K)) ch))) := by
  have hne : ((m + 1 : ℕ) : K) ≠ 0 := Nat.cast_ne_zero.mpr (by omega)
  have e : ((m + 2 : ℕ) : K) - 1 = ((m + 1 : ℕ) : K) := by push_cast; ring
  obtain ⟨N, hN⟩ : ∃ N, m + 2 = N := ⟨_, rfl⟩
  obtain ⟨d, hd⟩ : ∃ d : K, ((m + 1 : ℕ) : K) = d := ⟨_, rfl⟩
  have hN' : m + 1 + 1 = N := hN
  rw [hd] at hne
  rw [hN, hd] at e
  unfold simple3DLUT
  simp only [hN, pyGet_zero, pyGet_succ, py_ok_bind, e, pyDivF_fin hne, hf, py_pure]
  let cell : ℕ → ℕ → ℕ → List (Flt K) := fun x y z => Spec.fins (g (x / d) (y / d) (z / d))
  let rowY : ℕ → ℕ → List (Flt K) := fun x y => ((List.range N).map (cell x y)).flatten
  let rowX : ℕ → List (Flt K) := fun x => ((List.range N).map (rowY x)).flatten
  have lcell : ∀ x y z, (cell x y z).length = 3 := by intro x y z; simp [cell, Spec.fins]
  have lrowY : ∀ x y, (rowY x y).length = N * 3 := by
    intro x y
    simp only [rowY, List.length_flatten, List.map_map, Function.comp_def, lcell]
    simp
  have lrowX : ∀ x, (rowX x).length = N * (N * 3) := by
    intro x
    simp only [rowX, List.length_flatten, List.map_map, Function.comp_def, lrowY]
    simp
  have main := seg_loop (N * (N * 3))
    (fun (vals : List (Flt K)) (x : ℕ) => (List.range N).foldlM (init := vals) fun vals (y : ℕ) =>
      (List.range N).foldlM (init := vals) fun vals (z : ℕ) =>
        (.ok (listSplice vals (((x * N + y) * N + z) * 3) (((x * N + y) * N + z) * 3 + 3)
          (cell x y z)) : Py (List (Flt K)))) rowX lrowX 0 N
    (by
      intro x hx pre post hpre hpost
      refine (seg_loop (N * 3) _ (rowY x) (lrowY x) (0 + x * (N * (N * 3))) N ?_ pre post hpre hpost)
      intro y hy pre post hpre hpost
      refine (seg_loop 3 _ (cell x y) (lcell x y) (0 + x * (N * (N * 3)) + y * (N * 3)) N ?_ pre post
        hpre hpost)
      intro z hz pre post hpre hpost
      have hidx : ((x * N + y) * N + z) * 3 = pre.length := by rw [hpre]; ring
      simp only [listSplice]
      rw [hidx, List.take_left, Nat.max_eq_right (by omega), List.drop_append, Nat.add_sub_cancel_left,
        List.drop_of_length_le (by omega), List.nil_append])
    [] (List.replicate (N * N * N * 3) (.fin 0)) rfl (by simp; apply le_of_eq; ring)
  simp only [List.nil_append] at main
  refine (congrArg (· >>= _) main).trans ?_
  simp only [py_ok_bind]
  have hdrop : (List.replicate (N * N * N * 3) (Flt.fin (0 : K))).drop (N * (N * (N * 3))) = [] := by
    apply List.drop_of_length_le
    simp; apply le_of_eq; ring
  rw [hdrop, List.append_nil]
  congr 2
  subst hN'
  simp only [rowX, rowY, cell, Spec.cube, map_range_ofFn, hd]
  rfl

end CLF
