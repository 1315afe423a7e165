import Verif.Lemmas.RoundedPos

set_option linter.unusedSectionVars false

/-!
# Lookups in cubes of `float32` entries in IEEE arithmetic
-/

namespace CLF

variable {K : Type} [Field K] [LinearOrder K] [IsStrictOrderedRing K] [FloorRing K]

/-- Numbers of `float32` are numbers of `float64`. -/
theorem Spec.IsSingle.double {x : K} (h : Spec.IsSingle x) : double.near x = x := by
  have key : ∀ y : K, 0 ≤ y → single.near y = y → CLF.double.near y = y := by
    intro y hy hn
    rw [Fmt.near_of_nonneg _ hy] at hn
    obtain ⟨e, k, hc, hk, hs⟩ := Fmt.exists_split single (single.preCode y)
    rw [hc, Fmt.magVal_split single e k hk.le hs] at hn
    rw [← hn]
    refine Fmt.near_short CLF.double k _ (lt_of_lt_of_le hk (Nat.pow_le_pow_right (by norm_num) (by decide))) ?_
    rw [double_bias, double_mant, single_bias, single_mant]
    omega
  rcases le_or_gt 0 x with hx | hx
  · exact key x hx h.near
  · have := key (-x) (by linarith) (by rw [Fmt.near_neg, h.near])
    rwa [Fmt.near_neg, neg_inj] at this

/-! ## Corners -/

theorem cornersR_of (R : Rounding K) {m : ℕ} {a : Arr K} {V : Fin (m + 1) → Fin (m + 1) → Fin (m + 1) → Fin 3 → K}
    (h : Table3D a V) (pr pg pb : Flt K) (rest : List (Flt K)) (x y z : K)
    (hx : R double (.fin (Spec.unit pr) * .fin (((m + 1 : ℕ) : K) - 1)) = .fin x)
    (hy : R double (.fin (Spec.unit pg) * .fin (((m + 1 : ℕ) : K) - 1)) = .fin y)
    (hz : R double (.fin (Spec.unit pb) * .fin (((m + 1 : ℕ) : K) - 1)) = .fin z)
    (hx0 : 0 ≤ x) (hy0 : 0 ≤ y) (hz0 : 0 ≤ z) :
    a.cornersR R (pr :: pg :: pb :: rest) = .ok ((Int.fract x, Int.fract y, Int.fract z),
      [Spec.fins (V (axLo m x) (axLo m y) (axLo m z)),
       Spec.fins (V (axLo m x) (axLo m y) (axHi m z)),
       Spec.fins (V (axLo m x) (axHi m y) (axLo m z)),
       Spec.fins (V (axLo m x) (axHi m y) (axHi m z)),
       Spec.fins (V (axHi m x) (axLo m y) (axLo m z)),
       Spec.fins (V (axHi m x) (axLo m y) (axHi m z)),
       Spec.fins (V (axHi m x) (axHi m y) (axLo m z)),
       Spec.fins (V (axHi m x) (axHi m y) (axHi m z))]) := by
  obtain ⟨rest', hd⟩ := h.dims
  unfold Arr.cornersR
  simp only [hd, List.map_cons, pyGet_zero, pyGet_succ, py_ok_bind, clamp01_unit, hx, hy, hz,
    modf_nonneg hx0, modf_nonneg hy0, modf_nonneg hz0, lookup3D_table h, py_pure]
  rfl

theorem mixR_fins (R : Rounding K) (u v : Fin 3 → K) (t : K) (r : Fin 3 → K)
    (hr : ∀ ch, sum2R R (R double (.fin 1 - .fin t)) (.fin (u ch)) (.fin t) (.fin (v ch)) = .fin (r ch)) :
    mixR R (Spec.fins u) (Spec.fins v) (.fin t) = .ok (Spec.fins r) := by
  unfold mixR
  have e : List.range (Spec.fins u).length = [0, 1, 2] := by simp [Spec.fins]; rfl
  rw [e]
  simp only [Flt.fin_sub] at hr
  simp [Spec.fins, List.ofFn_succ, pyGet, hr]

/-- Trilinear interpolation in IEEE arithmetic. -/
def triF {m : ℕ} (V : Fin (m + 1) → Fin (m + 1) → Fin (m + 1) → Fin 3 → K) (x y z : K) (ch : Fin 3) : K :=
  lerpF (Int.fract x)
    (lerpF (Int.fract y)
      (lerpF (Int.fract z) (V (axLo m x) (axLo m y) (axLo m z) ch) (V (axLo m x) (axLo m y) (axHi m z) ch))
      (lerpF (Int.fract z) (V (axLo m x) (axHi m y) (axLo m z) ch) (V (axLo m x) (axHi m y) (axHi m z) ch)))
    (lerpF (Int.fract y)
      (lerpF (Int.fract z) (V (axHi m x) (axLo m y) (axLo m z) ch) (V (axHi m x) (axLo m y) (axHi m z) ch))
      (lerpF (Int.fract z) (V (axHi m x) (axHi m y) (axLo m z) ch) (V (axHi m x) (axHi m y) (axHi m z) ch)))

theorem fract_unit (x : K) : 0 ≤ Int.fract x ∧ Int.fract x ≤ 1 := ⟨Int.fract_nonneg x, (Int.fract_lt_one x).le⟩

theorem unit_scaled {m : ℕ} (hm : m < 2 ^ 53) (p : Flt K) :
    ieee double (.fin (Spec.unit p) * .fin (((m + 1 : ℕ) : K) - 1)) = .fin (posF m (Spec.unit p)) ∧
      0 ≤ posF m (Spec.unit p) ∧ posF m (Spec.unit p) ≤ m := by
  obtain ⟨h0, h1⟩ := unit_mem p
  have hm0 : (0 : K) ≤ m := Nat.cast_nonneg m
  have hm' : m < 2 ^ 64 := lt_of_lt_of_le hm (by norm_num)
  refine ⟨posF_fin hm' ?_, Fmt.near_nonneg _ (mul_nonneg h0 hm0), ?_⟩
  · rw [abs_of_nonneg h0]
    exact h1.trans (one_le_pow₀ one_le_two)
  · have := Fmt.near_mono double (mul_le_of_le_one_left hm0 h1)
    rwa [double_nat m hm] at this

theorem trilinearR_of (R : Rounding K) {m : ℕ} {a : Arr K} {V : Fin (m + 1) → Fin (m + 1) → Fin (m + 1) → Fin 3 → K}
    (px : List (Flt K)) (x y z : K)
    (hc : a.cornersR R px = .ok ((Int.fract x, Int.fract y, Int.fract z),
      [Spec.fins (V (axLo m x) (axLo m y) (axLo m z)),
       Spec.fins (V (axLo m x) (axLo m y) (axHi m z)),
       Spec.fins (V (axLo m x) (axHi m y) (axLo m z)),
       Spec.fins (V (axLo m x) (axHi m y) (axHi m z)),
       Spec.fins (V (axHi m x) (axLo m y) (axLo m z)),
       Spec.fins (V (axHi m x) (axLo m y) (axHi m z)),
       Spec.fins (V (axHi m x) (axHi m y) (axLo m z)),
       Spec.fins (V (axHi m x) (axHi m y) (axHi m z))]))
    (L : K → K → K → K) (B1 B2 B3 : K → Prop)
    (h1 : ∀ u v, B1 u → B1 v →
      sum2R R (R double (.fin 1 - .fin (Int.fract z))) (.fin u) (.fin (Int.fract z)) (.fin v) = .fin (L (Int.fract z) u v))
    (k1 : ∀ u v, B1 u → B1 v → B2 (L (Int.fract z) u v))
    (h2 : ∀ u v, B2 u → B2 v →
      sum2R R (R double (.fin 1 - .fin (Int.fract y))) (.fin u) (.fin (Int.fract y)) (.fin v) = .fin (L (Int.fract y) u v))
    (k2 : ∀ u v, B2 u → B2 v → B3 (L (Int.fract y) u v))
    (h3 : ∀ u v, B3 u → B3 v →
      sum2R R (R double (.fin 1 - .fin (Int.fract x))) (.fin u) (.fin (Int.fract x)) (.fin v) = .fin (L (Int.fract x) u v))
    (hV : ∀ i j k ch, B1 (V i j k ch)) :
    a.lookup3DTrilinearR R px = .ok (Spec.fins fun ch => L (Int.fract x)
      (L (Int.fract y)
        (L (Int.fract z) (V (axLo m x) (axLo m y) (axLo m z) ch) (V (axLo m x) (axLo m y) (axHi m z) ch))
        (L (Int.fract z) (V (axLo m x) (axHi m y) (axLo m z) ch) (V (axLo m x) (axHi m y) (axHi m z) ch)))
      (L (Int.fract y)
        (L (Int.fract z) (V (axHi m x) (axLo m y) (axLo m z) ch) (V (axHi m x) (axLo m y) (axHi m z) ch))
        (L (Int.fract z) (V (axHi m x) (axHi m y) (axLo m z) ch) (V (axHi m x) (axHi m y) (axHi m z) ch)))) := by
  have m1 : ∀ u v : Fin 3 → K, (∀ ch, B1 (u ch)) → (∀ ch, B1 (v ch)) →
      mixR R (Spec.fins u) (Spec.fins v) (.fin (Int.fract z)) = .ok (Spec.fins fun ch => L (Int.fract z) (u ch) (v ch)) :=
    fun u v hu hv => mixR_fins R _ _ _ _ fun ch => h1 _ _ (hu ch) (hv ch)
  have m2 : ∀ u v : Fin 3 → K, (∀ ch, B2 (u ch)) → (∀ ch, B2 (v ch)) →
      mixR R (Spec.fins u) (Spec.fins v) (.fin (Int.fract y)) = .ok (Spec.fins fun ch => L (Int.fract y) (u ch) (v ch)) :=
    fun u v hu hv => mixR_fins R _ _ _ _ fun ch => h2 _ _ (hu ch) (hv ch)
  have m3 : ∀ u v : Fin 3 → K, (∀ ch, B3 (u ch)) → (∀ ch, B3 (v ch)) →
      mixR R (Spec.fins u) (Spec.fins v) (.fin (Int.fract x)) = .ok (Spec.fins fun ch => L (Int.fract x) (u ch) (v ch)) :=
    fun u v hu hv => mixR_fins R _ _ _ _ fun ch => h3 _ _ (hu ch) (hv ch)
  unfold Arr.lookup3DTrilinearR
  rw [hc]
  simp only [py_ok_bind]
  rw [m1 _ _ (fun ch => hV _ _ _ ch) (fun ch => hV _ _ _ ch), m1 _ _ (fun ch => hV _ _ _ ch) (fun ch => hV _ _ _ ch),
    m1 _ _ (fun ch => hV _ _ _ ch) (fun ch => hV _ _ _ ch), m1 _ _ (fun ch => hV _ _ _ ch) (fun ch => hV _ _ _ ch)]
  simp only [py_ok_bind]
  have q1 : ∀ i j k k' ch, B2 (L (Int.fract z) (V i j k ch) (V i j k' ch)) := fun i j k k' ch => k1 _ _ (hV _ _ _ _) (hV _ _ _ _)
  rw [m2 _ _ (fun ch => q1 _ _ _ _ ch) (fun ch => q1 _ _ _ _ ch), m2 _ _ (fun ch => q1 _ _ _ _ ch) (fun ch => q1 _ _ _ _ ch)]
  simp only [py_ok_bind]
  rw [m3 _ _ (fun ch => k2 _ _ (q1 _ _ _ _ ch) (q1 _ _ _ _ ch)) (fun ch => k2 _ _ (q1 _ _ _ _ ch) (q1 _ _ _ _ ch))]

theorem trilinearR_table {m : ℕ} {a : Arr K} {V : Fin (m + 1) → Fin (m + 1) → Fin (m + 1) → Fin 3 → K}
    (h : Table3D a V) (hV : ∀ i j k ch, Spec.IsSingle (V i j k ch)) (hm : m < 2 ^ 53) (pr pg pb : Flt K)
    (rest : List (Flt K)) (x y z : K)
    (ex : posF m (Spec.unit pr) = x) (ey : posF m (Spec.unit pg) = y) (ez : posF m (Spec.unit pb) = z) :
    a.lookup3DTrilinearR ieee (pr :: pg :: pb :: rest) = .ok (Spec.fins (triF V x y z)) := by
  obtain ⟨hx, hx0, _⟩ := unit_scaled hm pr
  obtain ⟨hy, hy0, _⟩ := unit_scaled hm pg
  obtain ⟨hz, hz0, _⟩ := unit_scaled hm pb
  rw [ex] at hx hx0
  rw [ey] at hy hy0
  rw [ez] at hz hz0
  obtain ⟨x0, x1⟩ := fract_unit x
  obtain ⟨y0, y1⟩ := fract_unit y
  obtain ⟨z0, z1⟩ := fract_unit z
  have b1 : (8 : K) * 2 ^ 128 + 5 ≤ 2 ^ 140 := by norm_num
  have b2 : (8 : K) * 2 ^ 140 + 5 ≤ 2 ^ 150 := by norm_num
  have b3 : (2 : K) ^ 150 ≤ 2 ^ 200 := pow_le_pow_right₀ one_le_two (by norm_num)
  have b4 : (2 : K) ^ 140 ≤ 2 ^ 200 := pow_le_pow_right₀ one_le_two (by norm_num)
  have b5 : (2 : K) ^ 128 ≤ 2 ^ 200 := pow_le_pow_right₀ one_le_two (by norm_num)
  exact trilinearR_of ieee _ x y z (cornersR_of ieee h pr pg pb rest _ _ _ hx hy hz hx0 hy0 hz0) lerpF
    (fun u => |u| ≤ 2 ^ 128) (fun u => |u| ≤ 2 ^ 140) (fun u => |u| ≤ 2 ^ 150)
    (fun u v hu hv => lerpF_fin z0 z1 (hu.trans b5) (hv.trans b5))
    (fun u v hu hv => (lerpF_abs z0 z1 hu hv).trans b1)
    (fun u v hu hv => lerpF_fin y0 y1 (hu.trans b4) (hv.trans b4))
    (fun u v hu hv => (lerpF_abs y0 y1 hu hv).trans b2)
    (fun u v hu hv => lerpF_fin x0 x1 (hu.trans b3) (hv.trans b3))
    (fun i j k ch => (hV i j k ch).lt.le)

/-- A trilinear lookup exceeds neither bound by more than rounding takes away again. -/
theorem triF_mem {m : ℕ} (V : Fin (m + 1) → Fin (m + 1) → Fin (m + 1) → Fin 3 → K) (x y z : K) (ch : Fin 3) (lo hi : K)
    (hlo : Spec.IsSingle lo) (hhi : Spec.IsSingle hi) (h : ∀ i j k, lo ≤ V i j k ch ∧ V i j k ch ≤ hi) :
    single.round (.fin (triF V x y z ch)) = .fin (single.near (triF V x y z ch)) ∧ lo ≤ single.near (triF V x y z ch) ∧
      single.near (triF V x y z ch) ≤ hi := by
  obtain ⟨x0, x1⟩ := fract_unit x
  obtain ⟨y0, y1⟩ := fract_unit y
  obtain ⟨z0, z1⟩ := fract_unit z
  have u1 : ∀ i j k k', lerpF (Int.fract z) (V i j k ch) (V i j k' ch) ≤ hi + (0 + 32) * (1 / 2 ^ 53 * |hi|) := fun i j k k' =>
    lerpF_le z0 z1 hhi le_rfl (by norm_num) (by have := (h i j k).2; linarith) (by have := (h i j k').2; linarith)
  have l1 : ∀ i j k k', lo - (0 + 32) * (1 / 2 ^ 53 * |lo|) ≤ lerpF (Int.fract z) (V i j k ch) (V i j k' ch) := fun i j k k' =>
    le_lerpF z0 z1 hlo le_rfl (by norm_num) (by have := (h i j k).1; linarith) (by have := (h i j k').1; linarith)
  have u2 := lerpF_le x0 x1 hhi (by norm_num) (by norm_num)
    (lerpF_le y0 y1 hhi (by norm_num) (by norm_num) (u1 (axLo m x) (axLo m y) (axLo m z) (axHi m z))
      (u1 (axLo m x) (axHi m y) (axLo m z) (axHi m z)))
    (lerpF_le y0 y1 hhi (by norm_num) (by norm_num) (u1 (axHi m x) (axLo m y) (axLo m z) (axHi m z))
      (u1 (axHi m x) (axHi m y) (axLo m z) (axHi m z)))
  have l2 := le_lerpF x0 x1 hlo (by norm_num) (by norm_num)
    (le_lerpF y0 y1 hlo (by norm_num) (by norm_num) (l1 (axLo m x) (axLo m y) (axLo m z) (axHi m z))
      (l1 (axLo m x) (axHi m y) (axLo m z) (axHi m z)))
    (le_lerpF y0 y1 hlo (by norm_num) (by norm_num) (l1 (axHi m x) (axLo m y) (axLo m z) (axHi m z))
      (l1 (axHi m x) (axHi m y) (axLo m z) (axHi m z)))
  have hb : ∀ M : K, (0 + 32 + 32 + 32) * (1 / 2 ^ 53 * |M|) ≤ |M| / 2 ^ 26 := by
    intro M
    have := abs_nonneg M
    norm_num
    linarith
  refine single_round hlo hhi ?_ ?_
  · exact (by have := hb lo; linarith : lo - |lo| / 2 ^ 26 ≤ lo - (0 + 32 + 32 + 32) * (1 / 2 ^ 53 * |lo|)).trans l2
  · exact u2.trans (by have := hb hi; linarith)

theorem lerpF_zero {a : K} (b : K) (ha : double.near a = a) : lerpF 0 a b = a := by
  unfold lerpF
  rw [sub_zero, double_one, one_mul, ha, zero_mul, Fmt.near_zero, add_zero, ha]

/-- At a lattice point. -/
theorem triF_lattice {m : ℕ} (V : Fin (m + 1) → Fin (m + 1) → Fin (m + 1) → Fin 3 → K)
    (hV : ∀ i j k ch, Spec.IsSingle (V i j k ch)) (i j k : Fin (m + 1)) (ch : Fin 3) :
    triF V (((i : ℕ) : K)) (((j : ℕ) : K)) (((k : ℕ) : K)) ch = V i j k ch := by
  have hd : ∀ i j k, double.near (V i j k ch) = V i j k ch := fun i j k => (hV i j k ch).double
  unfold triF
  simp only [Int.fract_natCast, axLo_nat, lerpF_zero _ (hd _ _ _)]

/-! ## Tetrahedra -/

/-- A weighted sum of four numbers in `float64`. -/
def sum4F (w0 w1 w2 w3 a b c d : K) : K :=
  double.near (double.near (double.near (double.near (w0 * a) + double.near (w1 * b)) + double.near (w2 * c))
    + double.near (w3 * d))

theorem sum4F_fin {w0 w1 w2 w3 a b c d : K} (h0 : |w0| ≤ 2) (h1 : |w1| ≤ 2) (h2 : |w2| ≤ 2) (h3 : |w3| ≤ 2)
    (ha : |a| ≤ 2 ^ 200) (hb : |b| ≤ 2 ^ 200) (hc : |c| ≤ 2 ^ 200) (hd : |d| ≤ 2 ^ 200) :
    ieee double (ieee double (sum2R ieee (.fin w0) (.fin a) (.fin w1) (.fin b) + ieee double (.fin w2 * .fin c))
      + ieee double (.fin w3 * .fin d)) = .fin (sum4F w0 w1 w2 w3 a b c d) := by
  have hp : ∀ x y : K, |x| ≤ 2 → |y| ≤ 2 ^ 200 → |x * y| ≤ 2 * 2 ^ 200 := by
    intro x y hx hy
    rw [abs_mul]
    exact mul_le_mul hx hy (abs_nonneg y) (by norm_num)
  have p0 := hp _ _ h0 ha
  have p1 := hp _ _ h1 hb
  have p2 := hp _ _ h2 hc
  have p3 := hp _ _ h3 hd
  have c0 : (1 : K) ≤ 2 ^ 200 := one_le_pow₀ one_le_two
  have c1 : (2 : K) ^ 200 * 1024 ≤ 2 ^ 300 := by
    rw [show (1024 : K) = 2 ^ 10 by norm_num, ← pow_add]
    exact pow_le_pow_right₀ one_le_two (by norm_num)
  rw [sum2_fin h0 h1 ha hb, Flt.fin_mul, Flt.fin_mul]
  have d0 := double_abs (w0 * a)
  have d1 := double_abs (w1 * b)
  have d2 := double_abs (w2 * c)
  have d3 := double_abs (w3 * d)
  have e1 := double_abs (double.near (w0 * a) + double.near (w1 * b))
  have a1 := abs_add_le (double.near (w0 * a)) (double.near (w1 * b))
  have a2 := abs_add_le (double.near (double.near (w0 * a) + double.near (w1 * b))) (double.near (w2 * c))
  have e2 := double_abs (double.near (double.near (w0 * a) + double.near (w1 * b)) + double.near (w2 * c))
  have a3 := abs_add_le (double.near (double.near (double.near (w0 * a) + double.near (w1 * b)) + double.near (w2 * c)))
    (double.near (w3 * d))
  have g : |w2 * c| ≤ 2 ^ 300 ∧ |w3 * d| ≤ 2 ^ 300 ∧
      |double.near (double.near (w0 * a) + double.near (w1 * b)) + double.near (w2 * c)| ≤ 2 ^ 300 ∧
      |double.near (double.near (double.near (w0 * a) + double.near (w1 * b)) + double.near (w2 * c))
        + double.near (w3 * d)| ≤ 2 ^ 300 := by
    generalize (2 : K) ^ 300 = q at *
    generalize (2 : K) ^ 200 = p at *
    exact ⟨by linarith, by linarith, by linarith, by linarith⟩
  rw [double_fin g.1, double_fin g.2.1, Flt.fin_add, double_fin g.2.2.1, Flt.fin_add, double_fin g.2.2.2]
  rfl

theorem sum4F_neg (w0 w1 w2 w3 a b c d : K) : sum4F w0 w1 w2 w3 (-a) (-b) (-c) (-d) = -sum4F w0 w1 w2 w3 a b c d := by
  unfold sum4F
  simp only [mul_neg, Fmt.near_neg, ← neg_add]

/-- The weights of a tetrahedron. -/
theorem weights4 {f0 f1 f2 : K} (h0 : f0 ≤ 1) (h1 : f1 ≤ f0) (h2 : f2 ≤ f1) (h3 : 0 ≤ f2) :
    0 ≤ double.near (1 - f0) ∧ 0 ≤ double.near (f0 - f1) ∧ 0 ≤ double.near (f1 - f2) ∧
      |double.near (1 - f0) + double.near (f0 - f1) + double.near (f1 - f2) + f2 - 1| ≤ 8 * (1 / 2 ^ 53) := by
  refine ⟨Fmt.near_nonneg _ (by linarith), Fmt.near_nonneg _ (by linarith), Fmt.near_nonneg _ (by linarith), ?_⟩
  have e1 := double_rounder.err (1 - f0)
  have e2 := double_rounder.err (f0 - f1)
  have e3 := double_rounder.err (f1 - f2)
  rw [abs_of_nonneg (show 0 ≤ 1 - f0 by linarith)] at e1
  rw [abs_of_nonneg (show 0 ≤ f0 - f1 by linarith)] at e2
  rw [abs_of_nonneg (show 0 ≤ f1 - f2 by linarith)] at e3
  have hη := eta_le (K := K)
  generalize (2 : K) ^ (-1075 : ℤ) = η at *
  have hu : (0 : K) ≤ 1 / 2 ^ 53 := by positivity
  generalize (1 : K) / 2 ^ 53 = u at *
  have hs : (1 - f0) * u + (f0 - f1) * u + (f1 - f2) * u ≤ u := by
    have : (1 - f0) * u + (f0 - f1) * u + (f1 - f2) * u = u - f2 * u := by ring
    rw [this]
    have := mul_nonneg h3 hu
    linarith
  rw [abs_le] at e1 e2 e3 ⊢
  constructor <;> linarith [e1.1, e1.2, e2.1, e2.2, e3.1, e3.2]

/-- Barycentric interpolation in IEEE arithmetic. -/
def tetraF (f : Fin 3 → K) (corner : (Fin 3 → Bool) → K) (s : Fin 3 → Fin 3) : K :=
  sum4F (double.near (1 - f (s 0))) (double.near (f (s 0) - f (s 1))) (double.near (f (s 1) - f (s 2))) (f (s 2))
    (corner fun _ => false) (corner fun a => a == s 0) (corner fun a => a == s 0 || a == s 1) (corner fun _ => true)

theorem blend4R_fins (R : Rounding K) (w0 w1 w2 w3 : Flt K) (a b c d : Fin 3 → K) (ch : Fin 3) :
    Arr.blend4R R w0 w1 w2 w3 (Spec.fins a) (Spec.fins b) (Spec.fins c) (Spec.fins d) ch
      = .ok (R double (R double (sum2R R w0 (.fin (a ch)) w1 (.fin (b ch)) + R double (w2 * .fin (c ch)))
        + R double (w3 * .fin (d ch)))) := by
  have g : ∀ u : Fin 3 → K, pyGet (Spec.fins u) (ch : ℕ) = .ok (.fin (u ch)) := by
    intro u
    rw [pyGet_eq_ok, Spec.fins, List.getElem?_ofFn, dif_pos ch.2]
  simp only [Arr.blend4R, g, py_ok_bind, py_pure]

theorem tetrahedralR_of (R : Rounding K) {m : ℕ} {a : Arr K}
    {V : Fin (m + 1) → Fin (m + 1) → Fin (m + 1) → Fin 3 → K} (px : List (Flt K)) (x y z : K)
    (hc : a.cornersR R px = .ok ((Int.fract x, Int.fract y, Int.fract z),
      [Spec.fins (V (axLo m x) (axLo m y) (axLo m z)),
       Spec.fins (V (axLo m x) (axLo m y) (axHi m z)),
       Spec.fins (V (axLo m x) (axHi m y) (axLo m z)),
       Spec.fins (V (axLo m x) (axHi m y) (axHi m z)),
       Spec.fins (V (axHi m x) (axLo m y) (axLo m z)),
       Spec.fins (V (axHi m x) (axLo m y) (axHi m z)),
       Spec.fins (V (axHi m x) (axHi m y) (axLo m z)),
       Spec.fins (V (axHi m x) (axHi m y) (axHi m z))]))
    (S : (Fin 3 → K) → ((Fin 3 → Bool) → K) → (Fin 3 → Fin 3) → K)
    (hS : ∀ (s : Fin 3 → Fin 3) (ch : Fin 3), s = tetraOrder (Int.fract x) (Int.fract y) (Int.fract z) →
      R double (R double (sum2R R
        (R double (.fin (1 - ![Int.fract x, Int.fract y, Int.fract z] (s 0)))) (.fin (cellCorner V x y z ch fun _ => false))
        (R double (.fin (![Int.fract x, Int.fract y, Int.fract z] (s 0) - ![Int.fract x, Int.fract y, Int.fract z] (s 1))))
          (.fin (cellCorner V x y z ch fun a => a == s 0))
        + R double (R double (.fin (![Int.fract x, Int.fract y, Int.fract z] (s 1) - ![Int.fract x, Int.fract y, Int.fract z] (s 2)))
          * .fin (cellCorner V x y z ch fun a => a == s 0 || a == s 1)))
        + R double (.fin (![Int.fract x, Int.fract y, Int.fract z] (s 2)) * .fin (cellCorner V x y z ch fun _ => true)))
        = .fin (S ![Int.fract x, Int.fract y, Int.fract z] (cellCorner V x y z ch) s)) :
    a.lookup3DTetrahedralR R px = .ok (Spec.fins fun ch =>
      S ![Int.fract x, Int.fract y, Int.fract z] (cellCorner V x y z ch)
        (tetraOrder (Int.fract x) (Int.fract y) (Int.fract z))) := by
  have key : ∀ (f g : ℕ → Py (Flt K)) (r : Fin 3 → K), f = g →
      (∀ ch : Fin 3, g ch = .ok (.fin (r ch))) → (do
        let r ← f 0
        let g ← f 1
        let b ← f 2
        pure [r, g, b] : Py (List (Flt K))) = .ok (Spec.fins r) := by
    intro f g r hfg hg
    subst hfg
    have h0 := hg 0
    have h1 := hg 1
    have h2 := hg 2
    simp only [Fin.val_zero, Fin.val_one, Fin.val_two] at h0 h1 h2
    simp [h0, h1, h2, Spec.fins, List.ofFn_succ]
  unfold Arr.lookup3DTetrahedralR
  rw [hc]
  simp only [py_ok_bind]
  generalize Int.fract x = fx at *
  generalize Int.fract y = fy at *
  generalize Int.fract z = fz at *
  unfold tetraOrder at hS ⊢
  split_ifs at hS ⊢ with h1 h2 h3 h4 h5
  all_goals
    refine key _ _ _ rfl (fun ch => ?_)
    rw [blend4R_fins, ← hS _ ch rfl]
    simp [cellCorner]

theorem tetrahedralR_table {m : ℕ} {a : Arr K} {V : Fin (m + 1) → Fin (m + 1) → Fin (m + 1) → Fin 3 → K}
    (h : Table3D a V) (hV : ∀ i j k ch, Spec.IsSingle (V i j k ch)) (hm : m < 2 ^ 53) (pr pg pb : Flt K) (rest : List (Flt K)) (x y z : K)
    (ex : posF m (Spec.unit pr) = x) (ey : posF m (Spec.unit pg) = y) (ez : posF m (Spec.unit pb) = z) :
    a.lookup3DTetrahedralR ieee (pr :: pg :: pb :: rest) = .ok (Spec.fins fun ch =>
      tetraF ![Int.fract x, Int.fract y, Int.fract z] (cellCorner V x y z ch)
        (tetraOrder (Int.fract x) (Int.fract y) (Int.fract z))) := by
  obtain ⟨hx, hx0, _⟩ := unit_scaled hm pr
  obtain ⟨hy, hy0, _⟩ := unit_scaled hm pg
  obtain ⟨hz, hz0, _⟩ := unit_scaled hm pb
  rw [ex] at hx hx0
  rw [ey] at hy hy0
  rw [ez] at hz hz0
  refine tetrahedralR_of ieee _ x y z (cornersR_of ieee h pr pg pb rest _ _ _ hx hy hz hx0 hy0 hz0) tetraF ?_
  intro s ch hs
  obtain ⟨s1, s2, _⟩ := tetraOrder_sorted (Int.fract x) (Int.fract y) (Int.fract z)
  rw [← hs] at s1 s2
  have h0 : ∀ a, 0 ≤ ![Int.fract x, Int.fract y, Int.fract z] a := by
    intro a; fin_cases a <;> exact Int.fract_nonneg _
  have h1 : ∀ a, ![Int.fract x, Int.fract y, Int.fract z] a ≤ 1 := by
    intro a; fin_cases a <;> exact (Int.fract_lt_one _).le
  generalize ![Int.fract x, Int.fract y, Int.fract z] = f at *
  have hu : ∀ t : K, 0 ≤ t → t ≤ 1 → ieee double (.fin t) = .fin (double.near t) ∧ |double.near t| ≤ 2 := by
    intro t t0 t1
    have g := near_unit t0 t1
    refine ⟨double_fin ?_, by rw [abs_of_nonneg g.1]; linarith⟩
    rw [abs_of_nonneg t0]
    exact t1.trans (one_le_pow₀ one_le_two)
  have g0 := h0 (s 0)
  have g1 := h0 (s 1)
  have g2 := h0 (s 2)
  have g3 := h1 (s 0)
  obtain ⟨w0, w0'⟩ := hu (1 - f (s 0)) (by linarith) (by linarith)
  obtain ⟨w1, w1'⟩ := hu (f (s 0) - f (s 1)) (by linarith) (by linarith)
  obtain ⟨w2, w2'⟩ := hu (f (s 1) - f (s 2)) (by linarith) (by linarith)
  have w3' : |f (s 2)| ≤ 2 := by
    rw [abs_of_nonneg g2]
    linarith
  have hB : ∀ e, |cellCorner V x y z ch e| ≤ 2 ^ 200 := fun e => isSingle_abs (hV _ _ _ _)
  rw [w0, w1, w2]
  exact sum4F_fin w0' w1' w2' w3' (hB _) (hB _) (hB _) (hB _)

/-- A tetrahedral lookup exceeds neither bound by more than rounding takes away again. -/
theorem tetraF_mem (f : Fin 3 → K) (corner : (Fin 3 → Bool) → K) (s : Fin 3 → Fin 3) (h0 : ∀ a, 0 ≤ f a) (h1 : ∀ a, f a ≤ 1)
    (h01 : f (s 1) ≤ f (s 0)) (h12 : f (s 2) ≤ f (s 1)) (lo hi : K)
    (hlo : Spec.IsSingle lo) (hhi : Spec.IsSingle hi) (hc : ∀ e, lo ≤ corner e ∧ corner e ≤ hi) :
    single.round (.fin (tetraF f corner s)) = .fin (single.near (tetraF f corner s)) ∧ lo ≤ single.near (tetraF f corner s) ∧
      single.near (tetraF f corner s) ≤ hi := by
  obtain ⟨w0, w1, w2, w⟩ := weights4 (h1 (s 0)) h01 h12 (h0 (s 2))
  have hη : ∀ M : K, Spec.IsSingle M → M = 0 ∨ (2 : K) ^ (-1075 : ℤ) ≤ 1 / 2 ^ 53 * |M| := fun M hM =>
    hM.eta.imp id fun h => h.trans (mul_le_mul_of_nonneg_left (by have := abs_nonneg M; linarith) (by positivity))
  have u := double_rounder.sum4_le w0 w1 w2 (h0 (s 2)) w (hc fun _ => false).2 (hc fun a => a == s 0).2
    (hc fun a => a == s 0 || a == s 1).2 (hc fun _ => true).2 (hη hi hhi)
  have l := double_rounder.le_sum4 w0 w1 w2 (h0 (s 2)) w (hc fun _ => false).1 (hc fun a => a == s 0).1
    (hc fun a => a == s 0 || a == s 1).1 (hc fun _ => true).1 (hη lo hlo)
  have hb : ∀ M : K, 64 * (1 / 2 ^ 53 * |M|) ≤ |M| / 2 ^ 26 := by
    intro M
    have := abs_nonneg M
    norm_num
    linarith
  refine single_round hlo hhi ?_ ?_
  · exact (by have := hb lo; linarith : lo - |lo| / 2 ^ 26 ≤ lo - 64 * (1 / 2 ^ 53 * |lo|)).trans l
  · exact LE.le.trans u (by have := hb hi; linarith)

/-- At a lattice point. -/
theorem tetraF_lattice (corner : (Fin 3 → Bool) → K) (s : Fin 3 → Fin 3)
    (h : double.near (corner fun _ => false) = corner fun _ => false) :
    tetraF ![0, 0, 0] corner s = corner fun _ => false := by
  have e : ∀ s : Fin 3, ![(0 : K), 0, 0] s = 0 := by intro s; fin_cases s <;> rfl
  unfold tetraF sum4F
  simp only [e, sub_zero, double_one, one_mul, Fmt.near_zero, zero_mul, add_zero, h]

/-! ## Accuracy of trilinear interpolation -/

theorem axL_eq_lerpRow {m : ℕ} (g : Fin (m + 1) → K) (t : K) : axL m t g = lerpRow g t := by
  have hf : Int.fract t = t - ⌊t⌋ := rfl
  unfold axL lerpRow axLo axHi
  rw [hf]
  by_cases h : t - ⌊t⌋ = 0
  · rw [h]
    ring
  · have : ⌈t⌉ = ⌊t⌋ + 1 := by
      rw [Int.ceil_eq_iff]
      have h0 : 0 ≤ t - ⌊t⌋ := Int.fract_nonneg t
      have h1 : t - ⌊t⌋ < 1 := Int.fract_lt_one t
      have h2 : 0 < t - ⌊t⌋ := lt_of_le_of_ne h0 (Ne.symm h)
      push_cast
      constructor <;> linarith
    rw [this]

theorem lerpRow_sub {m : ℕ} (f g : Fin (m + 1) → K) (t : K) :
    lerpRow (fun i => f i - g i) t = lerpRow f t - lerpRow g t := by
  unfold lerpRow
  ring

theorem lerpRow_abs {m : ℕ} (f : Fin (m + 1) → K) (B : K) (h : ∀ i, |f i| ≤ B) (t : K) : |lerpRow f t| ≤ B := by
  obtain ⟨⟨i, hi⟩, ⟨j, hj⟩⟩ := lerpRow_mem f t
  exact abs_le.mpr ⟨(abs_le.mp (h i)).1.trans hi, hj.trans (abs_le.mp (h j)).2⟩

/-- Exact trilinear interpolation. -/
def triRow {m : ℕ} (V : Fin (m + 1) → Fin (m + 1) → Fin (m + 1) → K) (x y z : K) : K :=
  lerpRow (fun i => lerpRow (fun j => lerpRow (fun k => V i j k) z) y) x

/-- Neighbouring entries differ by at most `J`. -/
def Spec.Smooth {m : ℕ} (V : Fin (m + 1) → Fin (m + 1) → Fin (m + 1) → K) (J : K) : Prop :=
  ∀ (n : ℕ) (hn : n + 1 ≤ m) (i j : Fin (m + 1)),
    |V ⟨n + 1, by omega⟩ i j - V ⟨n, by omega⟩ i j| ≤ J ∧ |V i ⟨n + 1, by omega⟩ j - V i ⟨n, by omega⟩ j| ≤ J ∧
      |V i j ⟨n + 1, by omega⟩ - V i j ⟨n, by omega⟩| ≤ J

theorem triRow_lipschitz {m : ℕ} (V : Fin (m + 1) → Fin (m + 1) → Fin (m + 1) → K) (J : K) (hJ : Spec.Smooth V J) {x y z x' y' z' : K}
    (hx : 0 ≤ x ∧ x ≤ m) (hy : 0 ≤ y ∧ y ≤ m) (hz : 0 ≤ z ∧ z ≤ m) (hx' : 0 ≤ x' ∧ x' ≤ m) (hy' : 0 ≤ y' ∧ y' ≤ m)
    (hz' : 0 ≤ z' ∧ z' ≤ m) :
    |triRow V x y z - triRow V x' y' z'| ≤ J * |x - x'| + J * |y - y'| + J * |z - z'| := by
  have s1 : |triRow V x y z - triRow V x' y z| ≤ J * |x - x'| := by
    refine lerpRow_lipschitz _ J (fun n hn => ?_) hx.1 hx.2 hx'.1 hx'.2
    rw [← lerpRow_sub]
    refine lerpRow_abs _ J (fun j => ?_) y
    rw [← lerpRow_sub]
    exact lerpRow_abs _ J (fun k => (hJ n hn j k).1) z
  have s2 : |triRow V x' y z - triRow V x' y' z| ≤ J * |y - y'| := by
    unfold triRow
    rw [← lerpRow_sub]
    refine lerpRow_abs _ _ (fun i => ?_) x'
    refine lerpRow_lipschitz _ J (fun n hn => ?_) hy.1 hy.2 hy'.1 hy'.2
    rw [← lerpRow_sub]
    exact lerpRow_abs _ J (fun k => (hJ n hn i k).2.1) z
  have s3 : |triRow V x' y' z - triRow V x' y' z'| ≤ J * |z - z'| := by
    unfold triRow
    rw [← lerpRow_sub]
    refine lerpRow_abs _ _ (fun i => ?_) x'
    rw [← lerpRow_sub]
    refine lerpRow_abs _ _ (fun j => ?_) y'
    exact lerpRow_lipschitz _ J (fun n hn => (hJ n hn i j).2.2) hz.1 hz.2 hz'.1 hz'.2
  have e : triRow V x y z - triRow V x' y' z' = (triRow V x y z - triRow V x' y z) + (triRow V x' y z - triRow V x' y' z)
      + (triRow V x' y' z - triRow V x' y' z') := by ring
  rw [e]
  exact (abs_add_le _ _).trans (add_le_add ((abs_add_le _ _).trans (add_le_add s1 s2)) s3)

theorem lerpF_close {t a b a' b' B E : K} (h0 : 0 ≤ t) (h1 : t ≤ 1) (hB : (2 : K) ^ (-1075 : ℤ) ≤ 1 / 2 ^ 53 * B)
    (ha : |a - a'| ≤ E) (hb : |b - b'| ≤ E) (hE : E ≤ B) (ha' : |a'| ≤ B) (hb' : |b'| ≤ B) :
    |lerpF t a b - ((1 - t) * a' + t * b')| ≤ E + 48 * (1 / 2 ^ 53 * B) := by
  have hB0 : 0 ≤ B := (abs_nonneg a').trans ha'
  have hab : ∀ u u' : K, |u - u'| ≤ E → |u'| ≤ B → |u| ≤ 2 * B := by
    intro u u' h h'
    have := abs_add_le (u - u') u'
    rw [sub_add_cancel] at this
    linarith
  have hη : (2 : K) ^ (-1075 : ℤ) ≤ 1 / 2 ^ 53 * (2 * B) := by
    have : (1 : K) / 2 ^ 53 * (2 * B) = 1 / 2 ^ 53 * B + 1 / 2 ^ 53 * B := by ring
    have : (0 : K) ≤ 1 / 2 ^ 53 * B := by positivity
    generalize (2 : K) ^ (-1075 : ℤ) = η at *
    linarith
  have h := lerpF_near h0 h1 hη (hab _ _ ha ha') (hab _ _ hb hb')
  have h2 : |((1 - t) * a + t * b) - ((1 - t) * a' + t * b')| ≤ E := by
    have e : ((1 - t) * a + t * b) - ((1 - t) * a' + t * b') = (1 - t) * (a - a') + t * (b - b') := by ring
    rw [e]
    refine (abs_add_le _ _).trans ?_
    rw [abs_mul, abs_mul, abs_of_nonneg h0, abs_of_nonneg (show 0 ≤ 1 - t by linarith)]
    have := mul_le_mul_of_nonneg_left ha (show 0 ≤ 1 - t by linarith)
    have := mul_le_mul_of_nonneg_left hb h0
    linarith
  have e : lerpF t a b - ((1 - t) * a' + t * b') = (lerpF t a b - ((1 - t) * a + t * b))
      + (((1 - t) * a + t * b) - ((1 - t) * a' + t * b')) := by ring
  rw [e]
  refine (abs_add_le _ _).trans ?_
  linarith

/-- The error of a stored trilinear lookup. -/
theorem triF_near {m : ℕ} (V : Fin (m + 1) → Fin (m + 1) → Fin (m + 1) → Fin 3 → K)
    (hV : ∀ i j k ch, Spec.IsSingle (V i j k ch)) (ch : Fin 3) (J B : K) (hJ : Spec.Smooth (fun i j k => V i j k ch) J) (hJ0 : 0 ≤ J)
    (hB : ∀ i j k, |V i j k ch| ≤ B) {X Y Z x y z : K}
    (hX : 0 ≤ X ∧ X ≤ m) (hY : 0 ≤ Y ∧ Y ≤ m) (hZ : 0 ≤ Z ∧ Z ≤ m) (hx : 0 ≤ x ∧ x ≤ m) (hy : 0 ≤ y ∧ y ≤ m) (hz : 0 ≤ z ∧ z ≤ m)
    (ex : |X - x| ≤ m * (5 / 4 * (1 / 2 ^ 24))) (ey : |Y - y| ≤ m * (5 / 4 * (1 / 2 ^ 24))) (ez : |Z - z| ≤ m * (5 / 4 * (1 / 2 ^ 24))) :
    |single.near (triF V X Y Z ch) - triRow (fun i j k => V i j k ch) x y z| ≤ (3 * J * m + B) / 2 ^ 23 + 2 ^ (-150 : ℤ) := by
  have hB0 : 0 ≤ B := (abs_nonneg _).trans (hB 0 0 0)
  have hm0 : (0 : K) ≤ m := Nat.cast_nonneg m
  have hμ := (two_zpow_pos (K := K) (-150)).le
  by_cases hzero : ∀ i j k, V i j k ch = 0
  · have e1 : triRow (fun i j k => V i j k ch) x y z = 0 := by
      unfold triRow lerpRow
      simp [hzero]
    have e2 : triF V X Y Z ch = 0 := by
      unfold triF
      simp [hzero, lerpF, Fmt.near_zero]
    rw [e1, e2, Fmt.near_zero, sub_self, abs_zero]
    positivity
  push Not at hzero
  obtain ⟨i, j, k, hk⟩ := hzero
  have hη : (2 : K) ^ (-1075 : ℤ) ≤ 1 / 2 ^ 53 * B := by
    refine ((hV i j k ch).eta.resolve_left hk).trans ?_
    refine mul_le_mul_of_nonneg_left ?_ (by positivity)
    have := hB i j k
    have := abs_nonneg (V i j k ch)
    linarith
  obtain ⟨x0, x1⟩ := fract_unit X
  obtain ⟨y0, y1⟩ := fract_unit Y
  obtain ⟨z0, z1⟩ := fract_unit Z
  have hu : (0 : K) ≤ 1 / 2 ^ 53 * B := by positivity
  have hu2 : 48 * (1 / 2 ^ 53 * B) + 48 * (1 / 2 ^ 53 * B) ≤ B := by
    norm_num
    linarith
  have habs : ∀ (t p q : K), 0 ≤ t → t ≤ 1 → |p| ≤ B → |q| ≤ B → |(1 - t) * p + t * q| ≤ B := by
    intro t p q h0 h1 hp hq
    refine (abs_add_le _ _).trans ?_
    rw [abs_mul, abs_mul, abs_of_nonneg h0, abs_of_nonneg (show 0 ≤ 1 - t by linarith)]
    have := mul_le_mul_of_nonneg_left hp (show 0 ≤ 1 - t by linarith)
    have := mul_le_mul_of_nonneg_left hq h0
    linarith
  have hself : ∀ i j k, |V i j k ch - V i j k ch| ≤ 0 := by
    intro i j k
    rw [sub_self, abs_zero]
  have l1 : ∀ i j k k', |lerpF (Int.fract Z) (V i j k ch) (V i j k' ch)
      - ((1 - Int.fract Z) * V i j k ch + Int.fract Z * V i j k' ch)| ≤ 48 * (1 / 2 ^ 53 * B) := by
    intro i j k k'
    have := lerpF_close z0 z1 hη (hself i j k) (hself i j k') hB0 (hB i j k) (hB i j k')
    rwa [zero_add] at this
  have b1 := fun i j k k' => habs _ _ _ z0 z1 (hB i j k) (hB i j k')
  have l2 := fun i j j' k k' => lerpF_close y0 y1 hη (l1 i j k k') (l1 i j' k k') (by linarith) (b1 i j k k') (b1 i j' k k')
  have b2 := fun i j j' k k' => habs _ _ _ y0 y1 (b1 i j k k') (b1 i j' k k')
  have l3 := lerpF_close x0 x1 hη (l2 (axLo m X) (axLo m Y) (axHi m Y) (axLo m Z) (axHi m Z))
    (l2 (axHi m X) (axLo m Y) (axHi m Y) (axLo m Z) (axHi m Z)) hu2
    (b2 (axLo m X) (axLo m Y) (axHi m Y) (axLo m Z) (axHi m Z)) (b2 (axHi m X) (axLo m Y) (axHi m Y) (axLo m Z) (axHi m Z))
  have eT : triRow (fun i j k => V i j k ch) X Y Z = (1 - Int.fract X) *
      ((1 - Int.fract Y) * ((1 - Int.fract Z) * V (axLo m X) (axLo m Y) (axLo m Z) ch + Int.fract Z * V (axLo m X) (axLo m Y) (axHi m Z) ch)
        + Int.fract Y * ((1 - Int.fract Z) * V (axLo m X) (axHi m Y) (axLo m Z) ch + Int.fract Z * V (axLo m X) (axHi m Y) (axHi m Z) ch))
      + Int.fract X *
      ((1 - Int.fract Y) * ((1 - Int.fract Z) * V (axHi m X) (axLo m Y) (axLo m Z) ch + Int.fract Z * V (axHi m X) (axLo m Y) (axHi m Z) ch)
        + Int.fract Y * ((1 - Int.fract Z) * V (axHi m X) (axHi m Y) (axLo m Z) ch + Int.fract Z * V (axHi m X) (axHi m Y) (axHi m Z) ch)) := by
    unfold triRow
    simp only [← axL_eq_lerpRow]
    rfl
  rw [← eT] at l3
  have l4 : |triF V X Y Z ch - triRow (fun i j k => V i j k ch) X Y Z| ≤ 144 * (1 / 2 ^ 53 * B) := by
    refine (le_of_eq_of_le rfl l3).trans (le_of_eq ?_)
    ring
  have hl := triRow_lipschitz _ J hJ hX hY hZ hx hy hz
  have jx := mul_le_mul_of_nonneg_left ex hJ0
  have jy := mul_le_mul_of_nonneg_left ey hJ0
  have jz := mul_le_mul_of_nonneg_left ez hJ0
  have hT : |triRow (fun i j k => V i j k ch) X Y Z| ≤ B :=
    lerpRow_abs _ B (fun i => lerpRow_abs _ B (fun j => lerpRow_abs _ B (fun k => hB i j k) Z) Y) X
  have hs := single_rounder.err (triF V X Y Z ch)
  have g0 := abs_add_le (triF V X Y Z ch - triRow (fun i j k => V i j k ch) X Y Z) (triRow (fun i j k => V i j k ch) X Y Z)
  rw [sub_add_cancel] at g0
  have g1 : |triF V X Y Z ch| ≤ 9 / 8 * B := by
    refine g0.trans ((add_le_add l4 hT).trans ?_)
    norm_num
    linarith
  have g2 := mul_le_mul_of_nonneg_right g1 (show (0 : K) ≤ 1 / 2 ^ 24 by positivity)
  have e : single.near (triF V X Y Z ch) - triRow (fun i j k => V i j k ch) x y z
      = (single.near (triF V X Y Z ch) - triF V X Y Z ch) + (triF V X Y Z ch - triRow (fun i j k => V i j k ch) X Y Z)
        + (triRow (fun i j k => V i j k ch) X Y Z - triRow (fun i j k => V i j k ch) x y z) := by ring
  rw [e]
  refine (abs_add_le _ _).trans ((add_le_add (abs_add_le _ _) hl).trans ?_)
  have hJm : 0 ≤ J * m := mul_nonneg hJ0 hm0
  have q1 : J * (m * (5 / 4 * (1 / 2 ^ 24))) = J * m * (5 / 4 * (1 / 2 ^ 24)) := by ring
  have q2 : 3 * J * m = 3 * (J * m) := by ring
  rw [q1] at jx jy jz
  rw [q2]
  generalize J * (m : K) = w at *
  generalize (2 : K) ^ (-150 : ℤ) = μ at *
  generalize (2 : K) ^ (-1075 : ℤ) = η at *
  norm_num at *
  linarith

end CLF
