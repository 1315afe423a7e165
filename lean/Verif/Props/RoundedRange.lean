import Verif.Lemmas.RoundedRange

/-! # Property C126: the Range node in IEEE arithmetic -/

set_option linter.unusedSectionVars false

namespace CLF

variable {K : Type} [Field K] [LinearOrder K] [IsStrictOrderedRing K] [FloorRing K]

/-- A bound on the unit scale, in `float64`. -/
def boundF (d : AVal) (x : K) : K := double.near (x / Spec.fullScale (some d))

/-- The scale in `float64`. -/
def scaleF (a b c d : K) : K := double.near (double.near (d - c) / double.near (b - a))

/-- The map of the unit scale in `float64`. -/
def mapF (a c sc x : K) : K := double.near (double.near (double.near (x * sc) + c) - double.near (a * sc))

/-- What a clamping Range gives for a number `x`. -/
def rangeF (din dout : AVal) (mi ma mo mx x : K) : K :=
  backF dout (single.near (min (boundF dout mx) (max (boundF dout mo) (single.near
    (mapF (boundF din mi) (boundF dout mo) (scaleF (boundF din mi) (boundF din ma) (boundF dout mo) (boundF dout mx)) (unitF din x))))))

/-- The numbers of a Range with four bounds. -/
structure Spec.Bounds (din dout : AVal) (mi ma mo mx : K) : Prop where
  minIn : Spec.PixelNumber din mi
  maxIn : Spec.PixelNumber din ma
  minOut : Spec.PixelNumber dout mo
  maxOut : Spec.PixelNumber dout mx
  lt : mi < ma
  le : mo ≤ mx

theorem boundF_mono (d : AVal) {x y : K} (h : x ≤ y) : boundF d x ≤ boundF d y :=
  Fmt.near_mono _ (div_le_div_of_nonneg_right h (fullScale_pos _).le)

theorem scaleF_fin {a b c d : K} (hc : |c| < 2 ^ 128) (hd : |d| < 2 ^ 128)
    (hw : (2 : K) ^ (-149 : ℤ) ≤ double.near (b - a)) :
    ieee double (.fin (d - c)) = .fin (double.near (d - c)) ∧
      |double.near (d - c) / double.near (b - a)| ≤ 2 ^ 280 := by
  have h1 : |d - c| ≤ 2 ^ 129 := by
    have := abs_sub d c
    have e : (2 : K) ^ 129 = 2 * 2 ^ 128 := by rw [← pow_succ']
    rw [e]
    linarith
  refine ⟨double_fin (h1.trans (pow_le_pow_right₀ one_le_two (by norm_num))), ?_⟩
  have hw0 := two_zpow_pos (K := K) (-149)
  rw [abs_div, abs_of_pos (hw0.trans_le hw), div_le_iff₀ (hw0.trans_le hw)]
  have h2 := double_size h1
  have h3 : (2 : K) ^ 131 = 2 ^ 280 * 2 ^ (-149 : ℤ) := by
    rw [← zpow_natCast, ← zpow_natCast, ← zpow_add₀ two_ne_zero]
    norm_num
  have h4 : (2 : K) ^ 280 * 2 ^ (-149 : ℤ) ≤ 2 ^ 280 * double.near (b - a) :=
    mul_le_mul_of_nonneg_left hw (by positivity)
  exact (h2.trans h3.le).trans h4

theorem mapF_fin {a c sc x : K} (ha : |a| < 2 ^ 128) (hc : |c| < 2 ^ 128) (hsc : |sc| ≤ 2 ^ 282) (hx : |x| < 2 ^ 128) :
    ieee double (ieee double (ieee double (.fin x * .fin sc) + .fin c) - ieee double (.fin a * .fin sc)) = .fin (mapF a c sc x) := by
  have mul : ∀ y : K, |y| < 2 ^ 128 → |y * sc| ≤ 2 ^ 410 := by
    intro y hy
    rw [abs_mul]
    refine (mul_le_mul hy.le hsc (abs_nonneg _) (by positivity)).trans_eq ?_
    rw [← pow_add]
  have l1 : (2 : K) ^ 410 ≤ 2 ^ 900 := pow_le_pow_right₀ one_le_two (by norm_num)
  have m1 := double_size (mul x hx)
  have m2 := double_size (mul a ha)
  have s1 : |double.near (x * sc) + c| ≤ 2 ^ 413 := by
    refine (abs_add_le _ _).trans ?_
    have e : (2 : K) ^ 413 = 2 ^ 412 + 2 ^ 412 := by rw [← two_mul, ← pow_succ']
    have : (2 : K) ^ 128 ≤ 2 ^ 412 := pow_le_pow_right₀ one_le_two (by norm_num)
    rw [e]
    exact add_le_add m1 (hc.le.trans this)
  have m3 := double_size s1
  have s2 : |double.near (double.near (x * sc) + c) - double.near (a * sc)| ≤ 2 ^ 416 := by
    refine (abs_sub _ _).trans ?_
    have e : (2 : K) ^ 416 = 2 ^ 415 + 2 ^ 415 := by rw [← two_mul, ← pow_succ']
    have : (2 : K) ^ 412 ≤ 2 ^ 415 := pow_le_pow_right₀ one_le_two (by norm_num)
    rw [e]
    exact add_le_add m3 (m2.trans this)
  rw [Flt.fin_mul, Flt.fin_mul, double_fin_big ((mul x hx).trans l1), double_fin_big ((mul a ha).trans l1), Flt.fin_add,
    double_fin_big (s1.trans (pow_le_pow_right₀ one_le_two (by norm_num))), Flt.fin_sub,
    double_fin_big (s2.trans (pow_le_pow_right₀ one_le_two (by norm_num)))]
  rfl

theorem clamp_near {d : AVal} {mo mx : K} (h : mo ≤ mx) {y : K} (h1 : boundF d mo ≤ y) (h2 : y ≤ boundF d mx)
    (hmo : Spec.IsSingle mo) (hmx : Spec.IsSingle mx) :
    ieee single (.fin y) = .fin (single.near y) ∧ unitF d mo ≤ single.near y ∧ single.near y ≤ unitF d mx := by
  have b1 := Fmt.near_mono single h1
  have b2 := Fmt.near_mono single h2
  refine ⟨Fmt.round_eq single _ ?_, b1, b2⟩
  rw [← Fmt.abs_near]
  have c1 := (Fmt.round_finite single (unitR_eq d hmo).2).2
  have c2 := (Fmt.round_finite single (unitR_eq d hmx).2).2
  rw [abs_lt] at c1 c2 ⊢
  unfold boundF at b1 b2
  unfold unitF at c1 c2
  exact ⟨by linarith, by linarith⟩

/-- One value of any kind. -/
theorem rangeR_any {din dout : AVal} {mi ma mo mx : K} (hb : Spec.Bounds din dout mi ma mo mx) (x : Flt K) :
    ∃ y, boundF dout mo ≤ y ∧ y ≤ boundF dout mx ∧
      rangeStepR ieee (some din) (some dout) true (some (ieee double (.fin (mi / Spec.fullScale (some din)))))
        (some (ieee double (.fin (ma / Spec.fullScale (some din))))) (some (ieee double (.fin (mo / Spec.fullScale (some dout)))))
        (some (ieee double (.fin (mx / Spec.fullScale (some dout))))) x = .ok (.fin (backF dout (single.near y))) ∧
      (∀ v, x = .fin v → Spec.IsSingle v → backF dout (single.near y) = rangeF din dout mi ma mo mx v) ∧
      (x = .nan → backF dout (single.near y) = mo) ∧
      Spec.IsSingle (backF dout (single.near y)) ∧ mo ≤ backF dout (single.near y) ∧ backF dout (single.near y) ≤ mx := by
  obtain ⟨e1, l1⟩ := bound_fin (some din) hb.minIn.single
  obtain ⟨e2, l2⟩ := bound_fin (some din) hb.maxIn.single
  obtain ⟨e3, l3⟩ := bound_fin (some dout) hb.minOut.single
  obtain ⟨e4, l4⟩ := bound_fin (some dout) hb.maxOut.single
  have hw := rangeWidth_pos hb.minIn hb.maxIn hb.lt
  have hle : boundF dout mo ≤ boundF dout mx := boundF_mono dout hb.le
  rw [e1, e2, e3, e4]
  change (2 : K) ^ (-149 : ℤ) ≤ double.near (boundF din ma - boundF din mi) at hw
  change |boundF din mi| < 2 ^ 128 at l1
  change |boundF din ma| < 2 ^ 128 at l2
  change |boundF dout mo| < 2 ^ 128 at l3
  change |boundF dout mx| < 2 ^ 128 at l4
  change ∃ y, boundF dout mo ≤ y ∧ y ≤ boundF dout mx ∧
      rangeStepR ieee (some din) (some dout) true (some (.fin (boundF din mi))) (some (.fin (boundF din ma)))
        (some (.fin (boundF dout mo))) (some (.fin (boundF dout mx))) x = .ok (.fin (backF dout (single.near y))) ∧ _
  obtain ⟨d1, q1⟩ := scaleF_fin l3 l4 hw
  obtain ⟨d2, -⟩ := scaleF_fin l1 l2 hw
  have hdiv : pyDivF (ieee double (.fin (boundF dout mx) - .fin (boundF dout mo)))
      (ieee double (.fin (boundF din ma) - .fin (boundF din mi)))
      = .ok (.fin (double.near (boundF dout mx - boundF dout mo) / double.near (boundF din ma - boundF din mi))) := by
    rw [Flt.fin_sub, Flt.fin_sub, d1, d2, pyDivF_fin ((two_zpow_pos _).trans_le hw).ne']
  rw [rangeStepR_clamp ieee _ _ _ _ _ _ x _ hdiv]
  have hsc : ieee double (.fin (double.near (boundF dout mx - boundF dout mo) / double.near (boundF din ma - boundF din mi)))
      = .fin (scaleF (boundF din mi) (boundF din ma) (boundF dout mo) (boundF dout mx)) :=
    double_fin (q1.trans (pow_le_pow_right₀ one_le_two (by norm_num)))
  rw [hsc]
  have hscs : |scaleF (boundF din mi) (boundF din ma) (boundF dout mo) (boundF dout mx)| ≤ 2 ^ 282 := double_size q1
  generalize hX : (ieee single (ieee double (ieee double (ieee double
      (ieee single (toUnitR ieee x (some din)) * .fin (scaleF (boundF din mi) (boundF din ma) (boundF dout mo) (boundF dout mx)))
      + .fin (boundF dout mo)) - ieee double (.fin (boundF din mi) * .fin (scaleF (boundF din mi) (boundF din ma) (boundF dout mo)
      (boundF dout mx)))))) = X
  obtain ⟨y, hy, h1, h2⟩ := clamp_mem X hle
  obtain ⟨c1, c2, c3⟩ := clamp_near hb.le h1 h2 hb.minOut.single hb.maxOut.single
  obtain ⟨k1, k2, k3, k4⟩ := backR_eq dout hb.minOut hb.maxOut (isSingle_near c1) c2 c3
  refine ⟨y, h1, h2, ?_, ?_, ?_, k2, k3, k4⟩
  · rw [hy, c1, k1]
  · intro v hv hs
    obtain ⟨u1, u2⟩ := unitR_eq din hs
    rw [hv, u1, mapF_fin l1 l3 hscs u2.lt] at hX
    rw [← hX, clamp_single hle l3 l4] at hy
    rw [← Flt.fin.inj hy, rangeF]
  · intro hv
    have hn1 : ieee single (.nan : Flt K) = .nan := Fmt.round_nan single (by decide)
    have hn2 : ieee double (.nan : Flt K) = .nan := Fmt.round_nan double (by decide)
    have hn : ∀ (s : Flt K), (.nan : Flt K) * s = .nan ∧ (.nan : Flt K) + s = .nan ∧
        (.nan : Flt K) - s = .nan ∧ (.nan : Flt K) / s = .nan := by
      intro s
      exact ⟨by cases s <;> rfl, by cases s <;> rfl, by cases s <;> rfl, by cases s <;> rfl⟩
    have hu : toUnitR ieee (.nan : Flt K) (some din) = .nan := by
      rcases toUnitR_cases (K := K) ieee .nan (some din) with ⟨e, _⟩ | ⟨e, _⟩
      · rw [e, (hn _).2.2.2, hn2]
      · exact e
    rw [hv, hu, hn1, (hn _).1, hn2, (hn _).2.1, hn2, (hn _).2.2.1, hn2, hn1] at hX
    rw [← hX] at hy
    have : clamp .nan (.fin (boundF dout mo)) (.fin (boundF dout mx)) = .fin (boundF dout mo) := by
      simp only [clamp, Flt.pmax, Flt.pmin]
      simpa using fun h' => le_antisymm h' hle
    rw [this] at hy
    rw [← Flt.fin.inj hy]
    exact hb.minOut.back

/-- C126: in IEEE arithmetic a clamping Range with four bounds that pixels of the depths can hold gives numbers between the
output bounds for every value, finite or not; NaN becomes the lower bound. -/
theorem C126_bounds (b : Base K) (din dout : AVal) (minIn maxIn minOut maxOut : K)
    (h : FullRange b din dout minIn maxIn minOut maxOut) (hcl : Clamps b) (hb : Spec.Bounds din dout minIn maxIn minOut maxOut)
    (values : List (Flt K)) :
    ∃ r, rangeProcessR ieee b values = .ok r ∧ r.out.length = values.length ∧
      (∀ y ∈ r.out, ∃ z, y = .fin z ∧ Spec.IsSingle z ∧ minOut ≤ z ∧ z ≤ maxOut) ∧
      ∀ i : ℕ, values[i]? = some (Flt.nan : Flt K) → r.out[i]? = some (Flt.fin minOut) := by
  rw [rangeR_full ieee h hcl]
  choose y h1 h2 hy hf hnan hs h3 h4 using rangeR_any hb
  rw [py_mapM_ok _ (fun v => .fin (backF dout (single.near (y v)))) values (fun v _ => hy v)]
  refine ⟨_, rfl, by simp, ?_, ?_⟩
  · intro z hz
    simp only [List.mem_map] at hz
    obtain ⟨v, _, rfl⟩ := hz
    exact ⟨_, rfl, hs v, h3 v, h4 v⟩
  · intro i hi
    simp only [List.getElem?_map, hi, Option.map_some, hnan _ rfl]

theorem scaleF_nonneg {a b c d : K} (hab : a ≤ b) (hcd : c ≤ d) : 0 ≤ scaleF a b c d :=
  double_rounder.nonneg (div_nonneg (double_rounder.nonneg (sub_nonneg.mpr hcd)) (double_rounder.nonneg (sub_nonneg.mpr hab)))

theorem rangeF_mono {din dout : AVal} {mi ma mo mx : K} (hi : mi ≤ ma) (ho : mo ≤ mx) {x y : K} (h : x ≤ y) :
    rangeF din dout mi ma mo mx x ≤ rangeF din dout mi ma mo mx y := by
  have hs := scaleF_nonneg (boundF_mono din hi) (boundF_mono dout ho)
  refine backF_mono dout (Fmt.near_mono _ (min_le_min le_rfl (max_le_max le_rfl (Fmt.near_mono _ (Fmt.near_mono _
    (sub_le_sub_right (Fmt.near_mono _ (add_le_add_left (Fmt.near_mono _ (mul_le_mul_of_nonneg_right (unitF_mono din h) hs)) _)) _))))))

/-- The finite numbers of `float32`. -/
theorem rangeR_finite {b : Base K} {din dout : AVal} {mi ma mo mx : K} (h : FullRange b din dout mi ma mo mx) (hcl : Clamps b)
    (hb : Spec.Bounds din dout mi ma mo mx) (xs : List K) (hxs : ∀ x ∈ xs, Spec.IsSingle x) :
    rangeProcessR ieee b (xs.map .fin) = .ok ⟨xs.map fun x => .fin (rangeF din dout mi ma mo mx x),
      xs.map fun x => .fin (rangeF din dout mi ma mo mx x), true⟩ ∧
      ∀ x ∈ xs, mo ≤ rangeF din dout mi ma mo mx x ∧ rangeF din dout mi ma mo mx x ≤ mx := by
  rw [rangeR_full ieee h hcl]
  have hv : ∀ x ∈ xs, _ := fun x hx => rangeR_any hb (.fin x)
  refine ⟨?_, fun x hx => ?_⟩
  · rw [py_mapM_ok _ (fun v => match v with | .fin x => .fin (rangeF din dout mi ma mo mx x) | v => v)]
    · simp only [List.map_map, Function.comp_def, py_ok_bind]
    · intro v hv'
      obtain ⟨x, hx, rfl⟩ := List.mem_map.mp hv'
      obtain ⟨y, -, -, e, hf, -⟩ := hv x hx
      rw [e, hf x rfl (hxs x hx)]
  · obtain ⟨y, -, -, -, hf, -, -, h1, h2⟩ := hv x hx
    rw [hf x rfl (hxs x hx)] at h1 h2
    exact ⟨h1, h2⟩

/-- C126: and it preserves the order of numbers. -/
theorem C126_monotone (b : Base K) (din dout : AVal) (minIn maxIn minOut maxOut : K)
    (h : FullRange b din dout minIn maxIn minOut maxOut) (hcl : Clamps b) (hb : Spec.Bounds din dout minIn maxIn minOut maxOut)
    (xs : List K) (hxs : ∀ x ∈ xs, Spec.IsSingle x) :
    ∃ ys : List K, ys.length = xs.length ∧ rangeProcessR ieee b (xs.map .fin) = .ok ⟨ys.map .fin, ys.map .fin, true⟩ ∧
      ∀ (i j : ℕ) (x x' y y' : K), xs[i]? = some x → xs[j]? = some x' → ys[i]? = some y → ys[j]? = some y' → x ≤ x' → y ≤ y' := by
  refine ⟨xs.map (rangeF din dout minIn maxIn minOut maxOut), by simp, ?_, ?_⟩
  · rw [(rangeR_finite h hcl hb xs hxs).1, List.map_map]; rfl
  · intro i j x x' y y' hi hj hi' hj' hle
    simp only [List.getElem?_map, hi, hj, Option.map_some, Option.some.injEq] at hi' hj'
    rw [← hi', ← hj']
    exact rangeF_mono hb.lt.le hb.le hle

/-- The inner part of a Range between equal bounds. -/
theorem rangeF_inside {d : AVal} {lo hi x : K} (hlo : Spec.PixelNumber d lo) (hhi : Spec.PixelNumber d hi)
    (hx : Spec.PixelNumber d x) (h0 : 0 ≤ lo) (hlh : lo < hi) (h1 : lo ≤ x) (h2 : x ≤ hi) : rangeF d d lo hi lo hi x = x := by
  have hw := rangeWidth_pos hlo hhi hlh
  have hw0 := (two_zpow_pos _).trans_le hw
  have hsc : scaleF (boundF d lo) (boundF d hi) (boundF d lo) (boundF d hi) = 1 := by
    unfold scaleF boundF
    rw [div_self hw0.ne', double_one]
  obtain ⟨-, hu⟩ := unitR_eq d hx.single
  have hpos : (0 : K) < Spec.fullScale (some d) := fullScale_pos _
  have hc0 : 0 ≤ boundF d lo := double_rounder.nonneg (div_nonneg h0 hpos.le)
  have hu0 : 0 ≤ unitF d x := single_rounder.nonneg (double_rounder.nonneg (div_nonneg (h0.trans h1) hpos.le))
  have hmap : single.near (mapF (boundF d lo) (boundF d lo) 1 (unitF d x)) = unitF d x := by
    unfold mapF
    rw [mul_one, mul_one, hu.double, show double.near (boundF d lo) = boundF d lo from Fmt.near_near _ _]
    refine Fmt.near_absorb single hu.near ?_
    rcases hu.eta with hz | hη
    · -- zero
      have hq0 : boundF d lo = 0 := by
        have hb : unitF d lo ≤ unitF d x := unitF_mono d h1
        rw [hz] at hb
        have hback := hlo.back
        have : unitF d lo = 0 := le_antisymm hb (single_rounder.nonneg hc0)
        rw [this] at hback
        have hl : lo = 0 := by
          rw [← hback, backF, zero_mul, double_rounder.zero, single_rounder.zero]
        rw [boundF, hl, zero_div, double_rounder.zero]
      rw [hz, hq0]
      simp [double_rounder.zero]
    · have hcx : boundF d lo ≤ boundF d x := boundF_mono d h1
      have hxu := single_rounder.err (boundF d x)
      have hc2 : 0 ≤ boundF d x := hc0.trans hcx
      have huu : single.near (boundF d x) = unitF d x := rfl
      rw [huu] at hxu
      have e1 := double_rounder.err (unitF d x + boundF d lo)
      have e2 := double_rounder.err (double.near (unitF d x + boundF d lo) - boundF d lo)
      have hsub : (2 : K) ^ (-150 : ℤ) ≤ unitF d x := by
        rcases hu.big with hz | hb
        · rw [hz, abs_zero, zero_div, mul_zero] at hη
          exact absurd (two_zpow_pos (K := K) (-1075)) (not_lt.mpr hη)
        · rw [abs_of_nonneg hu0] at hb
          exact (zpow_le_zpow_right₀ one_le_two (by norm_num)).trans hb
      rw [abs_of_nonneg hu0] at hη
      rw [abs_of_nonneg hu0, show single.mant + 3 = 26 from rfl]
      rw [abs_of_nonneg (add_nonneg hu0 hc0)] at e1
      rw [abs_of_nonneg hc2] at hxu
      have f0 := abs_le.mp hxu
      generalize unitF d x = u at *
      generalize boundF d lo = c at *
      generalize boundF d x = q at *
      generalize double.near (u + c) = s at *
      have hsc' : |s - c| ≤ |s - (u + c)| + u := by
        have := abs_add_le (s - (u + c)) u
        rw [abs_of_nonneg hu0] at this
        have e : s - (u + c) + u = s - c := by ring
        rwa [e] at this
      have hfin : |double.near (s - c) - u| ≤ |double.near (s - c) - (s - c)| + |s - (u + c)| := by
        have := abs_add_le (double.near (s - c) - (s - c)) (s - (u + c))
        have e : double.near (s - c) - (s - c) + (s - (u + c)) = double.near (s - c) - u := by ring
        rwa [e] at this
      generalize |double.near (s - c) - u| = t1 at *
      generalize |double.near (s - c) - (s - c)| = t2 at *
      generalize |s - (u + c)| = t3 at *
      generalize |s - c| = t4 at *
      generalize (2 : K) ^ (-1075 : ℤ) = η at *
      generalize (2 : K) ^ (-150 : ℤ) = μ at *
      have hq : q ≤ 3 * u := by
        have := f0.1
        norm_num at this
        linarith
      have hc3 : c ≤ 3 * u := hcx.trans hq
      norm_num at *
      linarith
  unfold rangeF
  rw [hsc, hmap]
  have hm : Monotone (single.near : K → K) := fun _ _ h => Fmt.near_mono _ h
  rw [hm.map_min, hm.map_max, hu.near]
  change backF d (min (unitF d hi) (max (unitF d lo) (unitF d x))) = x
  rw [max_eq_right (unitF_mono d h1), min_eq_right (unitF_mono d h2), hx.back]

/-- C126: equal bounds in and out, not negative: numbers that pixels hold are clamped and otherwise left exactly as they are.
What is missing: bounds below zero, other values between the codes. -/
theorem C126_identity_partial (b : Base K) (d : AVal) (lo hi : K) (h : FullRange b d d lo hi lo hi) (hcl : Clamps b)
    (hlo : Spec.PixelNumber d lo) (hhi : Spec.PixelNumber d hi) (h0 : 0 ≤ lo) (hlh : lo < hi)
    (xs : List K) (hxs : ∀ x ∈ xs, Spec.PixelNumber d x) :
    ∃ r, rangeProcessR ieee b (xs.map .fin) = .ok r ∧ r.out = xs.map fun x => .fin (min hi (max lo x)) := by
  have hb : Spec.Bounds d d lo hi lo hi := ⟨hlo, hhi, hlo, hhi, hlh, hlh.le⟩
  obtain ⟨e, hm⟩ := rangeR_finite h hcl hb xs fun x hx => (hxs x hx).single
  refine ⟨_, e, List.map_congr_left fun x hx => congrArg Flt.fin ?_⟩
  obtain ⟨m1, m2⟩ := hm x hx
  rcases le_total x lo with h1 | h1
  · rw [max_eq_left h1, min_eq_right hlh.le]
    refine le_antisymm ?_ m1
    exact (rangeF_mono hlh.le hlh.le h1).trans_eq (rangeF_inside hlo hhi hlo h0 hlh le_rfl hlh.le)
  rw [max_eq_right h1]
  rcases le_total x hi with h2 | h2
  · rw [min_eq_right h2]
    exact rangeF_inside hlo hhi (hxs x hx) h0 hlh h1 h2
  · rw [min_eq_left h2]
    refine le_antisymm m2 ?_
    exact (rangeF_inside hlo hhi hhi h0 hlh hlh.le le_rfl).symm.trans_le (rangeF_mono hlh.le hlh.le h2)

end CLF
