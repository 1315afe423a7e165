import Verif.Props.RoundedCineon

/-! # Property C147: Ranges of every kind in IEEE arithmetic, and depths of lists -/

set_option linter.unusedSectionVars false

namespace CLF

/-- Sizes of the numbers of a Range with four bounds: the bounds are at most `M` full scales, the inputs are no more than `2^8` times narrower, and
the results are at most `Q` full scales on inputs of `D` full scales. -/
structure Spec.Spread (S T mi ma mo mx D M Q : ℝ) : Prop where
  one : 1 ≤ M ∧ 1 ≤ D
  ins : |mi / S| ≤ M ∧ |ma / S| ≤ M
  outs : |mo / T| ≤ M ∧ |mx / T| ≤ M
  wide : M ≤ 2 ^ 8 * (ma / S - mi / S)
  top : |(mx / T - mo / T) / (ma / S - mi / S)| * (D + M) + M ≤ Q ∧ D + M ≤ Q
  fits : Q ≤ 2 ^ 80

/-- What a Range with four bounds makes of a number in full scales. -/
noncomputable def Spec.spread (cl : Bool) (S T mi ma mo mx u : ℝ) : ℝ :=
  if cl then min mx (max mo (Spec.affine mi ma mo mx (u * S))) / T else Spec.affine mi ma mo mx (u * S) / T

theorem clamp_close {a b x a' b' x' δ : ℝ} (ha : |a' - a| ≤ δ) (hb : |b' - b| ≤ δ) (hx : |x' - x| ≤ δ) : |min b' (max a' x') - min b (max a x)| ≤ δ := by
  have h1 : |max a' x' - max a x| ≤ δ := (abs_max_sub_max_le_max _ _ _ _).trans (max_le ha hx)
  exact (abs_min_sub_min_le_max _ _ _ _).trans (max_le hb h1)

/-- A stored number. -/
theorem single_store {y Y Q : ℝ} (hY : |y - Y| ≤ Q / 2 ^ 26) (hQ : |Y| ≤ Q) (h1 : 1 ≤ Q) (h2 : Q ≤ 2 ^ 80) :
    ieee single (.fin y) = .fin (single.near y) ∧ |single.near y - Y| ≤ Q * (3 / 2 ^ 25) ∧ |y| ≤ 2 ^ 81 := by
  have hy : |y| ≤ Q * (1 + 1 / 2 ^ 26) := by
    have := abs_add_le (y - Y) Y
    rw [sub_add_cancel] at this
    linarith
  have hy' : |y| ≤ 2 ^ 81 := by
    have e : (2 : ℝ) ^ 81 = 2 * 2 ^ 80 := by norm_num
    rw [e]
    generalize (2 : ℝ) ^ 80 = M at *
    norm_num at hy
    linarith
  refine ⟨single_fin (hy'.trans (pow_le_pow_right₀ one_le_two (by norm_num))), ?_, hy'⟩
  have e := single_rounder.err y
  have t := abs_sub_le (single.near y) y Y
  have z : (2 : ℝ) ^ (-150 : ℤ) ≤ 1 / 2 ^ 40 := by
    rw [zpow_neg, one_div]
    exact inv_anti₀ (by positivity) (by exact_mod_cast pow_le_pow_right₀ (a := (2 : ℝ)) one_le_two (by norm_num : 40 ≤ 150))
  generalize (2 : ℝ) ^ (-150 : ℤ) = μ at *
  norm_num at hy e z ⊢
  linarith

/-- A stored number that was clamped. -/
theorem clamp_store {y Y lo hi lo' hi' Q : ℝ} (hY : |y - Y| ≤ Q * (3 / 2 ^ 25)) (hlo : |lo' - lo| ≤ Q * (3 / 2 ^ 25)) (hhi : |hi' - hi| ≤ Q * (3 / 2 ^ 25))
    (h0 : |min hi (max lo Y)| ≤ Q) (h1 : 1 ≤ Q) (h2 : Q ≤ 2 ^ 80) :
    ieee single (.fin (min hi' (max lo' y))) = .fin (single.near (min hi' (max lo' y))) ∧
      |single.near (min hi' (max lo' y)) - min hi (max lo Y)| ≤ Q / 2 ^ 22 := by
  have h3 := clamp_close hlo hhi hY
  generalize min hi' (max lo' y) = x at *
  generalize min hi (max lo Y) = X at *
  have hx : |x| ≤ Q * (1 + 3 / 2 ^ 25) := by
    have := abs_add_le (x - X) X
    rw [sub_add_cancel] at this
    linarith
  have hx' : |x| ≤ 2 ^ 81 := by
    have e : (2 : ℝ) ^ 81 = 2 * 2 ^ 80 := by norm_num
    rw [e]
    generalize (2 : ℝ) ^ 80 = M at *
    norm_num at hx
    linarith
  refine ⟨single_fin (hx'.trans (pow_le_pow_right₀ one_le_two (by norm_num))), ?_⟩
  have e := single_rounder.err x
  have t := abs_sub_le (single.near x) x X
  have z : (2 : ℝ) ^ (-150 : ℤ) ≤ 1 / 2 ^ 40 := by
    rw [zpow_neg, one_div]
    exact inv_anti₀ (by positivity) (by exact_mod_cast pow_le_pow_right₀ (a := (2 : ℝ)) one_le_two (by norm_num : 40 ≤ 150))
  generalize (2 : ℝ) ^ (-150 : ℤ) = μ at *
  norm_num at hx e z h3 ⊢
  linarith

/-- Four bounds. -/
theorem toneNear_spread {S T mi ma mo mx D M Q : ℝ} (hS : 0 < S) (hT : 0 < T) (h : Spec.Spread S T mi ma mo mx D M Q) (cl : Bool) :
    Spec.ToneNear (rangeMidR ieee cl (some (ieee double (.fin (mi / S)))) (some (ieee double (.fin (ma / S)))) (some (ieee double (.fin (mo / T))))
      (some (ieee double (.fin (mx / T))))) (Spec.spread cl S T mi ma mo mx) D (Q / 2 ^ 22) := by
  intro u hu hD
  obtain ⟨⟨M1, D1⟩, ⟨ha, hb⟩, ⟨hc, hd⟩, hw, ⟨hQ, hQ'⟩, hf⟩ := h
  have eψ : ∀ x : ℝ, Spec.affine mi ma mo mx (x * S) / T = x * ((mx / T - mo / T) / (ma / S - mi / S)) + mo / T - mi / S * ((mx / T - mo / T) / (ma / S - mi / S)) := by
    intro x
    have : ma - mi ≠ 0 := by
      intro e
      have : ma / S - mi / S = 0 := by rw [← sub_div, e, zero_div]
      rw [this] at hw
      norm_num at hw
      linarith
    unfold Spec.affine
    rw [← sub_div, ← sub_div]
    field_simp
    ring
  have eψ' : Spec.spread cl S T mi ma mo mx u = if cl then min (mx / T) (max (mo / T) (u * ((mx / T - mo / T) / (ma / S - mi / S)) + mo / T - mi / S * ((mx / T - mo / T) / (ma / S - mi / S))))
      else u * ((mx / T - mo / T) / (ma / S - mi / S)) + mo / T - mi / S * ((mx / T - mo / T) / (ma / S - mi / S)) := by
    unfold Spec.spread
    rw [← eψ, max_div_div_right hT.le, min_div_div_right hT.le]
  rw [eψ']
  clear eψ eψ'
  generalize mi / S = a at *
  generalize ma / S = b at *
  generalize mo / T = c at *
  generalize mx / T = d at *
  have w0 : 0 < b - a := by
    have : (0 : ℝ) < 2 ^ 8 * (b - a) := by linarith
    exact pos_of_mul_pos_right this (by norm_num)
  have M80 : M ≤ 2 ^ 80 := by linarith
  have small : ∀ {B : ℝ}, 1 ≤ B → (1 : ℝ) / 2 ^ 500 ≤ B := fun h => le_trans (by rw [div_le_one (by positivity)]; exact one_le_pow₀ one_le_two) h
  have large : ∀ {B : ℝ} {k : ℕ}, B ≤ 2 ^ k → k ≤ 299 → B ≤ 2 ^ 299 := fun h hk => h.trans (pow_le_pow_right₀ one_le_two hk)
  obtain ⟨ra, Aa, -⟩ := (Approx.exact ha).round (small M1) (large M80 (by norm_num)) (by norm_num)
  obtain ⟨rb, Ab, -⟩ := (Approx.exact hb).round (small M1) (large M80 (by norm_num)) (by norm_num)
  obtain ⟨rc, Ac, -⟩ := (Approx.exact hc).round (small M1) (large M80 (by norm_num)) (by norm_num)
  obtain ⟨rd, Ad, -⟩ := (Approx.exact hd).round (small M1) (large M80 (by norm_num)) (by norm_num)
  have M2 : M + M ≤ 2 ^ 81 := by
    have e : (2 : ℝ) ^ 81 = 2 * 2 ^ 80 := by norm_num
    rw [e]; linarith
  obtain ⟨rw1, Aw, -⟩ := (Ab.sub Aa (by norm_num)).round (small (by linarith)) (large M2 (by norm_num)) (by norm_num)
  obtain ⟨rv1, Av, -⟩ := (Ad.sub Ac (by norm_num)).round (small (by linarith)) (large M2 (by norm_num)) (by norm_num)
  have Aw' := Aw.self (c := 2 ^ 9) (by norm_num at hw ⊢; linarith) w0.le (by norm_num) (by norm_num)
  have wp := Aw'.pos w0
  have Ak := Av.div Aw' w0 (by norm_num)
  have k1 : (M + M) / (b - a) ≤ 2 ^ 9 := by
    rw [div_le_iff₀ w0]
    norm_num at hw ⊢
    linarith
  obtain ⟨rk, Ak', -⟩ := (Ak.bound k1).round (small (by norm_num)) (large (k := 9) le_rfl (by norm_num)) (by norm_num)
  have DM : D + M ≤ 2 ^ 80 := by linarith
  have Au : Approx u u (D + M) 0 := Approx.exact (by linarith)
  have B1 : (D + M) * 2 ^ 9 ≤ 2 ^ 89 := by
    have e : (2 : ℝ) ^ 89 = 2 ^ 80 * 2 ^ 9 := by norm_num
    rw [e]
    exact mul_le_mul_of_nonneg_right DM (by norm_num)
  have B0 : 1 ≤ (D + M) * 2 ^ 9 := by norm_num; linarith
  obtain ⟨rp, Ap, -⟩ := (Au.mul Ak' (by norm_num)).round (small B0) (large B1 (by norm_num)) (by norm_num)
  have Aa' := (Aa.bound (show M ≤ D + M by linarith)).mul Ak' (by norm_num)
  obtain ⟨rq, Aq, -⟩ := Aa'.round (small B0) (large B1 (by norm_num)) (by norm_num)
  have B2 : (D + M) * 2 ^ 9 + M ≤ 2 ^ 90 := by
    have e : (2 : ℝ) ^ 90 = 2 ^ 89 + 2 ^ 89 := by norm_num
    have e2 : (2 : ℝ) ^ 80 ≤ 2 ^ 89 := by norm_num
    rw [e]
    linarith
  obtain ⟨rs, As, -⟩ := (Ap.add Ac (by norm_num)).round (small (by linarith)) (large B2 (by norm_num)) (by norm_num)
  have B3 : (D + M) * 2 ^ 9 + M + (D + M) * 2 ^ 9 ≤ 2 ^ 91 := by
    have e : (2 : ℝ) ^ 91 = 2 ^ 90 + 2 ^ 90 := by norm_num
    have e2 : (2 : ℝ) ^ 89 ≤ 2 ^ 90 := by norm_num
    rw [e]
    linarith
  obtain ⟨rt, At, -⟩ := (As.sub Aq (by norm_num)).round (small (by linarith)) (large B3 (by norm_num)) (by norm_num)
  have tot : |double.near (double.near (double.near (u * double.near (double.near (double.near d - double.near c) / double.near (double.near b - double.near a))) + double.near c) -
      double.near (double.near a * double.near (double.near (double.near d - double.near c) / double.near (double.near b - double.near a)))) -
      (u * ((d - c) / (b - a)) + c - a * ((d - c) / (b - a)))| ≤ Q / 2 ^ 26 := by
    refine At.near.trans ?_
    norm_num
    linarith
  have size : |u * ((d - c) / (b - a)) + c - a * ((d - c) / (b - a))| ≤ Q := by
    refine le_trans ?_ hQ
    have e : u * ((d - c) / (b - a)) + c - a * ((d - c) / (b - a)) = (d - c) / (b - a) * (u - a) + c := by ring
    rw [e]
    refine (abs_add_le _ _).trans (add_le_add ?_ hc)
    rw [abs_mul]
    refine mul_le_mul_of_nonneg_left ((abs_sub _ _).trans (add_le_add hD ha)) (abs_nonneg _)
  have Q1 : 1 ≤ Q := by linarith
  obtain ⟨s1, s2, -⟩ := single_store tot size Q1 hf
  have run : rangeMidR ieee cl (some (ieee double (.fin a))) (some (ieee double (.fin b))) (some (ieee double (.fin c))) (some (ieee double (.fin d))) (.fin u) =
      (pure (if cl then ieee single (Flt.pmin (.fin (double.near d)) (Flt.pmax (.fin (double.near c)) (.fin (single.near
        (double.near (double.near (double.near (u * double.near (double.near (double.near d - double.near c) / double.near (double.near b - double.near a))) + double.near c) -
      double.near (double.near a * double.near (double.near (double.near d - double.near c) / double.near (double.near b - double.near a)))))))))
        else .fin (single.near (double.near (double.near (double.near (u * double.near (double.near (double.near d - double.near c) / double.near (double.near b - double.near a))) + double.near c) -
      double.near (double.near a * double.near (double.near (double.near d - double.near c) / double.near (double.near b - double.near a)))))))) := by
    simp only [rangeMidR, ra, rb, rc, rd, Flt.fin_sub, rw1, rv1, pyDivF_fin (show double.near (double.near b - double.near a) ≠ 0 by linarith), py_ok_bind, rk, Flt.fin_mul, rp, rq,
      Flt.fin_add, rs, rt, s1]
  rw [run]
  clear run
  have hbound : ∀ {x x' : ℝ}, Approx x' x M (0 + 2) → |x' - x| ≤ Q * (3 / 2 ^ 25) := fun h => by
    refine h.near.trans ?_
    norm_num
    linarith
  cases cl with
  | false =>
    simp only [Bool.false_eq_true, if_false, py_pure]
    refine ⟨_, rfl, s2.trans ?_⟩
    norm_num
    linarith
  | true =>
    simp only [if_true, Flt.pmax_fin, Flt.pmin_fin, py_pure]
    obtain ⟨c1, c2⟩ := clamp_store s2 (hbound Ac) (hbound Ad) (by
      have M2 : M ≤ Q := by linarith
      have c1 := abs_le.mp (hc.trans M2)
      have d1 := abs_le.mp (hd.trans M2)
      have s1 := abs_le.mp size
      exact abs_le.mpr ⟨le_min d1.1 (le_max_of_le_left c1.1), min_le_of_left_le d1.2⟩) Q1 hf
    rw [c1]
    exact ⟨_, rfl, c2⟩

/-- Sizes of the numbers of a Range with bounds on one side. -/
structure Spec.Shifted (S T a c D M : ℝ) : Prop where
  one : 1 ≤ M ∧ 1 ≤ D
  sizes : |a / S| ≤ M ∧ |c / T| ≤ M
  fits : D + 2 * M ≤ 2 ^ 80

/-- Moving. -/
theorem shift_mid {a c D M u : ℝ} (M1 : 1 ≤ M) (ha : |a| ≤ M) (hc : |c| ≤ M) (hf : D + 2 * M ≤ 2 ^ 80) (hu : |u| ≤ D) :
    ieee double (.fin a) = .fin (double.near a) ∧ ieee double (.fin c) = .fin (double.near c) ∧ |double.near c - c| ≤ (D + 2 * M) * (3 / 2 ^ 25) ∧
    ∃ y, ieee single (ieee double (ieee double (.fin u + .fin (double.near c)) - .fin (double.near a))) = .fin y ∧ |y - (u + c - a)| ≤ (D + 2 * M) * (3 / 2 ^ 25) ∧
      |u + c - a| ≤ D + 2 * M := by
  have D0 := (abs_nonneg _).trans hu
  have small : ∀ {B : ℝ}, 1 ≤ B → (1 : ℝ) / 2 ^ 500 ≤ B := fun h => le_trans (by rw [div_le_one (by positivity)]; exact one_le_pow₀ one_le_two) h
  have large : ∀ {B : ℝ} {k : ℕ}, B ≤ 2 ^ k → k ≤ 299 → B ≤ 2 ^ 299 := fun h hk => h.trans (pow_le_pow_right₀ one_le_two hk)
  obtain ⟨ra, Aa, -⟩ := (Approx.exact ha).round (small M1) (large (k := 80) (by linarith) (by norm_num)) (by norm_num)
  obtain ⟨rc, Ac, -⟩ := (Approx.exact hc).round (small M1) (large (k := 80) (by linarith) (by norm_num)) (by norm_num)
  have Au : Approx u u D 0 := Approx.exact hu
  obtain ⟨r1, A1, -⟩ := (Au.add Ac (by norm_num)).round (small (by linarith)) (large (k := 80) (by linarith) (by norm_num)) (by norm_num)
  obtain ⟨r2, A2, -⟩ := (A1.sub Aa (by norm_num)).round (small (by linarith)) (large (k := 80) (by linarith) (by norm_num)) (by norm_num)
  have size : |u + c - a| ≤ D + 2 * M := by
    refine (abs_sub _ _).trans ?_
    have := abs_add_le u c
    linarith
  obtain ⟨s1, s2, -⟩ := single_store (Q := D + 2 * M) (A2.near.trans (by norm_num; linarith)) size (by linarith) hf
  refine ⟨ra, rc, Ac.near.trans (by norm_num; linarith), _, ?_, s2, size⟩
  rw [Flt.fin_add, r1, Flt.fin_sub, r2, s1]

/-- The last conversion of a number that was held at a bound. -/
theorem held_store {x X Q : ℝ} (h : |x - X| ≤ Q * (3 / 2 ^ 25)) (h0 : |X| ≤ Q) (h1 : 1 ≤ Q) (h2 : Q ≤ 2 ^ 80) :
    ieee single (.fin x) = .fin (single.near x) ∧ |single.near x - X| ≤ Q / 2 ^ 22 := by
  have := clamp_store (lo := X) (lo' := x) (hi := X) (hi' := x) h h h (by simpa using h0) h1 h2
  simpa using this

/-- Bounds below, or above. -/
theorem toneNear_shift (din dout : AVal) {a c D M : ℝ} (h : Spec.Shifted (Spec.fullScale (some din)) (Spec.fullScale (some dout)) a c D M) (cl : Bool)
    {p q : Option (Flt ℝ)} (hpq : p = none ∨ q = none) :
    Spec.ToneNear (rangeMidR ieee cl (some (ieee double (.fin (a / Spec.fullScale (some din))))) p (some (ieee double (.fin (c / Spec.fullScale (some dout))))) q)
      (fun u => (if cl then max c (Spec.shift (some din) (some dout) a c (u * Spec.fullScale (some din)))
        else Spec.shift (some din) (some dout) a c (u * Spec.fullScale (some din))) / Spec.fullScale (some dout)) D ((D + 2 * M) / 2 ^ 22) ∧
    Spec.ToneNear (rangeMidR ieee cl p (some (ieee double (.fin (a / Spec.fullScale (some din))))) q (some (ieee double (.fin (c / Spec.fullScale (some dout))))))
      (fun u => (if cl then min c (Spec.shift (some din) (some dout) a c (u * Spec.fullScale (some din)))
        else Spec.shift (some din) (some dout) a c (u * Spec.fullScale (some din))) / Spec.fullScale (some dout)) D ((D + 2 * M) / 2 ^ 22) := by
  have hS := fullScale_pos (K := ℝ) (some din)
  have hT := fullScale_pos (K := ℝ) (some dout)
  obtain ⟨⟨M1, D1⟩, ⟨ha, hc⟩, hf⟩ := h
  have eψ : ∀ u : ℝ, Spec.shift (some din) (some dout) a c (u * Spec.fullScale (some din)) / Spec.fullScale (some dout)
      = u + c / Spec.fullScale (some dout) - a / Spec.fullScale (some din) := by
    intro u
    unfold Spec.shift
    field_simp
    ring
  have Q1 : 1 ≤ D + 2 * M := by linarith
  have cQ : |c / Spec.fullScale (some dout)| ≤ D + 2 * M := by linarith
  constructor
  · intro u hu hD
    obtain ⟨ra, rc, dc, y, hy, dy, size⟩ := shift_mid M1 ha hc hf hD
    have run : rangeMidR ieee cl (some (ieee double (.fin (a / Spec.fullScale (some din))))) p (some (ieee double (.fin (c / Spec.fullScale (some dout))))) q (.fin u) =
        pure (if cl then ieee single (.fin (max (double.near (c / Spec.fullScale (some dout))) y)) else .fin y) := by
      rcases hpq with rfl | rfl
      · simp only [rangeMidR, ra, rc, hy, Flt.pmax_fin]
      · rcases p with _ | p <;> simp only [rangeMidR, ra, rc, hy, Flt.pmax_fin]
    rw [run]
    cases cl with
    | false =>
      simp only [Bool.false_eq_true, if_false, py_pure, eψ]
      refine ⟨_, rfl, dy.trans ?_⟩
      norm_num
      linarith
    | true =>
      simp only [if_true, py_pure, ← max_div_div_right hT.le, eψ]
      obtain ⟨c1, c2⟩ := held_store ((abs_max_sub_max_le_max _ _ _ _).trans (max_le dc dy))
        (abs_le.mpr ⟨le_max_of_le_left (abs_le.mp cQ).1, max_le (abs_le.mp cQ).2 (abs_le.mp size).2⟩) Q1 hf
      rw [c1]
      exact ⟨_, rfl, c2⟩
  · intro u hu hD
    obtain ⟨ra, rc, dc, y, hy, dy, size⟩ := shift_mid M1 ha hc hf hD
    have run : rangeMidR ieee cl p (some (ieee double (.fin (a / Spec.fullScale (some din))))) q (some (ieee double (.fin (c / Spec.fullScale (some dout))))) (.fin u) =
        pure (if cl then ieee single (.fin (min (double.near (c / Spec.fullScale (some dout))) y)) else .fin y) := by
      rcases hpq with rfl | rfl
      · simp only [rangeMidR, ra, rc, hy, Flt.pmin_fin]
      · rcases p with _ | p <;> simp only [rangeMidR, ra, rc, hy, Flt.pmin_fin]
    rw [run]
    cases cl with
    | false =>
      simp only [Bool.false_eq_true, if_false, py_pure, eψ]
      refine ⟨_, rfl, dy.trans ?_⟩
      norm_num
      linarith
    | true =>
      simp only [if_true, py_pure, ← min_div_div_right hT.le, eψ]
      obtain ⟨c1, c2⟩ := held_store ((abs_min_sub_min_le_max _ _ _ _).trans (max_le dc dy))
        (abs_le.mpr ⟨le_min (abs_le.mp cQ).1 (abs_le.mp size).1, min_le_of_left_le (abs_le.mp cQ).2⟩) Q1 hf
      rw [c1]
      exact ⟨_, rfl, c2⟩

/-- No bounds. -/
theorem toneNear_depths {K : Type} [Field K] [LinearOrder K] [IsStrictOrderedRing K] [FloorRing K] (cl : Bool) (D : K) :
    Spec.ToneNear (rangeMidR ieee cl none none none none) (fun u : K => u) D 0 := by
  intro u _ _
  exact ⟨u, rfl, by simp⟩

/-! ## The settings of a node -/

section settings

variable {K : Type} [Field K] [LinearOrder K] [IsStrictOrderedRing K] [FloorRing K]

theorem rangeBoundR_fin (R : Rounding K) (b : Base K) (key : String) (d : Depth) (x : K) (h : b.values.get? key = some (.fin x)) :
    rangeBoundR R b key d = some (R double (.fin (x / Spec.fullScale d))) := by
  simp [rangeBoundR, h, Flt.fin_div (fullScale_ne (K := K) d), bitDepthSize_eq_fullScale]

/-- Whether a Range clamps. -/
def Spec.ClampIs (b : Base K) (cl : Bool) : Prop := (cl = true ∧ Clamps b) ∨ (cl = false ∧ NoClamp b)

theorem clampIs_eq {b : Base K} {cl : Bool} (h : Spec.ClampIs b cl) :
    (match b.attrs.get? "style" with
      | some s => decide (s = AVal.str "clamp") | none => true) = cl := by
  rcases h with ⟨rfl, hc | hc⟩ | ⟨rfl, s, hs, hne⟩
  · simp [hc]
  · simp [hc]
  · simp [hs, hne]

theorem rangeIs_full (R : Rounding K) {b : Base K} {din dout : AVal} {mi ma mo mx : K} (h : FullRange b din dout mi ma mo mx) {cl : Bool} (hcl : Spec.ClampIs b cl) :
    RangeIs R b din dout cl (some (R double (.fin (mi / Spec.fullScale (some din))))) (some (R double (.fin (ma / Spec.fullScale (some din)))))
      (some (R double (.fin (mo / Spec.fullScale (some dout))))) (some (R double (.fin (mx / Spec.fullScale (some dout))))) := fun values =>
  rangeR_eq R b din dout values h.inDepth h.outDepth cl (clampIs_eq hcl) _ _ _ _ (by simp [rangeBoundR_fin R _ _ _ _ h.minIn])
    (by simp [rangeBoundR_fin R _ _ _ _ h.maxIn]) (by simp [rangeBoundR_fin R _ _ _ _ h.minOut]) (by simp [rangeBoundR_fin R _ _ _ _ h.maxOut])

theorem rangeIs_lower (R : Rounding K) {b : Base K} {din dout : AVal} {mi mo : K} (h : LowerRange b din dout mi mo) {cl : Bool} (hcl : Spec.ClampIs b cl) :
    ∃ p q, (p = none ∨ q = none) ∧ RangeIs R b din dout cl (some (R double (.fin (mi / Spec.fullScale (some din))))) p
      (some (R double (.fin (mo / Spec.fullScale (some dout))))) q :=
  ⟨rangeBoundR R b "maxInValue" (some din), rangeBoundR R b "maxOutValue" (some dout), h.max.imp (fun h => by simp [rangeBoundR, h]) fun h => by simp [rangeBoundR, h],
    fun values => rangeR_eq R b din dout values h.inDepth h.outDepth cl (clampIs_eq hcl) _ _ _ _ (by simp [rangeBoundR_fin R _ _ _ _ h.minIn])
      (by simp [h.noDefault]) (by simp [rangeBoundR_fin R _ _ _ _ h.minOut]) (by simp [h.noDefault])⟩

theorem rangeIs_upper (R : Rounding K) {b : Base K} {din dout : AVal} {ma mx : K} (h : UpperRange b din dout ma mx) {cl : Bool} (hcl : Spec.ClampIs b cl) :
    ∃ p q, (p = none ∨ q = none) ∧ RangeIs R b din dout cl p (some (R double (.fin (ma / Spec.fullScale (some din))))) q
      (some (R double (.fin (mx / Spec.fullScale (some dout))))) :=
  ⟨rangeBoundR R b "minInValue" (some din), rangeBoundR R b "minOutValue" (some dout), h.min.imp (fun h => by simp [rangeBoundR, h]) fun h => by simp [rangeBoundR, h],
    fun values => rangeR_eq R b din dout values h.inDepth h.outDepth cl (clampIs_eq hcl) _ _ _ _ (by simp [h.noDefault])
      (by simp [rangeBoundR_fin R _ _ _ _ h.maxIn]) (by simp [h.noDefault]) (by simp [rangeBoundR_fin R _ _ _ _ h.maxOut])⟩

/-- A Range that only changes the depth. -/
structure DepthRange (b : Base K) (din dout : AVal) : Prop where
  inDepth : b.attrs.get? "inBitDepth" = some din
  outDepth : b.attrs.get? "outBitDepth" = some dout
  values : ∀ key ∈ ["minInValue", "maxInValue", "minOutValue", "maxOutValue"], b.values.get? key = none
  noDefault : b.attrs.get? "defaultRange" = none

theorem rangeIs_depths (R : Rounding K) {b : Base K} {din dout : AVal} (h : DepthRange b din dout) :
    ∃ cl, RangeIs R b din dout cl none none none none := by
  have v := h.values
  simp only [List.mem_cons, List.not_mem_nil, or_false, forall_eq_or_imp, forall_eq] at v
  obtain ⟨v1, v2, v3, v4⟩ := v
  exact ⟨_, fun values => rangeR_eq R b din dout values h.inDepth h.outDepth _ rfl _ _ _ _ (by simp [h.noDefault, rangeBoundR, v1])
    (by simp [h.noDefault, rangeBoundR, v2]) (by simp [h.noDefault, rangeBoundR, v3]) (by simp [h.noDefault, rangeBoundR, v4])⟩

end settings

/-! ## Shapes -/

theorem toneBounds_spread (cl : Bool) {S T mi ma mo mx D M Q : ℝ} (hS : 0 < S) (hT : 0 < T) (h : Spec.Spread S T mi ma mo mx D M Q) :
    Spec.ToneBounds (Spec.spread cl S T mi ma mo mx) D |(mx / T - mo / T) / (ma / S - mi / S)| Q := by
  obtain ⟨⟨M1, D1⟩, ⟨ha, hb⟩, ⟨hc, hd⟩, hw, ⟨htop, hDM⟩, hf⟩ := h
  have w0 : 0 < ma / S - mi / S := by
    norm_num at hw
    linarith
  have w1 : 0 < ma - mi := by
    rw [← sub_div] at w0
    exact (div_pos_iff_of_pos_right hS).mp w0
  have e : ∀ u, Spec.affine mi ma mo mx (u * S) / T = mo / T + (u - mi / S) * ((mx / T - mo / T) / (ma / S - mi / S)) := by
    intro u
    have : ma / S - mi / S = (ma - mi) / S := by ring
    rw [this]
    unfold Spec.affine
    field_simp
  have k0 := abs_nonneg ((mx / T - mo / T) / (ma / S - mi / S))
  have eψ : ∀ u, Spec.spread cl S T mi ma mo mx u = if cl then min (mx / T) (max (mo / T) (Spec.affine mi ma mo mx (u * S) / T)) else Spec.affine mi ma mo mx (u * S) / T := by
    intro u
    unfold Spec.spread
    split
    · rw [← min_div_div_right hT.le, ← max_div_div_right hT.le]
    · rfl
  have size : ∀ x, |x| ≤ D → |mo / T + (x - mi / S) * ((mx / T - mo / T) / (ma / S - mi / S))| ≤ Q := by
    intro x hx
    refine (abs_add_le _ _).trans ?_
    rw [abs_mul]
    have h1 : |x - mi / S| ≤ D + M := (abs_sub _ _).trans (by linarith)
    have h2 := mul_le_mul_of_nonneg_right h1 k0
    linarith
  refine ⟨k0, fun x hx => ?_, fun x y hx hy => ?_⟩
  · rw [eψ, e]
    have h1 := size x hx
    split
    · exact abs_le.mpr ⟨le_min (abs_le.mp (hd.trans (by linarith))).1 (le_max_of_le_left (abs_le.mp (hc.trans (by linarith))).1),
        min_le_of_left_le (abs_le.mp (hd.trans (by linarith))).2⟩
    · exact h1
  · rw [eψ, eψ, e, e]
    have h1 : |mo / T + (x - mi / S) * ((mx / T - mo / T) / (ma / S - mi / S)) - (mo / T + (y - mi / S) * ((mx / T - mo / T) / (ma / S - mi / S)))|
        ≤ |(mx / T - mo / T) / (ma / S - mi / S)| * |x - y| := by
      rw [← abs_mul]
      exact le_of_eq (congrArg _ (by ring))
    split
    · refine clamp_close ?_ ?_ h1 <;> simp only [sub_self, abs_zero] <;> positivity
    · exact h1

theorem toneBounds_shift (din dout : AVal) {a c D M : ℝ} (h : Spec.Shifted (Spec.fullScale (some din)) (Spec.fullScale (some dout)) a c D M) (cl : Bool) :
    Spec.ToneBounds (fun u => (if cl then max c (Spec.shift (some din) (some dout) a c (u * Spec.fullScale (some din)))
        else Spec.shift (some din) (some dout) a c (u * Spec.fullScale (some din))) / Spec.fullScale (some dout)) D 1 (D + 2 * M) ∧
    Spec.ToneBounds (fun u => (if cl then min c (Spec.shift (some din) (some dout) a c (u * Spec.fullScale (some din)))
        else Spec.shift (some din) (some dout) a c (u * Spec.fullScale (some din))) / Spec.fullScale (some dout)) D 1 (D + 2 * M) := by
  have hS := fullScale_pos (K := ℝ) (some din)
  have hT := fullScale_pos (K := ℝ) (some dout)
  obtain ⟨⟨M1, D1⟩, ⟨ha, hc⟩, hf⟩ := h
  have eψ : ∀ u : ℝ, Spec.shift (some din) (some dout) a c (u * Spec.fullScale (some din)) / Spec.fullScale (some dout)
      = u + c / Spec.fullScale (some dout) - a / Spec.fullScale (some din) := by
    intro u
    unfold Spec.shift
    field_simp
    ring
  have size : ∀ u, |u| ≤ D → |u + c / Spec.fullScale (some dout) - a / Spec.fullScale (some din)| ≤ D + 2 * M := by
    intro u hu
    refine (abs_sub _ _).trans ?_
    have := abs_add_le u (c / Spec.fullScale (some dout))
    linarith
  have cQ : |c / Spec.fullScale (some dout)| ≤ D + 2 * M := by linarith
  have near : ∀ x y : ℝ, |x + c / Spec.fullScale (some dout) - a / Spec.fullScale (some din) - (y + c / Spec.fullScale (some dout) - a / Spec.fullScale (some din))|
      ≤ 1 * |x - y| := fun x y => le_of_eq (by rw [one_mul]; congr 1; ring)
  cases cl with
  | false =>
    simp only [Bool.false_eq_true, if_false, eψ]
    exact ⟨⟨zero_le_one, size, fun x y _ _ => near x y⟩, ⟨zero_le_one, size, fun x y _ _ => near x y⟩⟩
  | true =>
    simp only [if_true, ← max_div_div_right hT.le, ← min_div_div_right hT.le, eψ]
    refine ⟨⟨zero_le_one, fun x hx => abs_le.mpr ⟨le_max_of_le_left (abs_le.mp cQ).1, max_le (abs_le.mp cQ).2 (abs_le.mp (size x hx)).2⟩, fun x y _ _ => ?_⟩,
      ⟨zero_le_one, fun x hx => abs_le.mpr ⟨le_min (abs_le.mp cQ).1 (abs_le.mp (size x hx)).1, min_le_of_left_le (abs_le.mp cQ).2⟩, fun x y _ _ => ?_⟩⟩
    · refine (abs_max_sub_max_le_max _ _ _ _).trans (max_le ?_ (near x y))
      simp
    · refine (abs_min_sub_min_le_max _ _ _ _).trans (max_le ?_ (near x y))
      simp

theorem bounds_sum {k D Q X : ℝ} (k0 : 0 ≤ k) (Q0 : 1 ≤ Q) (D1 : 1 ≤ D) (hBD : X * (1 + 1 / 2 ^ 23) + 1 / 2 ^ 100 ≤ D) :
    k * (X / 2 ^ 23 + 1 / 2 ^ 140) + Q / 2 ^ 22 + (Q + Q / 2 ^ 22) / 2 ^ 22 + 1 / 2 ^ 140 ≤ k * D / 2 ^ 22 + Q / 2 ^ 20 := by
  have h := film_sum (N := Q) k0 (le_trans (by norm_num) Q0) D1 hBD
  have a : (Q + Q / 2 ^ 22) / 2 ^ 22 ≤ (Q + Q / 2 ^ 27) / 2 ^ 22 + Q / 2 ^ 40 := by
    norm_num
    linarith
  have b : Q / 2 ^ 22 + Q / 2 ^ 21 + Q / 2 ^ 40 ≤ Q / 2 ^ 20 := by
    norm_num
    linarith
  have c : 0 ≤ Q / 2 ^ 27 := by positivity
  linarith

theorem bounds_stage (E : Evaluator ℝ) {b : Base ℝ} {d1 d2 : AVal} {cl : Bool} {mi ma mo mx : Option (Flt ℝ)} (h : RangeIs E.rounding b d1 d2 cl mi ma mo mx)
    {D Q k : ℝ} {ψ : ℝ → ℝ} (D1 : 1 ≤ D) (Q1 : 1 ≤ Q) (Q2 : Q ≤ 2 ^ 80) (hn : Spec.ToneNear (rangeMidR E.rounding cl mi ma mo mx) ψ D (Q / 2 ^ 22))
    (hb : Spec.ToneBounds ψ D k Q) :
    Implements E (.leaf .range b) (.tone (Spec.fullScale (some d1)) (Spec.fullScale (some d2)) D (Q / 2 ^ 22) fun _ => ψ) ∧
    ∀ B, B / Spec.fullScale (some d1) * (1 + 1 / 2 ^ 23) + 1 / 2 ^ 100 ≤ D →
      ∃ e B', Spec.Gauge (.tone (Spec.fullScale (some d1)) (Spec.fullScale (some d2)) D (Q / 2 ^ 22) fun _ => ψ) B
          (Spec.fullScale (some d2) * (k / Spec.fullScale (some d1))) e B' ∧
        e ≤ Spec.fullScale (some d2) * (k * D / 2 ^ 22 + Q / 2 ^ 20) ∧ B' ≤ Spec.fullScale (some d2) * (4 * Q + 1) := by
  have hT := fullScale_pos (K := ℝ) (some d2)
  refine ⟨.bounds h (by linarith) (by positivity) hn, fun B hBD => ⟨_, _, .tone (fun _ => hb) hBD ?_, ?_, ?_⟩⟩
  · have : (2 : ℝ) ^ 90 = 2 ^ 10 * 2 ^ 80 := by norm_num
    rw [this]
    generalize (2 : ℝ) ^ 80 = M at *
    norm_num
    linarith
  · exact mul_le_mul_of_nonneg_left (bounds_sum hb.nonneg Q1 D1 hBD) hT.le
  · refine mul_le_mul_of_nonneg_left ?_ hT.le
    norm_num
    linarith

/-! ## Stages -/

/-- C147: a Range with four bounds, of any depths, clamping or not, as a stage of a list: what it computes in full scales, how much it magnifies
errors, and the error it adds. -/
theorem C147_full (E : Evaluator ℝ) (hE : E.rounding = ieee) (b : Base ℝ) (d1 d2 : AVal) (mi ma mo mx : ℝ) (h : FullRange b d1 d2 mi ma mo mx) (cl : Bool)
    (hcl : Spec.ClampIs b cl) (D M Q : ℝ) (hq : Spec.Spread (Spec.fullScale (some d1)) (Spec.fullScale (some d2)) mi ma mo mx D M Q) :
    Implements E (.leaf .range b) (.tone (Spec.fullScale (some d1)) (Spec.fullScale (some d2)) D (Q / 2 ^ 22)
      fun _ => Spec.spread cl (Spec.fullScale (some d1)) (Spec.fullScale (some d2)) mi ma mo mx) ∧
    ∀ B, B / Spec.fullScale (some d1) * (1 + 1 / 2 ^ 23) + 1 / 2 ^ 100 ≤ D →
      ∃ e B', Spec.Gauge (.tone (Spec.fullScale (some d1)) (Spec.fullScale (some d2)) D (Q / 2 ^ 22)
          fun _ => Spec.spread cl (Spec.fullScale (some d1)) (Spec.fullScale (some d2)) mi ma mo mx) B
          (Spec.fullScale (some d2) * (|(mx / Spec.fullScale (some d2) - mo / Spec.fullScale (some d2)) / (ma / Spec.fullScale (some d1) - mi / Spec.fullScale (some d1))|
            / Spec.fullScale (some d1))) e B' ∧
        e ≤ Spec.fullScale (some d2) * (|(mx / Spec.fullScale (some d2) - mo / Spec.fullScale (some d2)) /
          (ma / Spec.fullScale (some d1) - mi / Spec.fullScale (some d1))| * D / 2 ^ 22 + Q / 2 ^ 20) ∧
        B' ≤ Spec.fullScale (some d2) * (4 * Q + 1) := by
  have hS := fullScale_pos (K := ℝ) (some d1)
  have hT := fullScale_pos (K := ℝ) (some d2)
  have Q1 : 1 ≤ Q := by linarith [hq.top.2, hq.one.1, hq.one.2]
  exact bounds_stage E (rangeIs_full E.rounding h hcl) hq.one.2 Q1 hq.fits (by rw [hE]; exact toneNear_spread hS hT hq cl) (toneBounds_spread cl hS hT hq)

/-- C147: a Range with lower bounds only. -/
theorem C147_lower (E : Evaluator ℝ) (hE : E.rounding = ieee) (b : Base ℝ) (d1 d2 : AVal) (mi mo : ℝ) (h : LowerRange b d1 d2 mi mo) (cl : Bool)
    (hcl : Spec.ClampIs b cl) (D M : ℝ) (hq : Spec.Shifted (Spec.fullScale (some d1)) (Spec.fullScale (some d2)) mi mo D M) :
    ∃ ψ : ℝ → ℝ, (∀ u, ψ u * Spec.fullScale (some d2) = if cl then max mo (Spec.shift (some d1) (some d2) mi mo (u * Spec.fullScale (some d1)))
        else Spec.shift (some d1) (some d2) mi mo (u * Spec.fullScale (some d1))) ∧
    Implements E (.leaf .range b) (.tone (Spec.fullScale (some d1)) (Spec.fullScale (some d2)) D ((D + 2 * M) / 2 ^ 22) fun _ => ψ) ∧
    ∀ B, B / Spec.fullScale (some d1) * (1 + 1 / 2 ^ 23) + 1 / 2 ^ 100 ≤ D →
      ∃ e B', Spec.Gauge (.tone (Spec.fullScale (some d1)) (Spec.fullScale (some d2)) D ((D + 2 * M) / 2 ^ 22) fun _ => ψ) B
          (Spec.fullScale (some d2) * (1 / Spec.fullScale (some d1))) e B' ∧
        e ≤ Spec.fullScale (some d2) * (1 * D / 2 ^ 22 + (D + 2 * M) / 2 ^ 20) ∧ B' ≤ Spec.fullScale (some d2) * (4 * (D + 2 * M) + 1) := by
  have hT := fullScale_pos (K := ℝ) (some d2)
  obtain ⟨p, q, hpq, hr⟩ := rangeIs_lower E.rounding h hcl
  refine ⟨_, fun u => ?_, bounds_stage E hr hq.one.2 (by linarith [hq.one.1, hq.one.2]) hq.fits (by rw [hE]; exact (toneNear_shift d1 d2 hq cl hpq).1)
    (toneBounds_shift d1 d2 hq cl).1⟩
  exact div_mul_cancel₀ _ hT.ne'

/-- C147: a Range with upper bounds only. -/
theorem C147_upper (E : Evaluator ℝ) (hE : E.rounding = ieee) (b : Base ℝ) (d1 d2 : AVal) (ma mx : ℝ) (h : UpperRange b d1 d2 ma mx) (cl : Bool)
    (hcl : Spec.ClampIs b cl) (D M : ℝ) (hq : Spec.Shifted (Spec.fullScale (some d1)) (Spec.fullScale (some d2)) ma mx D M) :
    ∃ ψ : ℝ → ℝ, (∀ u, ψ u * Spec.fullScale (some d2) = if cl then min mx (Spec.shift (some d1) (some d2) ma mx (u * Spec.fullScale (some d1)))
        else Spec.shift (some d1) (some d2) ma mx (u * Spec.fullScale (some d1))) ∧
    Implements E (.leaf .range b) (.tone (Spec.fullScale (some d1)) (Spec.fullScale (some d2)) D ((D + 2 * M) / 2 ^ 22) fun _ => ψ) ∧
    ∀ B, B / Spec.fullScale (some d1) * (1 + 1 / 2 ^ 23) + 1 / 2 ^ 100 ≤ D →
      ∃ e B', Spec.Gauge (.tone (Spec.fullScale (some d1)) (Spec.fullScale (some d2)) D ((D + 2 * M) / 2 ^ 22) fun _ => ψ) B
          (Spec.fullScale (some d2) * (1 / Spec.fullScale (some d1))) e B' ∧
        e ≤ Spec.fullScale (some d2) * (1 * D / 2 ^ 22 + (D + 2 * M) / 2 ^ 20) ∧ B' ≤ Spec.fullScale (some d2) * (4 * (D + 2 * M) + 1) := by
  have hT := fullScale_pos (K := ℝ) (some d2)
  obtain ⟨p, q, hpq, hr⟩ := rangeIs_upper E.rounding h hcl
  refine ⟨_, fun u => ?_, bounds_stage E hr hq.one.2 (by linarith [hq.one.1, hq.one.2]) hq.fits (by rw [hE]; exact (toneNear_shift d1 d2 hq cl hpq).2)
    (toneBounds_shift d1 d2 hq cl).2⟩
  exact div_mul_cancel₀ _ hT.ne'

/-- C147: a Range without bounds changes the depth and nothing else. -/
theorem C147_depths {K : Type} [Field K] [LinearOrder K] [IsStrictOrderedRing K] [FloorRing K] (E : Evaluator K) (hE : E.rounding = ieee) (b : Base K)
    (d1 d2 : AVal) (h : DepthRange b d1 d2) (D : K) (D1 : 1 ≤ D) (D2 : D ≤ 2 ^ 89) :
    Implements E (.leaf .range b) (.tone (Spec.fullScale (some d1)) (Spec.fullScale (some d2)) D 0 fun _ u => u) ∧
    (∀ v i, |v i / Spec.fullScale (some d1)| ≤ D →
      (Spec.Stage.tone (Spec.fullScale (some d1)) (Spec.fullScale (some d2)) D 0 fun _ u => u).eval v i = v i / Spec.fullScale (some d1) * Spec.fullScale (some d2)) ∧
    ∀ B, B / Spec.fullScale (some d1) * (1 + 1 / 2 ^ 23) + 1 / 2 ^ 100 ≤ D →
      ∃ e B', Spec.Gauge (.tone (Spec.fullScale (some d1)) (Spec.fullScale (some d2)) D 0 fun _ u => u) B
          (Spec.fullScale (some d2) * (1 / Spec.fullScale (some d1))) e B' ∧
        e ≤ Spec.fullScale (some d2) * (D / 2 ^ 21) ∧ B' ≤ Spec.fullScale (some d2) * (2 * D + 1) := by
  have hT := fullScale_pos (K := K) (some d2)
  obtain ⟨cl, hr⟩ := rangeIs_depths E.rounding h
  refine ⟨.bounds hr (by linarith) le_rfl (by rw [hE]; exact toneNear_depths cl D), fun v i hv => ?_,
    fun B hBD => ⟨_, _, .tone (k := 1) (C := D) (fun _ => ⟨zero_le_one, fun x hx => hx, fun x y _ _ => by rw [one_mul]⟩) hBD ?_, ?_, ?_⟩⟩
  · have := abs_le.mp hv
    simp [Spec.Stage.eval, max_eq_right this.1, min_eq_right this.2]
  · rw [add_zero]
    exact D2.trans (pow_le_pow_right₀ one_le_two (by norm_num))
  · refine mul_le_mul_of_nonneg_left ?_ hT.le
    generalize B / Spec.fullScale (some d1) = X at hBD ⊢
    have hX : X ≤ D := by
      rcases le_or_gt 0 X with h | h
      · norm_num at hBD
        linarith
      · linarith
    norm_num at hBD ⊢
    linarith
  · rw [add_zero]

/-! ## Examples -/

/-- Video levels of ten bits to all levels, without clamping. -/
noncomputable def legalRange : Base ℝ :=
  { attrs := [("inBitDepth", .str "10i"), ("outBitDepth", .str "10i"), ("style", .str "noClamp")],
    values := [("minInValue", .fin 64), ("maxInValue", .fin 940), ("minOutValue", .fin 0), ("maxOutValue", .fin 1023)] }

/-- Ten bits to numbers from 0 to 1. -/
noncomputable def tenToUnit : Base ℝ :=
  { attrs := [("inBitDepth", .str "10i"), ("outBitDepth", .str "32f")] }

theorem fullScale_ten : Spec.fullScale (K := ℝ) (some (.str "10i")) = 1023 := by
  rw [(fullScale_bits (K := ℝ) (n := 10) (d := .str "10i") (by decide)).1]
  norm_num

theorem legalRange_spread : Spec.Spread (Spec.fullScale (some (.str "10i"))) (Spec.fullScale (some (.str "10i"))) 64 940 0 1023 2 1 5 := by
  rw [fullScale_ten]
  constructor <;> norm_num [abs_le]

/-- What they stand for. -/
noncomputable def legalStage : Spec.Stage ℝ :=
  .tone (Spec.fullScale (some (.str "10i"))) (Spec.fullScale (some (.str "10i"))) 2 (5 / 2 ^ 22)
    fun _ => Spec.spread false (Spec.fullScale (some (.str "10i"))) (Spec.fullScale (some (.str "10i"))) 64 940 0 1023

noncomputable def unitStage : Spec.Stage ℝ := .tone (Spec.fullScale (some (.str "10i"))) (Spec.fullScale (some (.str "32f"))) 22 0 fun _ u => u

theorem legal_implements (E : Evaluator ℝ) (hE : E.rounding = ieee) :
    Implements E (.leaf .range legalRange) legalStage ∧ Implements E (.leaf .range tenToUnit) unitStage :=
  ⟨(C147_full E hE legalRange (.str "10i") (.str "10i") 64 940 0 1023 ⟨rfl, rfl, rfl, rfl, rfl, rfl⟩ false (.inr ⟨rfl, _, rfl, by decide⟩) 2 1 5 legalRange_spread).1,
    (C147_depths E hE tenToUnit (.str "10i") (.str "32f") ⟨rfl, rfl, by decide, rfl⟩ 22 (by norm_num) (by norm_num)).1⟩

theorem legal_budget : ∃ e, Spec.Budget [legalStage, unitStage] 1023 0 e ∧ e ≤ 2 / 10 ^ 5 := by
  obtain ⟨-, g1⟩ := C147_full ⟨ieee, fun _ => double, realArith⟩ rfl legalRange (.str "10i") (.str "10i") 64 940 0 1023 ⟨rfl, rfl, rfl, rfl, rfl, rfl⟩ false
    (.inr ⟨rfl, _, rfl, by decide⟩) 2 1 5 legalRange_spread
  obtain ⟨e1, B1, j1, k1, l1⟩ := g1 1023 (by rw [fullScale_ten]; norm_num)
  obtain ⟨-, -, g2⟩ := C147_depths ⟨ieee, fun _ => double, realArith⟩ rfl tenToUnit (.str "10i") (.str "32f") ⟨rfl, rfl, by decide, rfl⟩ 22 (by norm_num) (by norm_num)
  have e32 : Spec.fullScale (K := ℝ) (some (.str "32f")) = 1 := rfl
  obtain ⟨e2, B2, j2, k2, l2⟩ := g2 B1 (by
    rw [fullScale_ten] at *
    norm_num at l1 ⊢
    linarith)
  refine ⟨_, .cons j1 (.cons j2 .nil), ?_⟩
  rw [e32] at k2 ⊢
  rw [fullScale_ten] at k1 ⊢
  have kk : |((1023 : ℝ) / 1023 - 0 / 1023) / (940 / 1023 - 64 / 1023)| = 1023 / 876 := by norm_num
  rw [kk] at k1
  norm_num at k1 k2 ⊢
  linarith

theorem legal_chain {p : Fin 3 → ℝ} {i : Fin 3} (s1 : 0 ≤ p i) (s2 : p i ≤ 1023) : Spec.evalChain [legalStage, unitStage] p i = (p i - 64) / 876 := by
  have w1 : legalStage.eval p i = (p i - 64) * (1023 / 876) := by
    have b1 : -2 ≤ p i / 1023 := by
      rw [le_div_iff₀ (by norm_num)]
      linarith
    have b2 : p i / 1023 ≤ 2 := by
      rw [div_le_iff₀ (by norm_num)]
      linarith
    simp only [legalStage, Spec.Stage.eval, fullScale_ten, max_eq_right b1, min_eq_right b2, Spec.spread, Spec.affine, Bool.false_eq_true, if_false]
    norm_num
  have w2 : ∀ v : Fin 3 → ℝ, |v i / 1023| ≤ 22 → unitStage.eval v i = v i / 1023 := by
    intro v hv
    have := abs_le.mp hv
    have e32 : Spec.fullScale (K := ℝ) (some (.str "32f")) = 1 := rfl
    simp only [unitStage, Spec.Stage.eval, fullScale_ten, e32, max_eq_right this.1, min_eq_right this.2, mul_one]
  simp only [Spec.evalChain]
  rw [w2 _ (by
    rw [w1, abs_le]
    constructor <;> linarith), w1]
  ring

/-- Two Ranges in a list: codes of ten bits, whatever they are, become `(n - 64) / 876` to 4 decimal digits and more. -/
example (E : Evaluator ℝ) (hE : E.rounding = ieee) (pixels : List (Fin 3 → ℝ)) (hp : ∀ p ∈ pixels, ∀ i, ∃ n : ℕ, n ≤ 1023 ∧ p i = n) :
    ∃ g : (Fin 3 → ℝ) → Fin 3 → ℝ, processListR E 0 [.leaf .range legalRange, .leaf .range tenToUnit] (Spec.rgb pixels) 3 = .ok (Spec.rgb (pixels.map g)) ∧
      ∀ p ∈ pixels, ∀ i, |g p i - (p i - 64) / 876| ≤ 2 / 10 ^ 5 := by
  obtain ⟨i1, i2⟩ := legal_implements E hE
  obtain ⟨e, hb, he⟩ := legal_budget
  have sz : ∀ p ∈ pixels, ∀ i, 0 ≤ p i ∧ p i ≤ 1023 ∧ Spec.IsSingle (p i) := by
    intro p hp' i
    obtain ⟨n, hn, e⟩ := hp p hp' i
    rw [e]
    exact ⟨n.cast_nonneg, by exact_mod_cast hn, isSingle_nat (by omega)⟩
  obtain ⟨g, h1, h2⟩ := C133_chain E hE 0 _ _ (.cons i1 (.cons i2 .nil)) (by
    intro n hn
    simp only [List.mem_cons, List.not_mem_nil, or_false] at hn
    rcases hn with rfl | rfl <;> rfl) 1023 e hb pixels fun p hp' i => ⟨(sz p hp' i).2.2, abs_le.mpr ⟨by linarith [(sz p hp' i).1], (sz p hp' i).2.1⟩⟩
  refine ⟨g, h1, fun p hp' i => ?_⟩
  rw [← legal_chain (sz p hp' i).1 (sz p hp' i).2.1]
  exact (h2 p hp' i).2.trans he

/-- Nothing below the black of video. -/
noncomputable def aboveBlack : Base ℝ :=
  { attrs := [("inBitDepth", .str "10i"), ("outBitDepth", .str "10i")],
    values := [("minInValue", .fin 64), ("minOutValue", .fin 0)] }

/-- The white of video to the largest code. -/
noncomputable def whiteShift : Base ℝ :=
  { attrs := [("inBitDepth", .str "10i"), ("outBitDepth", .str "10i"), ("style", .str "noClamp")],
    values := [("maxInValue", .fin 940), ("maxOutValue", .fin 1023)] }

/-- Bounds on one side: nothing below the black of video. -/
example (E : Evaluator ℝ) (hE : E.rounding = ieee) :
    ∃ ψ : ℝ → ℝ, (∀ u, ψ u * 1023 = max 0 (u * 1023 - 64)) ∧
      Implements E (.leaf .range aboveBlack)
        (.tone (Spec.fullScale (some (.str "10i"))) (Spec.fullScale (some (.str "10i"))) 2 ((2 + 2 * 1) / 2 ^ 22) fun _ => ψ) := by
  obtain ⟨ψ, h1, h2, -⟩ := C147_lower E hE aboveBlack
    (.str "10i") (.str "10i") 64 0 ⟨rfl, rfl, rfl, rfl, .inl rfl, rfl⟩ true (.inl ⟨rfl, .inl rfl⟩) 2 1 (by
      rw [fullScale_ten]
      constructor <;> norm_num)
  refine ⟨ψ, fun u => ?_, h2⟩
  have := h1 u
  rw [fullScale_ten] at this
  rw [this]
  simp only [if_true, Spec.shift, fullScale_ten]
  congr 1
  ring

/-- The same above. -/
example (E : Evaluator ℝ) (hE : E.rounding = ieee) :
    ∃ ψ : ℝ → ℝ, (∀ u, ψ u * 1023 = u * 1023 + 83) ∧
      Implements E (.leaf .range whiteShift)
        (.tone (Spec.fullScale (some (.str "10i"))) (Spec.fullScale (some (.str "10i"))) 2 ((2 + 2 * 1) / 2 ^ 22) fun _ => ψ) := by
  obtain ⟨ψ, h1, h2, -⟩ := C147_upper E hE whiteShift
    (.str "10i") (.str "10i") 940 1023 ⟨rfl, rfl, rfl, rfl, .inl rfl, rfl⟩ false (.inr ⟨rfl, _, rfl, by decide⟩) 2 1 (by
      rw [fullScale_ten]
      constructor <;> norm_num [abs_le])
  refine ⟨ψ, fun u => ?_, h2⟩
  have := h1 u
  rw [fullScale_ten] at this
  rw [this]
  simp only [Bool.false_eq_true, if_false, Spec.shift, fullScale_ten]
  ring

end CLF
