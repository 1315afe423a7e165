import Verif.Lemmas.Approx
import Verif.Props.ToneList

/-! # Property C145: film scans (Cineon) in IEEE arithmetic -/

set_option linter.unusedSectionVars false

namespace CLF

/-- The relative exposure of the black point: `0.002` density per code. -/
noncomputable def Spec.blackExposure (γ white black : ℝ) : ℝ := 10 ^ ((black - white) * (2 / 1000) / γ)

/-- Light per relative exposure. -/
noncomputable def Spec.filmGain (γ white black hi sh : ℝ) : ℝ := (hi - sh) / (1 - Spec.blackExposure γ white black)

/-- The light of a code value (`x` is the 1023th part of a code): the white point gives `hi`, the black point `sh`. -/
noncomputable def Spec.filmLight (γ white black hi sh x : ℝ) : ℝ :=
  sh + Spec.filmGain γ white black hi sh * (10 ^ ((1023 * x - white) * (2 / 1000) / γ) - Spec.blackExposure γ white black)

/-- Parameters as they are dealt with here: Python floats of usual sizes; black below white, shadow below highlight. -/
structure Spec.FilmValues (γ white black hi sh : ℝ) : Prop where
  isDouble : double.near γ = γ ∧ double.near white = white ∧ double.near black = black ∧ double.near hi = hi ∧ double.near sh = sh
  gamma : 1 / 1000 ≤ γ ∧ γ ≤ 1000
  codes : |white| ≤ 2 ^ 16 ∧ |black| ≤ 2 ^ 16
  apart : black + γ / 100 ≤ white
  light : |hi| ≤ 2 ^ 20 ∧ |sh| ≤ 2 ^ 20
  above : sh + 1 / 2 ^ 20 ≤ hi

theorem double_two : double.near (2 : ℝ) = 2 := by simpa using double_nat (K := ℝ) 2 (by norm_num)

theorem double_ten : double.near (10 : ℝ) = 10 := by simpa using double_nat (K := ℝ) 10 (by norm_num)

theorem log_ten_bounds : 2 ≤ Real.log 10 ∧ Real.log 10 ≤ 12 / 5 := by
  have h2 := Real.log_two_gt_d9
  have h2' := Real.log_two_lt_d9
  have h5 : Real.log 10 = Real.log 2 + Real.log 5 := by rw [← Real.log_mul (by norm_num) (by norm_num)]; norm_num
  constructor
  · have h3 : Real.log (2 ^ 3) ≤ Real.log 10 := Real.log_le_log (by norm_num) (by norm_num)
    rw [Real.log_pow] at h3
    push_cast at h3
    linarith
  · have h3 : Real.log (10 ^ 10) ≤ Real.log (2 ^ 34) := Real.log_le_log (by norm_num) (by norm_num)
    rw [Real.log_pow, Real.log_pow] at h3
    push_cast at h3
    linarith

theorem small_500 {b : ℝ} (k : ℕ) (hk : k ≤ 500) (h : 1 / 2 ^ k ≤ b) : 1 / 2 ^ 500 ≤ b := by
  refine le_trans ?_ h
  exact one_div_le_one_div_of_le (by positivity) (pow_le_pow_right₀ one_le_two hk)

theorem large_299 {b : ℝ} (k : ℕ) (hk : k ≤ 299) (h : b ≤ 2 ^ k) : b ≤ 2 ^ 299 := h.trans (pow_le_pow_right₀ one_le_two hk)

/-- A decimal of the code. -/
theorem literal_approx {x : ℝ} (k : ℕ) (h1 : 1 / 2 ^ k ≤ |x|) (hk : k ≤ 500) (h2 : |x| ≤ 2 ^ 20) :
    literalR ieee x = .fin (double.near x) ∧ Approx (double.near x) x |x| 2 := by
  obtain ⟨h, h', -⟩ := (Approx.exact (le_refl |x|)).round (small_500 k hk h1) (large_299 20 (by norm_num) h2) (by norm_num)
  rw [zero_add] at h'
  exact ⟨h, h'⟩

theorem literal_density : ∃ c : ℝ, literalR ieee (2 / 1000) = .fin c ∧ Approx c (2 / 1000) (2 / 1000) 2 := by
  obtain ⟨h, h'⟩ := literal_approx (x := 2 / 1000) 10 (by norm_num) (by norm_num) (by norm_num)
  rw [abs_of_pos (by norm_num)] at h'
  exact ⟨_, h, h'⟩

/-- Powers of ten of an exponent known up to `n` units of a bound. -/
theorem tenth_power {L : Arith ℝ} (hL : Spec.GoodLibrary L) {e E X n : ℝ} (h : Approx e E X n) (de : double.near e = e) (hX : X ≤ 2 ^ 24) (hE : E ≤ 60)
    (hn : n ≤ 100) : ∃ w, L.pow (.fin 10) (.fin e) = .fin w ∧ |w - 10 ^ E| ≤ 10 ^ E * ((5 * n * X + 16) / 2 ^ 53) + 2 ^ (-1000 : ℤ) := by
  obtain ⟨l1, l2⟩ := log_ten_bounds
  have X0 := h.nonneg
  have n0 := h.units.1
  have nX : 0 ≤ n * X := mul_nonneg n0 X0
  have nX' : n * X ≤ 100 * 2 ^ 24 := mul_le_mul hn hX X0 (by norm_num)
  have c := within_exponent (b := 10) (e := E) (e' := e) (δ := 12 / 5 * (n * X) / 2 ^ 53) (by norm_num) (by
    rw [abs_mul, abs_of_pos (by linarith : 0 < Real.log 10)]
    calc |e - E| * Real.log 10 ≤ n * (X / 2 ^ 53) * (12 / 5) := mul_le_mul h.near l2 (by linarith) (mul_nonneg n0 (by positivity))
      _ = _ := by ring) (by norm_num at nX' ⊢; linarith)
  have P0 : (0 : ℝ) < 10 ^ E := Real.rpow_pos_of_pos (by norm_num) _
  have hq := c.upper
  have hd : Spec.RelClose (10 ^ e) (10 ^ E) (24 / 5 * (n * X) / 2 ^ 53) := by
    refine c.mono P0.le (le_of_eq ?_)
    ring
  obtain ⟨w, h1, h2⟩ := hL.pow 10 e double_ten de (by norm_num) (by
    have h60 : (10 : ℝ) ^ E ≤ 10 ^ (60 : ℕ) := by
      rw [← Real.rpow_natCast]
      exact Real.rpow_le_rpow_of_exponent_le (by norm_num) (by exact_mod_cast hE)
    refine hq.trans (le_trans (b := 2 * 10 ^ (60 : ℕ)) ?_ ?_)
    · refine mul_le_mul ?_ h60 P0.le (by norm_num)
      norm_num at nX' ⊢
      linarith
    · refine le_trans (b := (2 : ℝ) ^ 240) (by norm_num) (pow_le_pow_right₀ one_le_two (by norm_num)))
  refine ⟨w, h1, ?_⟩
  have hu := hd.upper
  unfold Spec.RelClose at hd
  have t := abs_sub_le w (10 ^ e) (10 ^ E)
  obtain ⟨κ, hκ⟩ : ∃ κ, κ = 24 / 5 * (n * X) / 2 ^ 53 := ⟨_, rfl⟩
  rw [← hκ] at hd hu
  have κ1 : κ ≤ 1 := by rw [hκ]; norm_num at nX' ⊢; linarith
  have κP : κ * 10 ^ E ≤ 10 ^ E := mul_le_of_le_one_left P0.le κ1
  have e1 : (10 : ℝ) ^ E * ((5 * n * X + 16) / 2 ^ 53) = κ * 10 ^ E + 10 ^ E * ((n * X / 5 + 16) / 2 ^ 53) := by rw [hκ]; ring
  have e2 : (10 : ℝ) ^ E * (16 / 2 ^ 53) ≤ 10 ^ E * ((n * X / 5 + 16) / 2 ^ 53) := by
    refine mul_le_mul_of_nonneg_left ?_ P0.le
    norm_num
    linarith
  have e3 : (1 + κ) * 10 ^ E = 10 ^ E + κ * 10 ^ E := by ring
  rw [e1]
  rw [e3] at hu
  generalize (10 : ℝ) ^ E * ((n * X / 5 + 16) / 2 ^ 53) = q at *
  generalize (2 : ℝ) ^ (-1000 : ℤ) = η at *
  norm_num at e2 h2
  linarith

/-- The black point, and the gain. -/
theorem film_gain {L : Arith ℝ} (hL : Spec.GoodLibrary L) {γ white black hi sh : ℝ} (hv : Spec.FilmValues γ white black hi sh) (ch : Option String) :
    ∃ lrb gain : ℝ, logGainR ieee L ⟨.fin γ, .fin white, .fin black, .fin hi, .fin sh, ch⟩ = .ok (.fin lrb, .fin gain) ∧
      Approx lrb (Spec.blackExposure γ white black) 1 128 ∧
      Approx gain (Spec.filmGain γ white black hi sh) (Spec.filmGain γ white black hi sh) (2 ^ 23 + 2 ^ 18) ∧
      0 < Spec.filmGain γ white black hi sh ∧ Spec.filmGain γ white black hi sh ≤ 2 ^ 36 ∧ 1 / 2 ^ 20 ≤ Spec.filmGain γ white black hi sh ∧
      0 < Spec.blackExposure γ white black ∧ Spec.blackExposure γ white black ≤ 1 - 1 / 2 ^ 15 := by
  obtain ⟨⟨dγ, dw, db, dh, ds⟩, ⟨hγ, hγ'⟩, ⟨hw, hb⟩, hap, ⟨hh, hs⟩, hab⟩ := hv
  have γ0 : 0 < γ := by linarith
  obtain ⟨c, c1, c2⟩ := literal_density
  have W0 : 0 < white - black := by linarith
  have W2 : white - black ≤ 2 ^ 17 := by
    have h1 := (abs_le.mp hw).2
    have h2 := (abs_le.mp hb).1
    norm_num at h1 h2 ⊢
    linarith
  obtain ⟨t, ht⟩ : ∃ t, t = (white - black) * (2 / 1000) / γ := ⟨_, rfl⟩
  have t1 : 1 / 50000 ≤ t := by
    rw [ht, le_div_iff₀ γ0]
    linarith
  have t2 : t ≤ 2 ^ 19 := by
    rw [ht, div_le_iff₀ γ0]
    norm_num at W2 ⊢
    linarith
  have hE : (black - white) * (2 / 1000) / γ = -t := by rw [ht]; ring
  -- the exponent
  obtain ⟨a1, a2, -⟩ := (Approx.exact (X := black - white) (B := white - black) (by rw [abs_sub_comm, abs_of_pos W0])).round
    (small_500 20 (by norm_num) (by norm_num; linarith)) (large_299 17 (by norm_num) W2) (by norm_num)
  obtain ⟨b1, b2, -⟩ := (a2.mul c2 (by norm_num)).round
    (small_500 30 (by norm_num) (by norm_num; linarith)) (large_299 17 (by norm_num) (by norm_num at W2 ⊢; linarith)) (by norm_num)
  obtain ⟨z1, z2, dz⟩ := (b2.div_exact γ0).round (small_500 20 (by norm_num) (by rw [← ht]; norm_num; linarith))
    (large_299 19 (by norm_num) (by rw [← ht]; exact t2)) (by norm_num)
  rw [hE, ← ht] at z2
  generalize double.near (black - white) = s1 at *
  generalize double.near (s1 * c) = s2 at *
  generalize double.near (s2 / γ) = s3 at *
  -- its limit does not matter
  obtain ⟨m1, m2⟩ := literal_approx (x := -1 / 100000) 20 (by norm_num) (by norm_num) (by norm_num)
  generalize double.near (-1 / 100000 : ℝ) = s4 at *
  have hmin : s3 ≤ s4 := by
    have h1 := z2.off
    have h2 := (abs_le.mp m2.off).1
    have h3 := (abs_le.mp h1).2
    norm_num at h2 h3
    linarith
  -- black
  obtain ⟨lrb, d1, d2⟩ := tenth_power hL z2 dz (t2.trans (by norm_num)) (by linarith) (by norm_num)
  have hB : Spec.blackExposure γ white black = 10 ^ (-t) := by rw [Spec.blackExposure, hE]
  have hB0 : (0 : ℝ) < 10 ^ (-t) := Real.rpow_pos_of_pos (by norm_num) _
  have hexp : (10 : ℝ) ^ (-t) * (1 + 2 * t) ≤ 1 := by
    rw [Real.rpow_neg (by norm_num), inv_mul_le_iff₀ (Real.rpow_pos_of_pos (by norm_num) _), mul_one, Real.rpow_def_of_pos (by norm_num)]
    have h1 := Real.add_one_le_exp (Real.log 10 * t)
    have h2 : 2 * t ≤ Real.log 10 * t := mul_le_mul_of_nonneg_right log_ten_bounds.1 (by linarith)
    linarith
  rw [hB]
  unfold Spec.filmGain
  rw [hB]
  generalize (10 : ℝ) ^ (-t) = P at *
  have Pt : 0 ≤ P * t := by positivity
  have e1 : P * (1 + 2 * t) = P + 2 * (P * t) := by ring
  rw [e1] at hexp
  have P1 : P ≤ 1 - 1 / 2 ^ 15 := by
    have : P * (1 / 50000) ≤ P * t := mul_le_mul_of_nonneg_left t1 hB0.le
    norm_num at this ⊢
    linarith
  have dl : Approx lrb P 1 128 := by
    refine ⟨by rw [abs_of_pos hB0]; linarith, d2.trans ?_, by norm_num⟩
    have tiny : (2 : ℝ) ^ (-1000 : ℤ) ≤ 1 / 2 ^ 53 := by
      refine (zpow_le_zpow_right₀ one_le_two (by norm_num : (-1000 : ℤ) ≤ -53)).trans (le_of_eq ?_)
      norm_num
    generalize (2 : ℝ) ^ (-1000 : ℤ) = η at *
    have e2 : P * ((5 * (0 + 2 + 2 * 2 + 2 + 2) * t + 16) / 2 ^ 53) = (50 * (P * t) + 16 * P) / 2 ^ 53 := by ring
    rw [e2]
    norm_num at tiny ⊢
    linarith
  -- what is left of 1
  have f1 : Approx (1 - lrb) (1 - P) 1 128 := by
    refine ⟨by rw [abs_of_nonneg] <;> norm_num at P1 ⊢ <;> linarith, ?_, by norm_num⟩
    have : 1 - lrb - (1 - P) = -(lrb - P) := by ring
    rw [this, abs_neg]
    exact dl.near
  obtain ⟨g1, g2, -⟩ := f1.round (small_500 0 (by norm_num) (by norm_num)) (large_299 0 (by norm_num) (by norm_num)) (by norm_num)
  have Q1 : 1 / 2 ^ 15 ≤ 1 - P := by linarith
  have Q0 : 0 < 1 - P := lt_of_lt_of_le (by norm_num) Q1
  have g3 : Approx (double.near (1 - lrb)) (1 - P) (1 - P) ((128 + 2) * 2 ^ 15) := by
    refine g2.self ?_ Q0.le (by norm_num) (by norm_num)
    norm_num at Q1 ⊢
    linarith
  generalize double.near (1 - lrb) = den at *
  -- the light
  have H0 : 1 / 2 ^ 20 ≤ hi - sh := by linarith
  have H2 : hi - sh ≤ 2 ^ 21 := by
    have h1 := (abs_le.mp hh).2
    have h2 := (abs_le.mp hs).1
    norm_num at h1 h2 ⊢
    linarith
  obtain ⟨k1, k2, -⟩ := (Approx.exact (X := hi - sh) (B := hi - sh) (by rw [abs_of_pos (lt_of_lt_of_le (by norm_num) H0)])).round
    (small_500 20 (by norm_num) H0) (large_299 21 (by norm_num) H2) (by norm_num)
  generalize double.near (hi - sh) = num at *
  have HP : 0 < hi - sh := lt_of_lt_of_le (by norm_num) H0
  have G0 : 0 < (hi - sh) / (1 - P) := div_pos HP Q0
  have G1 : 1 / 2 ^ 20 ≤ (hi - sh) / (1 - P) := by
    refine H0.trans ?_
    rw [le_div_iff₀ Q0]
    exact mul_le_of_le_one_right HP.le (by linarith)
  have G2 : (hi - sh) / (1 - P) ≤ 2 ^ 36 := by
    rw [div_le_iff₀ Q0]
    norm_num at H2 Q1 ⊢
    linarith
  obtain ⟨n1, n2, -⟩ := (k2.div g3 Q0 (by norm_num)).round (small_500 20 (by norm_num) G1) (large_299 36 (by norm_num) G2) (by norm_num)
  refine ⟨lrb, double.near (num / den), ?_, dl, n2.mono (by norm_num) (by norm_num), G0, G2, G1, hB0, P1⟩
  have den0 : den ≠ 0 := by
    have := g3.pos Q0
    have : 0 < den := by linarith
    exact this.ne'
  unfold logGainR divR
  simp only [c1, m1]
  rw [Flt.fin_sub, a1, Flt.fin_mul, b1, pyDivF_fin γ0.ne', py_ok_bind, py_pure, py_ok_bind, z1, Flt.pmin_fin, min_eq_right hmin,
    pyPow_ok (by norm_num) (.inr (by norm_num)), d1, py_ok_bind, Flt.fin_sub, k1, Flt.fin_sub, g1, pyDivF_fin den0, py_ok_bind, py_pure, py_ok_bind, n1]
  rfl

/-- Codes to light as the program computes it. -/
theorem film_light_at {L : Arith ℝ} (hL : Spec.GoodLibrary L) {γ white black hi sh D X u Q : ℝ} (hv : Spec.FilmValues γ white black hi sh) (ch : Option String)
    (hD : 1 ≤ D) (hX : (1023 * D + |white|) * (2 / 1000) ≤ X * γ) (hX' : X ≤ 60) (hu : |u| ≤ D)
    (P1 : 10 ^ ((1023 * u - white) * (2 / 1000) / γ) ≤ Q) (Q1 : 1 ≤ Q) (Q2 : Q ≤ 2 ^ 200) :
    ∃ w, logToLinR ieee L ⟨.fin γ, .fin white, .fin black, .fin hi, .fin sh, ch⟩ (.fin u) = .ok (.fin w) ∧
      |w - Spec.filmLight γ white black hi sh u| ≤ (Spec.filmGain γ white black hi sh * Q + |sh|) / 2 ^ 27 := by
  obtain ⟨lrb, gain, h1, h2, h3, G0, G2, G1, B0, B1⟩ := film_gain hL hv ch
  obtain ⟨⟨dγ, dw, db, dh, ds⟩, ⟨hγ, hγ'⟩, ⟨hw, hb⟩, hap, ⟨hh, hs⟩, hab⟩ := hv
  obtain ⟨c, c1, c2⟩ := literal_density
  have γ0 : 0 < γ := by linarith
  have w0 := abs_nonneg white
  have X0 : 0 < X := by
    by_contra h
    have : X * γ ≤ 0 := mul_nonpos_of_nonpos_of_nonneg (not_lt.mp h) γ0.le
    linarith
  have D2 : D ≤ 2 ^ 20 := by
    have : X * γ ≤ 60 * 1000 := mul_le_mul hX' hγ' γ0.le (by norm_num)
    norm_num
    linarith
  have D3 : 1023 * D ≤ 2 ^ 30 := by norm_num at D2 ⊢; linarith
  have D4 : 1023 * D + |white| ≤ 2 ^ 31 := by norm_num at D3 hw ⊢; linarith
  obtain ⟨Y, hY⟩ : ∃ Y, Y = (1023 * D + |white|) * (2 / 1000) / γ := ⟨_, rfl⟩
  have Y1 : Y ≤ X := by rw [hY, div_le_iff₀ γ0]; exact hX
  have Y2 : 1 / 2 ^ 10 ≤ Y := by
    rw [hY, le_div_iff₀ γ0]
    norm_num
    linarith
  -- the exponent
  obtain ⟨a1, a2, -⟩ := (Approx.exact (X := 1023 * u) (B := 1023 * D) (by rw [abs_mul, abs_of_pos (by norm_num : (0 : ℝ) < 1023)]; linarith)).round
    (small_500 0 (by norm_num) (by norm_num; linarith)) (large_299 30 (by norm_num) D3) (by norm_num)
  obtain ⟨b1, b2, -⟩ := (a2.sub (Approx.exact (le_refl |white|)) (by norm_num)).round
    (small_500 0 (by norm_num) (by norm_num; linarith)) (large_299 31 (by norm_num) D4) (by norm_num)
  obtain ⟨d1, d2, -⟩ := (b2.mul c2 (by norm_num)).round
    (small_500 0 (by norm_num) (by norm_num; linarith)) (large_299 31 (by norm_num) (by norm_num at D4 ⊢; linarith)) (by norm_num)
  obtain ⟨e1, e2, de⟩ := (d2.div_exact γ0).round (small_500 10 (by norm_num) (by rw [← hY]; exact Y2))
    (large_299 10 (by norm_num) (by rw [← hY]; norm_num; linarith)) (by norm_num)
  rw [← hY] at e2
  have hE : (1023 * u - white) * (2 / 1000) / γ ≤ Y := (le_abs_self _).trans e2.size
  unfold Spec.filmLight
  generalize (1023 * u - white) * (2 / 1000) / γ = E at *
  generalize double.near (1023 * u) = s1 at *
  generalize double.near (s1 - white) = s2 at *
  generalize double.near (s2 * c) = s3 at *
  generalize double.near (s3 / γ) = s4 at *
  -- the power
  obtain ⟨rel, f1, f2⟩ := tenth_power hL e2 de (Y1.trans (hX'.trans (by norm_num))) (hE.trans (Y1.trans hX')) (by norm_num)
  have P0 : (0 : ℝ) < 10 ^ E := Real.rpow_pos_of_pos (by norm_num) _
  generalize (10 : ℝ) ^ E = P at *
  have f3 : Approx rel P Q 4000 := by
    refine ⟨by rw [abs_of_pos P0]; exact P1, f2.trans ?_, by norm_num⟩
    have tiny : (2 : ℝ) ^ (-1000 : ℤ) ≤ 1 / 2 ^ 53 := by
      refine (zpow_le_zpow_right₀ one_le_two (by norm_num : (-1000 : ℤ) ≤ -53)).trans (le_of_eq ?_)
      norm_num
    generalize (2 : ℝ) ^ (-1000 : ℤ) = η at *
    have e3 : P * ((5 * (0 + 2 + 0 + 2 + 2 * 2 + 2 + 2) * Y + 16) / 2 ^ 53) ≤ Q * (3900 / 2 ^ 53) := by
      refine mul_le_mul P1 ?_ (by positivity) (by linarith)
      norm_num
      linarith
    norm_num at e3 tiny ⊢
    linarith
  obtain ⟨B, hB⟩ : ∃ B, B = Spec.blackExposure γ white black := ⟨_, rfl⟩
  obtain ⟨G, hG⟩ : ∃ G, G = Spec.filmGain γ white black hi sh := ⟨_, rfl⟩
  rw [← hB] at h2 B0 B1 ⊢
  rw [← hG] at h3 G0 G1 G2 ⊢
  have g1 : Approx (rel - lrb) (P - B) Q 4200 := by
    refine ⟨abs_le.mpr ⟨by norm_num at B1; linarith, by linarith⟩, ?_, by norm_num⟩
    have e3 : rel - lrb - (P - B) = (rel - P) - (lrb - B) := by ring
    rw [e3]
    refine (abs_sub _ _).trans ?_
    have h4 := f3.near
    have h5 := h2.near
    norm_num at h4 h5 ⊢
    linarith
  obtain ⟨k1, k2, -⟩ := g1.round (small_500 0 (by norm_num) (by norm_num; exact Q1)) (large_299 200 (by norm_num) Q2) (by norm_num)
  generalize double.near (rel - lrb) = s5 at *
  have GQ : G * Q ≤ 2 ^ 36 * 2 ^ 200 := mul_le_mul G2 Q2 (by linarith) (by norm_num)
  have GQ' : 1 / 2 ^ 20 ≤ G * Q := G1.trans (le_mul_of_one_le_right G0.le Q1)
  obtain ⟨l1, l2, -⟩ := (h3.mul k2 (by norm_num)).round (small_500 20 (by norm_num) GQ') (large_299 236 (by norm_num) (by rw [← pow_add] at GQ; exact GQ)) (by norm_num)
  rw [mul_comm gain] at l1 l2
  generalize double.near (s5 * gain) = s6 at *
  have s0 := abs_nonneg sh
  obtain ⟨m1, m2, -⟩ := (l2.add (Approx.exact (le_refl |sh|)) (by norm_num)).round (small_500 20 (by norm_num) (by linarith))
    (large_299 237 (by norm_num) (by
      rw [← pow_add] at GQ
      have e3 : (2 : ℝ) ^ 237 = 2 ^ 236 + 2 ^ 236 := by rw [pow_succ]; ring
      have e4 : (2 : ℝ) ^ 20 ≤ 2 ^ 236 := pow_le_pow_right₀ one_le_two (by norm_num)
      rw [e3]
      exact add_le_add GQ (hs.trans e4))) (by norm_num)
  refine ⟨double.near (s6 + sh), ?_, by rw [add_comm sh]; exact m2.off⟩
  · unfold logToLinR
    simp only [h1, py_ok_bind, c1]
    rw [Flt.fin_mul, a1, Flt.fin_sub, b1, Flt.fin_mul, d1, Flt.fin_div γ0.ne', e1, f1, Flt.fin_sub, k1, Flt.fin_mul, l1, Flt.fin_add, m1]
    rfl

theorem toneNear_film {L : Arith ℝ} (hL : Spec.GoodLibrary L) {γ white black hi sh D X T N : ℝ} (hv : Spec.FilmValues γ white black hi sh) (ch : Option String)
    (hD : 1 ≤ D) (hX : (1023 * D + |white|) * (2 / 1000) ≤ X * γ) (hX' : X ≤ 60)
    (hT : (1023 * D - white) * (2 / 1000) ≤ T * γ) (T0 : 0 ≤ T) (T1 : T ≤ 60) (hN : N = Spec.filmGain γ white black hi sh * 10 ^ T + |sh|) :
    Spec.ToneNear (logToLinR ieee L ⟨.fin γ, .fin white, .fin black, .fin hi, .fin sh, ch⟩) (Spec.filmLight γ white black hi sh) D (N / 2 ^ 27) := by
  intro u su hu
  have γ0 : 0 < γ := by have := hv.gamma.1; linarith
  rw [hN]
  refine film_light_at hL hv ch hD hX hX' hu (Real.rpow_le_rpow_of_exponent_le (by norm_num) ?_) (Real.one_le_rpow (by norm_num) T0) ?_
  · rw [div_le_iff₀ γ0]
    linarith [(abs_le.mp hu).2]
  · refine (Real.rpow_le_rpow_of_exponent_le (by norm_num) T1).trans ?_
    have : (10 : ℝ) ^ (60 : ℝ) = 10 ^ (60 : ℕ) := by exact_mod_cast Real.rpow_natCast 10 60
    rw [this]
    norm_num

/-- Powers below a bound are close together. -/
theorem antilog_close {β x y T : ℝ} (h1 : 1 ≤ β) (hx : x ≤ T) (hy : y ≤ T) : |β ^ x - β ^ y| ≤ β ^ T * Real.log β * |x - y| := by
  have hβ : 0 < β := by linarith
  have hd : ∀ z, HasDerivAt (fun x : ℝ => β ^ x) (β ^ z * Real.log β) z := fun z => Real.hasStrictDerivAt_const_rpow hβ z |>.hasDerivAt
  have := Convex.norm_image_sub_le_of_norm_deriv_le (f := fun x : ℝ => β ^ x) (s := Set.Iic T) (C := β ^ T * Real.log β) (x := y) (y := x)
    (fun z _ => (hd z).differentiableAt) (fun z hz => by
      rw [(hd z).deriv, Real.norm_eq_abs, abs_of_nonneg (mul_nonneg (Real.rpow_nonneg hβ.le _) (Real.log_nonneg h1))]
      exact mul_le_mul_of_nonneg_right (Real.rpow_le_rpow_of_exponent_le h1 hz) (Real.log_nonneg h1))
    (convex_Iic T) hy hx
  simpa [Real.norm_eq_abs] using this

/-- How far light lies apart. -/
theorem toneBounds_film {γ white black hi sh D T : ℝ} (hγ : 0 < γ) (hG : 0 < Spec.filmGain γ white black hi sh)
    (hB : 0 < Spec.blackExposure γ white black ∧ Spec.blackExposure γ white black ≤ 1)
    (hT : (1023 * D - white) * (2 / 1000) ≤ T * γ) (T0 : 0 ≤ T) :
    Spec.ToneBounds (Spec.filmLight γ white black hi sh) D (Spec.filmGain γ white black hi sh * (10 ^ T * (5 / γ)))
      (Spec.filmGain γ white black hi sh * 10 ^ T + |sh|) := by
  have ex : ∀ x, |x| ≤ D → (1023 * x - white) * (2 / 1000) / γ ≤ T := fun x hx => by
    rw [div_le_iff₀ hγ]
    linarith [(abs_le.mp hx).2]
  have Q1 : (1 : ℝ) ≤ 10 ^ T := Real.one_le_rpow (by norm_num) T0
  have Q0 : (0 : ℝ) < 10 ^ T := by linarith
  unfold Spec.filmLight
  generalize Spec.filmGain γ white black hi sh = G at *
  generalize Spec.blackExposure γ white black = B at *
  refine ⟨by positivity, fun x hx => ?_, fun x y hx hy => ?_⟩
  · rw [add_comm]
    refine (abs_add_le _ _).trans (add_le_add_left ?_ _)
    rw [abs_mul, abs_of_pos hG]
    refine mul_le_mul_of_nonneg_left ?_ hG.le
    have h1 : (10 : ℝ) ^ ((1023 * x - white) * (2 / 1000) / γ) ≤ 10 ^ T := Real.rpow_le_rpow_of_exponent_le (by norm_num) (ex x hx)
    have h2 : (0 : ℝ) < 10 ^ ((1023 * x - white) * (2 / 1000) / γ) := Real.rpow_pos_of_pos (by norm_num) _
    exact abs_le.mpr ⟨by linarith, by linarith⟩
  · have h1 := antilog_close (β := 10) (by norm_num) (ex x hx) (ex y hy)
    have e1 : |(1023 * x - white) * (2 / 1000) / γ - (1023 * y - white) * (2 / 1000) / γ| = 2046 / 1000 / γ * |x - y| := by
      have e2 : (1023 * x - white) * (2 / 1000) / γ - (1023 * y - white) * (2 / 1000) / γ = 2046 / 1000 / γ * (x - y) := by ring
      rw [e2, abs_mul, abs_of_pos (by positivity : 0 < 2046 / 1000 / γ)]
    rw [e1] at h1
    rw [add_sub_add_left_eq_sub, ← mul_sub, abs_mul, abs_of_pos hG, sub_sub_sub_cancel_right, mul_assoc]
    refine mul_le_mul_of_nonneg_left (h1.trans ?_) hG.le
    rw [← mul_assoc]
    refine mul_le_mul_of_nonneg_right ?_ (abs_nonneg _)
    rw [mul_assoc]
    refine mul_le_mul_of_nonneg_left ?_ Q0.le
    rw [mul_div_assoc', div_le_div_iff_of_pos_right hγ]
    linarith [log_ten_bounds.2]


/-- The parameters of a channel. -/
structure Spec.Film where
  γ : ℝ
  white : ℝ
  black : ℝ
  hi : ℝ
  sh : ℝ

namespace Spec.Film

/-- Light of a code. -/
noncomputable def light (f : Film) (x : ℝ) : ℝ := filmLight f.γ f.white f.black f.hi f.sh x

/-- Light per relative exposure. -/
noncomputable def gain (f : Film) : ℝ := filmGain f.γ f.white f.black f.hi f.sh

/-- Relative exposure of black. -/
noncomputable def dark (f : Film) : ℝ := blackExposure f.γ f.white f.black

/-- Relative exposure that gives a light. -/
noncomputable def exposure (f : Film) (y : ℝ) : ℝ := f.dark + (y - f.sh) / f.gain

/-- Code of a light. -/
noncomputable def code (f : Film) (y : ℝ) : ℝ := (f.white + Real.logb 10 (f.exposure y) * f.γ / (2 / 1000)) / 1023

/-- Usual parameters. -/
def Usual (f : Film) : Prop := FilmValues f.γ f.white f.black f.hi f.sh

/-- The parameters that nodes have for a channel: those of the element for it, or the defaults. -/
def Of (rows : List (LogParam ℝ)) (i : Fin 3) (f : Film) : Prop :=
  (∃ ch, rowFor LogParam.channel rows i = some ⟨.fin f.γ, .fin f.white, .fin f.black, .fin f.hi, .fin f.sh, ch⟩) ∨
    (rowFor LogParam.channel rows i = none ∧ f = ⟨double.near (6 / 10), 685, 95, 1, 0⟩)

end Spec.Film

open Spec (RelClose)

theorem film_row {rows : List (LogParam ℝ)} {i : Fin 3} {f : Spec.Film} (h : f.Of rows i) :
    ∃ ch, logRowR ieee rows i = ⟨.fin f.γ, .fin f.white, .fin f.black, .fin f.hi, .fin f.sh, ch⟩ := by
  unfold logRowR
  rcases h with ⟨ch, h⟩ | ⟨h, rfl⟩
  · exact ⟨ch, by rw [h]; rfl⟩
  · refine ⟨none, ?_⟩
    rw [h, Option.getD_none, (literal_approx (x := 6 / 10) 1 (by norm_num) (by norm_num) (by norm_num)).1]

/-- C145: the white point gives the highlight, the black point the shadow, more code more light, and codes come back from light. -/
theorem C145_points (f : Spec.Film) (hf : f.Usual) :
    f.light (f.white / 1023) = f.hi ∧ f.light (f.black / 1023) = f.sh ∧ StrictMono f.light ∧ ∀ x, f.code (f.light x) = x := by
  obtain ⟨lrb, gain, -, -, -, G0, -, -, B0, B1⟩ := film_gain realArith_real.good hf none
  have γ0 : 0 < f.γ := by have := hf.gamma.1; linarith
  have B1' : Spec.blackExposure f.γ f.white f.black < 1 := by norm_num at B1; linarith
  have e0 : Spec.filmGain f.γ f.white f.black f.hi f.sh * (1 - Spec.blackExposure f.γ f.white f.black) = f.hi - f.sh := by
    rw [Spec.filmGain, div_mul_cancel₀]
    linarith
  refine ⟨?_, ?_, fun x y h => ?_, fun x => ?_⟩
  · unfold Spec.Film.light Spec.filmLight
    rw [mul_div_cancel₀ _ (by norm_num), sub_self, zero_mul, zero_div, Real.rpow_zero, e0]
    ring
  · unfold Spec.Film.light Spec.filmLight
    rw [mul_div_cancel₀ _ (by norm_num)]
    unfold Spec.blackExposure
    rw [sub_self, mul_zero, add_zero]
  · unfold Spec.Film.light Spec.filmLight
    have h1 : (1023 * x - f.white) * (2 / 1000) / f.γ < (1023 * y - f.white) * (2 / 1000) / f.γ :=
      div_lt_div_of_pos_right (by linarith) γ0
    have h2 := Real.rpow_lt_rpow_of_exponent_lt (by norm_num : (1 : ℝ) < 10) h1
    have h3 := mul_lt_mul_of_pos_left (sub_lt_sub_right h2 (Spec.blackExposure f.γ f.white f.black)) G0
    linarith
  · unfold Spec.Film.code Spec.Film.exposure Spec.Film.light Spec.filmLight Spec.Film.gain Spec.Film.dark
    rw [add_sub_cancel_left, mul_div_cancel_left₀ _ G0.ne', add_sub_cancel, Real.logb_rpow (by norm_num) (by norm_num)]
    field_simp
    ring

/-- How large the exponents may be: codes of at most `D`, powers of at most `10 ^ T`. -/
structure Spec.FilmReach (f : Spec.Film) (D T : ℝ) : Prop where
  least : 1 ≤ D
  all : (1023 * D + |f.white|) * (2 / 1000) ≤ 60 * f.γ
  top : (1023 * D - f.white) * (2 / 1000) ≤ T * f.γ
  nonneg : 0 ≤ T
  fits : f.gain * 10 ^ T + |f.sh| ≤ 2 ^ 89

theorem Spec.FilmReach.le {f : Spec.Film} {D T : ℝ} (h : Spec.FilmReach f D T) (hf : f.Usual) : T ≤ 60 := by
  obtain ⟨lrb, gain, -, -, -, G0, -, G1, -, -⟩ := film_gain realArith_real.good hf none
  by_contra hc
  have h60 : (10 : ℝ) ^ (60 : ℕ) ≤ 10 ^ T := by
    rw [← Real.rpow_natCast]
    exact Real.rpow_le_rpow_of_exponent_le (by norm_num) (by push_cast; linarith)
  have h1 : 1 / 2 ^ 20 * 10 ^ (60 : ℕ) ≤ f.gain * 10 ^ T := mul_le_mul G1 h60 (by norm_num) G0.le
  have h2 := h.fits
  have h3 := abs_nonneg f.sh
  norm_num at h1 h2
  linarith

theorem film_sum {k D N X : ℝ} (k0 : 0 ≤ k) (N0 : 1 / 2 ^ 20 ≤ N) (D1 : 1 ≤ D) (hBD : X * (1 + 1 / 2 ^ 23) + 1 / 2 ^ 100 ≤ D) :
    k * (X / 2 ^ 23 + 1 / 2 ^ 140) + N / 2 ^ 27 + (N + N / 2 ^ 27) / 2 ^ 22 + 1 / 2 ^ 140 ≤ k * D / 2 ^ 22 + N / 2 ^ 21 := by
  have b1 : X ≤ D - 1 / 2 ^ 100 := by
    rcases le_or_gt 0 (X) with h | h
    · norm_num at hBD ⊢
      linarith
    · norm_num at hBD ⊢
      linarith
  have b2 : X / 2 ^ 23 + 1 / 2 ^ 140 ≤ D / 2 ^ 23 := by
    norm_num at b1 ⊢
    linarith
  have b3 : k * (X / 2 ^ 23 + 1 / 2 ^ 140) ≤ k * (D / 2 ^ 23) := mul_le_mul_of_nonneg_left b2 k0
  have b4 : k * (D / 2 ^ 23) = k * D / 2 ^ 23 := by ring
  have b5 : 0 ≤ k * D := by positivity
  rw [b4] at b3
  generalize k * (X / 2 ^ 23 + 1 / 2 ^ 140) = q at *
  generalize k * D = q1 at *
  norm_num at b3 N0 ⊢
  linarith

/-- C145: a Log node of style `logToLin` is a stage of a list. -/
theorem C145_stage (E : Evaluator ℝ) (hE : E.rounding = ieee) (hL : Spec.GoodLibrary E.library) (rows : List (LogParam ℝ))
    (hr : Spec.GoodLetters LogParam.channel rows) (f : Fin 3 → Spec.Film) (hf : ∀ i, (f i).Of rows i ∧ (f i).Usual) (b : Base ℝ) (d1 d2 : AVal)
    (h : StyledNode b d1 d2 (.str "logToLin")) (D T N k : ℝ) (hD : ∀ i, Spec.FilmReach (f i) D T)
    (hN : ∀ i, (f i).gain * 10 ^ T + |(f i).sh| ≤ N) (hN' : N ≤ 2 ^ 89) (hk : ∀ i, (f i).gain * (10 ^ T * (5 / (f i).γ)) ≤ k) :
    Implements E (.leaf (.log rows) b) (.tone (Spec.fullScale (some d1)) (Spec.fullScale (some d2)) D (N / 2 ^ 27) fun i => (f i).light) ∧
    ∀ B, B / Spec.fullScale (some d1) * (1 + 1 / 2 ^ 23) + 1 / 2 ^ 100 ≤ D →
      ∃ e B', Spec.Gauge (.tone (Spec.fullScale (some d1)) (Spec.fullScale (some d2)) D (N / 2 ^ 27) fun i => (f i).light) B
          (Spec.fullScale (some d2) * (k / Spec.fullScale (some d1))) e B' ∧
        e ≤ Spec.fullScale (some d2) * (k * D / 2 ^ 22 + N / 2 ^ 21) ∧ B' ≤ Spec.fullScale (some d2) * (4 * N + 1) := by
  have hS := fullScale_pos (K := ℝ) (some d1)
  have hT := fullScale_pos (K := ℝ) (some d2)
  have pos : ∀ i, 0 < (f i).γ ∧ 0 < (f i).gain ∧ 1 / 2 ^ 20 ≤ (f i).gain ∧ 0 < (f i).dark ∧ (f i).dark ≤ 1 := fun i => by
    obtain ⟨lrb, gain, -, -, -, G0, -, G1, B0, B1⟩ := film_gain realArith_real.good (hf i).2 none
    refine ⟨by have := (hf i).2.gamma.1; linarith, G0, G1, B0, B1.trans (by norm_num)⟩
  have N0 : 1 / 2 ^ 20 ≤ N := by
    refine le_trans ?_ (hN 0)
    have h1 : (1 : ℝ) ≤ 10 ^ T := Real.one_le_rpow (by norm_num) (hD 0).nonneg
    have h2 := (pos 0).2.2.1.trans (le_mul_of_one_le_right (pos 0).2.1.le h1)
    linarith [abs_nonneg (f 0).sh]
  have N1 : 0 < N := lt_of_lt_of_le (by norm_num) N0
  have k0 : 0 ≤ k := by
    refine le_trans ?_ (hk 0)
    have := (pos 0).1
    have := (pos 0).2.1
    positivity
  have D1 := (hD 0).least
  refine ⟨.log h hr rfl (by linarith) (by positivity) fun i => ?_, fun B hBD => ⟨_, _, .tone (k := k) (C := N) (fun i => ?_) hBD ?_, ?_, ?_⟩⟩
  · obtain ⟨ch, hrow⟩ := film_row (hf i).1
    rw [hE, hrow]
    intro u su hu
    obtain ⟨w, h1, h2⟩ := toneNear_film hL (hf i).2 ch D1 (hD i).all le_rfl (hD i).top (hD i).nonneg ((hD i).le (hf i).2) rfl u su hu
    exact ⟨w, h1, h2.trans (div_le_div_of_nonneg_right (hN i) (by positivity))⟩
  · have tb := toneBounds_film (D := D) (T := T) (pos i).1 (pos i).2.1 (pos i).2.2.2 (hD i).top (hD i).nonneg
    exact ⟨k0, fun x hx => (tb.size x hx).trans (hN i), fun x y hx hy => (tb.close x y hx hy).trans (mul_le_mul_of_nonneg_right (hk i) (abs_nonneg _))⟩
  · have : (2 : ℝ) ^ 90 = 2 * 2 ^ 89 := by norm_num
    rw [this]
    generalize (2 : ℝ) ^ 89 = M at *
    norm_num
    linarith
  · exact mul_le_mul_of_nonneg_left (film_sum k0 N0 D1 hBD) hT.le
  · refine mul_le_mul_of_nonneg_left ?_ hT.le
    norm_num
    linarith

/-- A result of about `Y`, stored. -/
theorem store_rel (d : Depth) {y Y δ : ℝ} (h : |y - Y| ≤ δ) (hb : |Y| + δ ≤ 2 ^ 90) :
    ∃ out, ieee single (fromUnitR ieee (ieee single (.fin y)) d) = .fin out ∧ Spec.IsSingle out ∧
      |out - Y * Spec.fullScale d| ≤ Spec.fullScale d * (2 * δ + |Y| / 2 ^ 22 + 1 / 2 ^ 140) := by
  have hT := one_le_fullScale (K := ℝ) d
  have hT0 := fullScale_pos (K := ℝ) d
  have d0 := (abs_nonneg _).trans h
  have Y0 := abs_nonneg Y
  obtain ⟨η, e0⟩ : ∃ η : ℝ, η = 2 ^ (-148 : ℤ) := ⟨_, rfl⟩
  obtain ⟨μ, e1⟩ : ∃ μ : ℝ, μ = 2 ^ (-150 : ℤ) := ⟨_, rfl⟩
  obtain ⟨κ, e2⟩ : ∃ κ : ℝ, κ = 1 / 2 ^ 140 := ⟨_, rfl⟩
  have i1 : 4 * η ≤ κ := by rw [e0, e2]; norm_num
  have i2 : 4 * μ = η := by rw [e0, e1]; norm_num
  have i4 : 0 < μ := e1 ▸ two_zpow_pos _
  have i5 : κ ≤ 1 := by rw [e2]; norm_num
  rw [← e2]
  have big : (2 : ℝ) ^ 90 * 2 + 1 ≤ 2 ^ 100 := by norm_num
  have big' : (2 : ℝ) ^ 100 ≤ 2 ^ 125 := pow_le_pow_right₀ one_le_two (by norm_num)
  have yM : |y| ≤ |Y| + δ := by
    have := abs_add_le (y - Y) Y
    rw [sub_add_cancel] at this
    linarith
  generalize (2 : ℝ) ^ 90 = m at *
  generalize (2 : ℝ) ^ 125 = m' at *
  obtain ⟨z, h3, sz, ez, -, -⟩ := single_op yM (by linarith)
  rw [← e1] at ez
  have zM : |z| ≤ (|Y| + δ) * (1 + 1 / 2 ^ 24) + μ := by
    have := abs_add_le (z - y) y
    rw [sub_add_cancel] at this
    linarith
  obtain ⟨out, h4, so, -, -, eo⟩ := back_pos d sz (by
    refine le_trans ?_ big
    norm_num at zM
    linarith)
  rw [← e0, abs_mul, abs_of_pos hT0] at eo
  refine ⟨out, by rw [h3, h4], so, ?_⟩
  generalize (Spec.fullScale d : ℝ) = T at *
  have t1 : |out - Y * T| ≤ |out - z * T| + |z - y| * T + |y - Y| * T := by
    have a1 := abs_sub_le out (z * T) (Y * T)
    have a5 : |z * T - Y * T| = |z - Y| * T := by rw [← sub_mul, abs_mul, abs_of_pos hT0]
    have a6 := mul_le_mul_of_nonneg_right (abs_sub_le z y Y) hT0.le
    rw [add_mul] at a6
    linarith
  have t2 : η ≤ T * η := le_mul_of_one_le_left (by linarith) hT
  have t3 : |out - z * T| ≤ T * (|z| * (9 / 8 * (1 / 2 ^ 24)) + η) := by
    have e : T * (|z| * (9 / 8 * (1 / 2 ^ 24)) + η) = |z| * T * (9 / 8 * (1 / 2 ^ 24)) + T * η := by ring
    rw [e]
    linarith
  have t4 : |out - Y * T| ≤ T * (|z| * (9 / 8 * (1 / 2 ^ 24)) + η + |z - y| + |y - Y|) := by
    have e : T * (|z| * (9 / 8 * (1 / 2 ^ 24)) + η + |z - y| + |y - Y|) = T * (|z| * (9 / 8 * (1 / 2 ^ 24)) + η) + |z - y| * T + |y - Y| * T := by ring
    rw [e]
    linarith
  refine t4.trans (mul_le_mul_of_nonneg_left ?_ hT0.le)
  norm_num at zM ez ⊢
  linarith

namespace Spec.Film

/-- The exponent that a code stands for, per unit code. -/
noncomputable def steps (f : Film) (x : ℝ) : ℝ := 2046 / 1000 * |x| / f.γ

/-- The relative exposure of a code. -/
noncomputable def level (f : Film) (x : ℝ) : ℝ := 10 ^ ((1023 * x - f.white) * (2 / 1000) / f.γ)

/-- Codes that are dealt with. -/
structure Fits (f : Film) (x : ℝ) : Prop where
  exponent : (1023 * (|x| + 1) + |f.white|) * (2 / 1000) ≤ 60 * f.γ
  size : f.gain * (f.level x + 1) + |f.sh| ≤ 2 ^ 88

/-- The error of the light of code `x`. -/
noncomputable def lightError (f : Film) (x : ℝ) : ℝ :=
  (3 * f.steps x * (f.gain * f.level x) + |f.light x|) / 2 ^ 22 + (f.gain * (f.level x + 1) + |f.sh|) / 2 ^ 24

end Spec.Film

/-- Unit scale, light of a code, store. -/
theorem film_light_channel {L : Arith ℝ} (hL : Spec.GoodLibrary L) {f : Spec.Film} (hf : f.Usual) (ch : Option String) (d1 d2 : Depth) {x : ℝ}
    (hx : Spec.IsSingle x) (hX : f.Fits (x / Spec.fullScale d1)) :
    ∃ y out, logToLinR ieee L ⟨.fin f.γ, .fin f.white, .fin f.black, .fin f.hi, .fin f.sh, ch⟩ (ieee single (toUnitR ieee (.fin x) d1)) = .ok y ∧
      ieee single (fromUnitR ieee (ieee single y) d2) = .fin out ∧ Spec.IsSingle out ∧
      |out - f.light (x / Spec.fullScale d1) * Spec.fullScale d2| ≤ Spec.fullScale d2 * f.lightError (x / Spec.fullScale d1) := by
  obtain ⟨u, h1, su, -, -, -, -, eu⟩ := unit_pos d1 hx
  rw [h1]
  generalize x / Spec.fullScale d1 = X at *
  obtain ⟨lrb, gain, -, -, -, G0, -, G1, B0, B1⟩ := film_gain hL hf ch
  change 0 < f.gain at G0
  change _ ≤ f.gain at G1
  obtain ⟨γ1, γ2⟩ := hf.gamma
  have γ0 : 0 < f.γ := by linarith
  have w0 := abs_nonneg f.white
  have s0 := abs_nonneg f.sh
  have X0 := abs_nonneg X
  have tiny : (2 : ℝ) ^ (-148 : ℤ) ≤ 1 / 2 ^ 60 := by norm_num
  generalize (2 : ℝ) ^ (-148 : ℤ) = η at *
  obtain ⟨t, ht⟩ : ∃ t, t = f.steps X := ⟨_, rfl⟩
  have t0 : 0 ≤ t := by rw [ht, Spec.Film.steps]; positivity
  have t1 : t ≤ 60 := by
    rw [ht, Spec.Film.steps, div_le_iff₀ γ0]
    have := hX.exponent
    linarith
  have X1 : |X| ≤ 2 ^ 16 := by
    have := hX.exponent
    norm_num
    linarith
  have uX : |u| ≤ |X| + 1 := by
    have := abs_add_le (u - X) X
    rw [sub_add_cancel] at this
    norm_num at eu X1 tiny
    linarith
  -- the exposure
  obtain ⟨P, hP⟩ : ∃ P, P = f.level X := ⟨_, rfl⟩
  have P0 : 0 < P := by rw [hP]; exact Real.rpow_pos_of_pos (by norm_num) _
  have c : RelClose (10 ^ ((1023 * u - f.white) * (2 / 1000) / f.γ)) P (2 * (3 * t / 2 ^ 24 + 1 / 2 ^ 40)) := by
    rw [hP]
    refine within_exponent (by norm_num) ?_ (by norm_num; linarith)
    have e : (1023 * u - f.white) * (2 / 1000) / f.γ - (1023 * X - f.white) * (2 / 1000) / f.γ = 2046 / 1000 * (u - X) / f.γ := by ring
    obtain ⟨l1, l2⟩ := log_ten_bounds
    rw [e, abs_mul, abs_div, abs_mul, abs_of_pos γ0, abs_of_pos (by norm_num : (0 : ℝ) < 2046 / 1000), abs_of_pos (by linarith : 0 < Real.log 10)]
    have e2 : 2046 / 1000 * |u - X| / f.γ ≤ t * (9 / 8 * (1 / 2 ^ 24)) + 1 / 2 ^ 42 := by
      rw [div_le_iff₀ γ0, ht, Spec.Film.steps]
      have e3 : (2046 / 1000 * |X| / f.γ * (9 / 8 * (1 / 2 ^ 24)) + 1 / 2 ^ 42) * f.γ = 2046 / 1000 * (|X| * (9 / 8 * (1 / 2 ^ 24))) + f.γ / 2 ^ 42 := by
        field_simp
      rw [e3]
      norm_num at eu tiny ⊢
      linarith
    calc 2046 / 1000 * |u - X| / f.γ * Real.log 10 ≤ (t * (9 / 8 * (1 / 2 ^ 24)) + 1 / 2 ^ 42) * (12 / 5) :=
          mul_le_mul e2 l2 (by linarith) (by positivity)
      _ ≤ 3 * t / 2 ^ 24 + 1 / 2 ^ 40 := by norm_num; linarith
  obtain ⟨p, hp⟩ : ∃ p, p = (10 : ℝ) ^ ((1023 * u - f.white) * (2 / 1000) / f.γ) := ⟨_, rfl⟩
  rw [← hp] at c
  have p0 : 0 < p := by rw [hp]; exact Real.rpow_pos_of_pos (by norm_num) _
  have p1 : p ≤ 2 * P := by
    refine c.upper.trans (mul_le_mul_of_nonneg_right ?_ P0.le)
    norm_num
    linarith
  have P2 : p + 1 ≤ 2 ^ 200 := by
    have h60 : p ≤ 10 ^ (60 : ℕ) := by
      rw [hp, ← Real.rpow_natCast]
      refine Real.rpow_le_rpow_of_exponent_le (by norm_num) ?_
      rw [div_le_iff₀ γ0]
      have h2 := hX.exponent
      have h3 := (abs_le.mp uX).2
      have h4 := neg_abs_le f.white
      push_cast
      linarith
    refine (add_le_add_left h60 1).trans ?_
    norm_num
  obtain ⟨w, k1, k2⟩ := film_light_at hL hf ch (by linarith : 1 ≤ |X| + 1) hX.exponent le_rfl uX (Q := p + 1) (by rw [← hp]; linarith) (by linarith) P2
  -- the light
  have k3 : f.light u - f.light X = f.gain * (p - P) := by
    rw [hp, hP, Spec.Film.light, Spec.Film.light, Spec.filmLight, Spec.filmLight, Spec.Film.gain, Spec.Film.level]
    ring
  have k4 : |f.light u - f.light X| ≤ 3 * t * (f.gain * P) / 2 ^ 23 + f.gain * P / 2 ^ 39 := by
    rw [k3, abs_mul, abs_of_pos G0]
    refine (mul_le_mul_of_nonneg_left c G0.le).trans (le_of_eq ?_)
    ring
  obtain ⟨N, hN⟩ : ∃ N, N = f.gain * (P + 1) + |f.sh| := ⟨_, rfl⟩
  have GP : 0 < f.gain * P := by positivity
  have eN : f.gain * (P + 1) = f.gain * P + f.gain := by ring
  have tGP : 3 * t * (f.gain * P) ≤ 180 * (f.gain * P) := mul_le_mul_of_nonneg_right (by linarith) GP.le
  have tGP0 : 0 ≤ 3 * t * (f.gain * P) := by positivity
  have hY : |f.light X| ≤ N := by
    have h3 : f.light X = f.sh + f.gain * (P - f.dark) := by rw [hP]; rfl
    rw [h3, hN, add_comm]
    refine (abs_add_le _ _).trans (add_le_add_left ?_ _)
    rw [abs_mul, abs_of_pos G0]
    refine mul_le_mul_of_nonneg_left ?_ G0.le
    have h4 : 0 < f.dark := B0
    have h5 : f.dark ≤ 1 := B1.trans (by norm_num)
    exact abs_le.mpr ⟨by linarith, by linarith⟩
  have k5 : |w - f.light X| ≤ 3 * t * (f.gain * P) / 2 ^ 23 + N * (5 / 8) / 2 ^ 25 := by
    have h3 := abs_sub_le w (f.light u) (f.light X)
    have h4 : |w - f.light u| ≤ (f.gain * (p + 1) + |f.sh|) / 2 ^ 27 := k2
    have h5 : f.gain * p ≤ f.gain * (2 * P) := mul_le_mul_of_nonneg_left p1 G0.le
    have e1 : f.gain * (p + 1) = f.gain * p + f.gain := by ring
    have e2 : f.gain * (2 * P) = 2 * (f.gain * P) := by ring
    rw [e1] at h4
    rw [e2] at h5
    rw [eN] at hN
    generalize f.gain * P = q at *
    generalize 3 * t * q = q1 at *
    generalize f.gain * p = q2 at *
    norm_num at h4 k4 ⊢
    linarith
  have size := hX.size
  rw [← hP, ← hN] at size
  obtain ⟨out, o1, o2, o3⟩ := store_rel d2 k5 (by
    have e1 : (2 : ℝ) ^ 90 = 4 * 2 ^ 88 := by norm_num
    rw [e1]
    rw [eN] at hN
    generalize (2 : ℝ) ^ 88 = m at *
    generalize f.gain * P = q at *
    generalize 3 * t * q = q1 at *
    norm_num
    linarith)
  refine ⟨.fin w, out, k1, o1, o2, o3.trans (mul_le_mul_of_nonneg_left ?_ (fullScale_pos d2).le)⟩
  unfold Spec.Film.lightError
  rw [← ht, ← hP, ← hN]
  rw [eN] at hN
  generalize f.gain * P = q at *
  generalize 3 * t * q = q1 at *
  norm_num at G1 ⊢
  linarith

/-- C145: codes to light in IEEE arithmetic, other channels stay. -/
theorem C145_light (L : Arith ℝ) (hL : Spec.GoodLibrary L) (rows : List (LogParam ℝ)) (hr : Spec.GoodLetters LogParam.channel rows)
    (f : Fin 3 → Spec.Film) (hf : ∀ i, (f i).Of rows i ∧ (f i).Usual) (b : Base ℝ) (d1 d2 : AVal) (h : StyledNode b d1 d2 (.str "logToLin"))
    (stride : ℕ) (hs : 3 ≤ stride) (pixels : List ((Fin 3 → ℝ) × List (Flt ℝ))) (hp : ∀ p ∈ pixels, p.2.length + 3 = stride)
    (hx : ∀ p ∈ pixels, ∀ i, Spec.IsSingle (p.1 i) ∧ (f i).Fits (p.1 i / Spec.fullScale (some d1))) :
    ∃ (r : Res ℝ) (F : Fin 3 → ℝ → ℝ), logProcessR ieee L rows b (Spec.image pixels) stride = .ok r ∧
      r.out = Spec.image (pixels.map fun p => (fun i => F i (p.1 i), p.2)) ∧
      ∀ p ∈ pixels, ∀ i, Spec.IsSingle (F i (p.1 i)) ∧
        |F i (p.1 i) - (f i).light (p.1 i / Spec.fullScale (some d1)) * Spec.fullScale (some d2)|
          ≤ Spec.fullScale (some d2) * (f i).lightError (p.1 i / Spec.fullScale (some d1)) := by
  have key : ∀ (i : Fin 3) (x : ℝ), ∃ out, (Spec.IsSingle x ∧ (f i).Fits (x / Spec.fullScale (some d1))) →
      (∃ y, logToLinR ieee L (logRowR ieee rows i) (ieee single (toUnitR ieee (.fin x) (some d1))) = .ok y ∧
        ieee single (fromUnitR ieee (ieee single y) (some d2)) = .fin out) ∧ Spec.IsSingle out ∧
      |out - (f i).light (x / Spec.fullScale (some d1)) * Spec.fullScale (some d2)|
          ≤ Spec.fullScale (some d2) * (f i).lightError (x / Spec.fullScale (some d1)) := by
    intro i x
    by_cases hh : Spec.IsSingle x ∧ (f i).Fits (x / Spec.fullScale (some d1))
    · obtain ⟨ch, hrow⟩ := film_row (hf i).1
      obtain ⟨y, out, h1, h2, h3, h4⟩ := film_light_channel hL (hf i).2 ch (some d1) (some d2) hh.1 hh.2
      exact ⟨out, fun _ => ⟨⟨y, by rw [hrow]; exact h1, h2⟩, h3, h4⟩⟩
    · exact ⟨0, fun h => absurd h hh⟩
  choose F hF using key
  obtain ⟨r, h1, h2⟩ := logProcessR_image ieee L rows hr b d1 d2 _ h _ rfl stride hs pixels hp F fun p hp' i => (hF i (p.1 i) (hx p hp' i)).1
  exact ⟨r, F, h1, h2, fun p hp' i => (hF i (p.1 i) (hx p hp' i)).2⟩

/-- What accurate codes of a light `y` need: `κ` bounds the share of the exposure that rounding changes. -/
structure Spec.FilmGrain (f : Spec.Film) (y κ : ℝ) : Prop where
  grain : (1 + (2 * (|y| + 1) + |f.sh|) / f.gain) / 2 ^ 26 + |y| / f.gain / 2 ^ 23 ≤ 2 * κ * f.exposure y
  small : κ ≤ 1 / 8 ∧ κ * f.γ ≤ 1 / 8
  gamma : f.γ ≤ 20
  size : 1 + (2 * (|y| + 1) + |f.sh|) / f.gain ≤ 2 ^ 20
  dark : 1 / 2 ^ 21 ≤ f.exposure y

/-- The same exposure up to rounding. -/
theorem film_exposure {L : Arith ℝ} (hL : Spec.GoodLibrary L) {f : Spec.Film} (hf : f.Usual) {u X κ : ℝ} (hg : Spec.FilmGrain f X κ) (ch : Option String)
    (hu : |u - X| ≤ |X| * (9 / 8 * (1 / 2 ^ 24)) + 2 ^ (-148 : ℤ)) :
    ∃ lrb gain z1 z2 rel : ℝ, logGainR ieee L ⟨.fin f.γ, .fin f.white, .fin f.black, .fin f.hi, .fin f.sh, ch⟩ = .ok (.fin lrb, .fin gain) ∧ gain ≠ 0 ∧
      ieee double (.fin (u - f.sh)) = .fin z1 ∧ ieee double (.fin (z1 / gain)) = .fin z2 ∧ ieee double (.fin (lrb + z2)) = .fin rel ∧
      double.near rel = rel ∧ RelClose rel (f.exposure X) (2 * κ) ∧ f.exposure X ≤ 2 ^ 20 ∧ 0 < κ := by
  obtain ⟨lrb, gain, h1, h2, h3, G0, G2, G1, B0, B1⟩ := film_gain hL hf ch
  obtain ⟨hκ, ⟨κ1, κ2⟩, hγ, M1, hA⟩ := hg
  have hs := hf.light.2
  unfold Spec.Film.exposure at hκ hA ⊢
  change Approx lrb f.dark 1 128 at h2
  change Approx gain f.gain f.gain _ at h3
  change 0 < f.gain at G0
  change f.gain ≤ 2 ^ 36 at G2
  change 0 < f.dark at B0
  change f.dark ≤ _ at B1
  generalize f.gain = G at *
  generalize f.dark = B at *
  have s0 := abs_nonneg f.sh
  have X0 := abs_nonneg X
  obtain ⟨D, hD⟩ : ∃ D, D = |X| + 1 := ⟨_, rfl⟩
  rw [← hD] at hκ M1
  have D1 : 1 ≤ D := by linarith
  obtain ⟨M, hM⟩ : ∃ M, M = (2 * D + |f.sh|) / G := ⟨_, rfl⟩
  rw [← hM] at hκ M1
  have M0 : 0 < M := by rw [hM]; positivity
  have B2 : B ≤ 1 := B1.trans (by norm_num)
  have A0 : 0 < B + (X - f.sh) / G := lt_of_lt_of_le (by norm_num) hA
  have κ0 : 0 < κ := by
    have : 0 < 2 * κ * (B + (X - f.sh) / G) := lt_of_lt_of_le (by positivity) hκ
    have := (pos_iff_pos_of_mul_pos this).mpr A0
    linarith
  have GM : 2 * D + |f.sh| = G * M := by rw [hM]; field_simp
  have GM2 : G * M ≤ 2 ^ 56 := by
    refine (mul_le_mul G2 (by linarith : M ≤ 2 ^ 20) M0.le (by norm_num)).trans (by norm_num)
  have tiny : (2 : ℝ) ^ (-148 : ℤ) ≤ 1 / 2 ^ 60 := by norm_num
  generalize (2 : ℝ) ^ (-148 : ℤ) = η at *
  have hu1 : |u - X| ≤ |X| / 2 ^ 23 + 1 / 2 ^ 60 := by
    norm_num at hu tiny ⊢
    linarith
  have hu2 : |u| ≤ 2 * D := by
    have := abs_add_le (u - X) X
    rw [sub_add_cancel] at this
    norm_num at hu1
    linarith
  -- the computation
  obtain ⟨a1, a2, -⟩ := (Approx.exact (X := u - f.sh) (B := G * M) (by rw [← GM]; exact (abs_sub _ _).trans (by linarith))).round
    (small_500 0 (by norm_num) (by rw [← GM]; norm_num; linarith)) (large_299 56 (by norm_num) GM2) (by norm_num)
  have gp := h3.pos G0
  obtain ⟨b1, b2, -⟩ := (a2.div h3 G0 (by norm_num)).round (small_500 40 (by norm_num) (by
      rw [mul_div_cancel_left₀ _ G0.ne', hM, le_div_iff₀ G0]
      norm_num at G2 ⊢
      linarith)) (large_299 20 (by norm_num) (by rw [mul_div_cancel_left₀ _ G0.ne']; linarith)) (by norm_num)
  rw [mul_div_cancel_left₀ _ G0.ne'] at b2
  obtain ⟨c1, c2, dc⟩ := (h2.add b2 (by norm_num)).round (small_500 0 (by norm_num) (by norm_num; linarith)) (large_299 20 (by norm_num) M1) (by norm_num)
  refine ⟨lrb, gain, _, _, _, h1, by linarith [gp], a1, b1, c1, dc, ?_, ?_, κ0⟩
  · have h4 := c2.off
    have h5 : |B + (u - f.sh) / G - (B + (X - f.sh) / G)| ≤ |X| / G / 2 ^ 23 + M / 2 ^ 60 := by
      have e1 : B + (u - f.sh) / G - (B + (X - f.sh) / G) = (u - X) / G := by ring
      have e2 : |X| / G / 2 ^ 23 + M / 2 ^ 60 = (|X| / 2 ^ 23 + (2 * D + |f.sh|) / 2 ^ 60) / G := by rw [hM]; ring
      rw [e1, abs_div, abs_of_pos G0, e2]
      refine div_le_div_of_nonneg_right (hu1.trans ?_) G0.le
      norm_num
      linarith
    have h6 := abs_sub_le (double.near (lrb + double.near (double.near (u - f.sh) / gain))) (B + (u - f.sh) / G) (B + (X - f.sh) / G)
    unfold RelClose
    generalize B + (u - f.sh) / G = a at *
    generalize B + (X - f.sh) / G = a' at *
    generalize |X| / G = q at *
    norm_num at h4 h5 hκ
    linarith
  · have h8 : (X - f.sh) / G ≤ M := by
      rw [hM]
      exact div_le_div_of_nonneg_right (by linarith [le_abs_self X, neg_abs_le f.sh]) G0.le
    linarith

/-- Unit scale, code of a light, store. -/
theorem film_code_channel {L : Arith ℝ} (hL : Spec.GoodLibrary L) {f : Spec.Film} (hf : f.Usual) {x κ : ℝ} (ch : Option String)
    (d1 d2 : Depth) (hx : Spec.IsSingle x) (hg : Spec.FilmGrain f (x / Spec.fullScale d1) κ) :
    ∃ y out, linToLogR ieee L ⟨.fin f.γ, .fin f.white, .fin f.black, .fin f.hi, .fin f.sh, ch⟩ (ieee single (toUnitR ieee (.fin x) d1)) = .ok y ∧
      ieee single (fromUnitR ieee (ieee single y) d2) = .fin out ∧ Spec.IsSingle out ∧
      |out - f.code (x / Spec.fullScale d1) * Spec.fullScale d2|
        ≤ Spec.fullScale d2 * (8 * κ * f.γ + (|f.code (x / Spec.fullScale d1)| + 1) / 2 ^ 21) := by
  obtain ⟨u, h1, su, -, -, -, -, eu⟩ := unit_pos d1 hx
  rw [h1]
  generalize x / Spec.fullScale d1 = X at *
  obtain ⟨lrb, gain, z1, z2, rel, k1, g0, k2, k3, k4, dr, hr, A2, κ0⟩ := film_exposure hL hf hg ch eu
  obtain ⟨-, ⟨κ1, κ2⟩, hγ20, -, A1⟩ := hg
  obtain ⟨t, t1, t2, t3⟩ := floatMinR_near
  obtain ⟨c, c1, c2⟩ := literal_density
  have γ1 := hf.gamma.1
  have γ0 : 0 < f.γ := by linarith
  have hw := hf.codes.1
  obtain ⟨A, hAA⟩ : ∃ A, A = f.exposure X := ⟨_, rfl⟩
  rw [← hAA] at hr A1 A2
  have A0 : 0 < A := lt_of_lt_of_le (by norm_num) A1
  have r1 : 1 / 2 ^ 22 ≤ rel := by
    have h2 := hr.lower
    have h3 : 2 * κ * A ≤ 1 / 4 * A := mul_le_mul_of_nonneg_right (by linarith) A0.le
    have e : (1 - 2 * κ) * A = A - 2 * κ * A := by ring
    rw [e] at h2
    norm_num at A1 ⊢
    linarith
  have r2 : rel ≤ 2 ^ 22 := by
    have h2 := hr.upper
    have h3 : 2 * κ * A ≤ 1 / 4 * A := mul_le_mul_of_nonneg_right (by linarith) A0.le
    have e : (1 + 2 * κ) * A = A + 2 * κ * A := by ring
    rw [e] at h2
    norm_num at A2 ⊢
    linarith
  have r0 : 0 < rel := lt_of_lt_of_le (by norm_num) r1
  have tr : t ≤ rel := by
    refine t3.upper.trans (le_trans ?_ r1)
    have h2 := floor_bounds.2
    have h3 : (2 : ℝ) ^ (-120 : ℤ) ≤ 1 / 2 ^ 23 := by norm_num
    have h4 := h2.trans h3
    norm_num at h4 ⊢
    linarith
  have l1 : |Real.logb 10 rel| ≤ 22 := by
    have := abs_logb_le (β := 10) (n := 22) (X := rel) (by norm_num) (by norm_num at r1 ⊢; exact r1) r2
    norm_num at this
    exact this
  have l2 : |Real.logb 10 A| ≤ 22 := by
    have := abs_logb_le (β := 10) (n := 22) (X := A) (by norm_num) (by norm_num at A1 ⊢; linarith) (A2.trans (by norm_num))
    norm_num at this
    exact this
  have lc := logb_close (β := 10) (by norm_num) A0 hr (by linarith)
  obtain ⟨w, w1, w2⟩ := hL.log10 rel dr r0
  have w3 : |w - Real.logb 10 A| ≤ 8 * κ + 1 / 2 ^ 45 := by
    have := abs_sub_le w (Real.logb 10 rel) (Real.logb 10 A)
    norm_num at w2 ⊢
    linarith
  have w4 : |w| ≤ 24 := by
    have h2 := abs_add_le (w - Real.logb 10 A) (Real.logb 10 A)
    rw [sub_add_cancel] at h2
    norm_num at w3
    linarith
  -- scale and shift
  obtain ⟨a1, a2, -⟩ := (Approx.exact (X := w * f.γ) (B := 24 * f.γ) (by
      rw [abs_mul, abs_of_pos γ0]; exact mul_le_mul_of_nonneg_right w4 γ0.le)).round
    (small_500 10 (by norm_num) (by norm_num; linarith)) (large_299 10 (by norm_num) (by norm_num; linarith)) (by norm_num)
  have cp := c2.pos (by norm_num)
  have cne : c ≠ 0 := by
    have : 0 < c := by linarith
    exact this.ne'
  obtain ⟨b1, b2, -⟩ := (a2.div c2 (by norm_num) (by norm_num)).round
    (small_500 10 (by norm_num) (by norm_num; linarith)) (large_299 20 (by norm_num) (by norm_num; linarith)) (by norm_num)
  have W0 := abs_nonneg f.white
  obtain ⟨p1, p2, -⟩ := ((Approx.exact (le_refl |f.white|)).add b2 (by norm_num)).round
    (small_500 10 (by norm_num) (by norm_num; linarith)) (large_299 20 (by norm_num) (by norm_num at hw ⊢; linarith)) (by norm_num)
  obtain ⟨q1, q2, -⟩ := (p2.div_exact (c := 1023) (by norm_num)).round
    (small_500 20 (by norm_num) (by norm_num; linarith)) (large_299 20 (by norm_num) (by norm_num at hw ⊢; linarith)) (by norm_num)
  generalize double.near (w * f.γ) = s1 at *
  generalize double.near (s1 / c) = s2 at *
  generalize double.near (f.white + s2) = s3 at *
  have hy : |double.near (s3 / 1023) - f.code X| ≤ 4 * κ * f.γ + 1 / 2 ^ 30 := by
    have h2 := q2.near
    have h3 : |(f.white + w * f.γ / (2 / 1000)) / 1023 - f.code X| ≤ (8 * κ + 1 / 2 ^ 45) * (f.γ / 2) := by
      have e : (f.white + w * f.γ / (2 / 1000)) / 1023 - f.code X = (w - Real.logb 10 A) * (f.γ / (2046 / 1000)) := by
        rw [hAA, Spec.Film.code]
        ring
      rw [e, abs_mul, abs_of_pos (by positivity : 0 < f.γ / (2046 / 1000))]
      refine mul_le_mul w3 ?_ (by positivity) (by positivity)
      exact div_le_div_of_nonneg_left γ0.le (by norm_num) (by norm_num)
    have h4 := abs_sub_le (double.near (s3 / 1023)) ((f.white + w * f.γ / (2 / 1000)) / 1023) (f.code X)
    have e2 : (8 * κ + 1 / 2 ^ 45) * (f.γ / 2) = 4 * κ * f.γ + f.γ / 2 ^ 46 := by ring
    rw [e2] at h3
    generalize 4 * κ * f.γ = q at *
    generalize (f.white + w * f.γ / (2 / 1000)) / 1023 = a at *
    generalize double.near (s3 / 1023) = a' at *
    norm_num at h2 h3 hw ⊢
    linarith
  have hc : |f.code X| ≤ 1000 := by
    rw [Spec.Film.code, ← hAA, abs_div, abs_of_pos (by norm_num : (0 : ℝ) < 1023), div_le_iff₀ (by norm_num)]
    refine (abs_add_le _ _).trans ?_
    rw [abs_div, abs_mul, abs_of_pos γ0, abs_of_pos (by norm_num : (0 : ℝ) < 2 / 1000)]
    have : |Real.logb 10 A| * f.γ ≤ 22 * 20 := mul_le_mul l2 hγ20 γ0.le (by norm_num)
    norm_num at hw ⊢
    linarith
  obtain ⟨out, o1, o2, o3⟩ := store_abs d2 hy (by
    have : 4 * κ * f.γ = 4 * (κ * f.γ) := by ring
    rw [this]
    norm_num
    linarith) hc
  refine ⟨.fin (double.near (s3 / 1023)), out, ?_, o1, o2, o3.trans ?_⟩
  · unfold linToLogR
    rw [k1]
    simp only [py_ok_bind, c1, t1]
    rw [Flt.fin_sub, k2, Flt.fin_div g0, k3, Flt.fin_add, k4, Flt.pmax_fin, max_eq_right tr, w1, Flt.fin_mul, a1, Flt.fin_div cne, b1, Flt.fin_add, p1,
      Flt.fin_div (by norm_num), q1]
    rfl
  · rw [mul_comm]
    refine mul_le_mul_of_nonneg_left ?_ (fullScale_pos d2).le
    have := abs_nonneg (f.code X)
    generalize |f.code X| = Y at *
    have e : 8 * κ * f.γ = 2 * (4 * κ * f.γ) := by ring
    rw [e]
    generalize 4 * κ * f.γ = q at *
    norm_num
    linarith

/-- C145: light to codes in IEEE arithmetic, for light that is not far below the shadow; other channels stay. -/
theorem C145_code (L : Arith ℝ) (hL : Spec.GoodLibrary L) (rows : List (LogParam ℝ)) (hr : Spec.GoodLetters LogParam.channel rows)
    (f : Fin 3 → Spec.Film) (hf : ∀ i, (f i).Of rows i ∧ (f i).Usual) (b : Base ℝ) (d1 d2 : AVal) (h : StyledNode b d1 d2 (.str "linToLog"))
    (κ : ℝ) (stride : ℕ) (hs : 3 ≤ stride) (pixels : List ((Fin 3 → ℝ) × List (Flt ℝ)))
    (hp : ∀ p ∈ pixels, p.2.length + 3 = stride)
    (hx : ∀ p ∈ pixels, ∀ i, Spec.IsSingle (p.1 i) ∧ Spec.FilmGrain (f i) (p.1 i / Spec.fullScale (some d1)) κ) :
    ∃ (r : Res ℝ) (F : Fin 3 → ℝ → ℝ), logProcessR ieee L rows b (Spec.image pixels) stride = .ok r ∧
      r.out = Spec.image (pixels.map fun p => (fun i => F i (p.1 i), p.2)) ∧
      ∀ p ∈ pixels, ∀ i, Spec.IsSingle (F i (p.1 i)) ∧
        |F i (p.1 i) - (f i).code (p.1 i / Spec.fullScale (some d1)) * Spec.fullScale (some d2)|
          ≤ Spec.fullScale (some d2) * (8 * κ * (f i).γ + (|(f i).code (p.1 i / Spec.fullScale (some d1))| + 1) / 2 ^ 21) := by
  have key : ∀ (i : Fin 3) (x : ℝ), ∃ out, (Spec.IsSingle x ∧ Spec.FilmGrain (f i) (x / Spec.fullScale (some d1)) κ) →
      (∃ y, linToLogR ieee L (logRowR ieee rows i) (ieee single (toUnitR ieee (.fin x) (some d1))) = .ok y ∧
        ieee single (fromUnitR ieee (ieee single y) (some d2)) = .fin out) ∧ Spec.IsSingle out ∧
      |out - (f i).code (x / Spec.fullScale (some d1)) * Spec.fullScale (some d2)|
          ≤ Spec.fullScale (some d2) * (8 * κ * (f i).γ + (|(f i).code (x / Spec.fullScale (some d1))| + 1) / 2 ^ 21) := by
    intro i x
    by_cases hh : Spec.IsSingle x ∧ Spec.FilmGrain (f i) (x / Spec.fullScale (some d1)) κ
    · obtain ⟨ch, hrow⟩ := film_row (hf i).1
      obtain ⟨y, out, h1, h2, h3, h4⟩ := film_code_channel hL (hf i).2 ch (some d1) (some d2) hh.1 hh.2
      exact ⟨out, fun _ => ⟨⟨y, by rw [hrow]; exact h1, h2⟩, h3, h4⟩⟩
    · exact ⟨0, fun h => absurd h hh⟩
  choose F hF using key
  obtain ⟨r, h1, h2⟩ := logProcessR_image ieee L rows hr b d1 d2 _ h _ rfl stride hs pixels hp F fun p hp' i => (hF i (p.1 i) (hx p hp' i)).1
  exact ⟨r, F, h1, h2, fun p hp' i => (hF i (p.1 i) (hx p hp' i)).2⟩

end CLF
