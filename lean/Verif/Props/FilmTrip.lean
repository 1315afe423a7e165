import Verif.Props.RoundedCineon

/-! # Property C145, continued: from codes to light and back -/

set_option linter.unusedSectionVars false

namespace CLF

open Spec (RelClose)

/-- What codes need to come back: `κ` bounds the share of the exposure that rounding changes. -/
structure Spec.FilmTrip (f : Spec.Film) (x κ : ℝ) : Prop where
  fits : f.Fits x
  level : 1 / 2 ^ 20 ≤ f.level x
  size : 1 + (2 * (|f.light x| + 2) + |f.sh|) / f.gain ≤ 2 ^ 18
  grain : (3 * f.steps x * f.level x + |f.light x| / f.gain) / 2 ^ 21 + (f.level x + 1 + (|f.sh| + 2) / f.gain) / 2 ^ 23 ≤ κ * f.level x
  small : κ ≤ 1 / 8 ∧ κ * f.γ ≤ 1 / 8
  gamma : f.γ ≤ 20

/-- Light that is off by rounding is still good for codes. -/
theorem film_between {f : Spec.Film} (hf : f.Usual) {x y κ : ℝ} (h : Spec.FilmTrip f x κ) (hy : |y - f.light x| ≤ f.lightError x) :
    Spec.FilmGrain f y κ ∧ |f.code y - x| ≤ κ * f.γ := by
  obtain ⟨lrb, gain, -, -, -, G0, -, G1, B0, B1⟩ := film_gain realArith_real.good hf none
  change 0 < f.gain at G0
  obtain ⟨γ1, γ2⟩ := hf.gamma
  have γ0 : 0 < f.γ := by linarith
  obtain ⟨-, P1, hsz, hgr, ⟨κ1, κ2⟩, γ20⟩ := h
  have P0 : 0 < f.level x := lt_of_lt_of_le (by norm_num) P1
  have ex : f.exposure (f.light x) = f.level x := by
    unfold Spec.Film.exposure
    have : f.light x = f.sh + f.gain * (f.level x - f.dark) := rfl
    rw [this, add_sub_cancel_left, mul_div_cancel_left₀ _ G0.ne', add_sub_cancel]
  have cx := (C145_points f hf).2.2.2 x
  have s0 := abs_nonneg f.sh
  have Y0 := abs_nonneg (f.light x)
  have t0 : 0 ≤ f.steps x := by unfold Spec.Film.steps; positivity
  have q0 : 0 ≤ 3 * f.steps x * f.level x := by positivity
  have l0 : 0 ≤ |f.light x| / f.gain := by positivity
  have σ0 : 0 ≤ (|f.sh| + 2) / f.gain := by positivity
  -- the error of the light, as exposure
  have err : |y - f.light x| / f.gain ≤ κ * f.level x / 2 := by
    rw [div_le_iff₀ G0]
    refine hy.trans ?_
    have e1 : f.lightError x = ((3 * f.steps x * f.level x + |f.light x| / f.gain) / 2 ^ 22 + (f.level x + 1 + |f.sh| / f.gain) / 2 ^ 24) * f.gain := by
      unfold Spec.Film.lightError
      field_simp
    rw [e1]
    refine mul_le_mul_of_nonneg_right ?_ G0.le
    have e2 : |f.sh| / f.gain ≤ (|f.sh| + 2) / f.gain := div_le_div_of_nonneg_right (by linarith) G0.le
    generalize 3 * f.steps x * f.level x + |f.light x| / f.gain = a at *
    generalize |f.sh| / f.gain = b at *
    norm_num at hgr ⊢
    linarith
  have κP : 0 < κ * f.level x := by
    refine lt_of_lt_of_le ?_ hgr
    have : 0 < f.level x + 1 + (|f.sh| + 2) / f.gain := by linarith
    positivity
  have near : |f.exposure y - f.level x| ≤ κ * f.level x / 2 := by
    have e1 : f.exposure y - f.level x = (y - f.light x) / f.gain := by
      rw [← ex]
      unfold Spec.Film.exposure
      ring
    rw [e1, abs_div, abs_of_pos G0]
    exact err
  have κ8 : κ * f.level x ≤ 1 / 8 * f.level x := mul_le_mul_of_nonneg_right κ1 P0.le
  have A1 : 15 / 16 * f.level x ≤ f.exposure y := by
    have := (abs_le.mp near).1
    linarith
  have yb : |y| / f.gain ≤ |f.light x| / f.gain + κ * f.level x / 2 := by
    have h1 := abs_add_le (y - f.light x) (f.light x)
    rw [sub_add_cancel] at h1
    have h2 := div_le_div_of_nonneg_right h1 G0.le
    rw [add_div] at h2
    linarith
  have e3 : (2 * (|y| + 1) + |f.sh|) / f.gain = 2 * (|y| / f.gain) + (|f.sh| + 2) / f.gain := by ring
  have e4 : (2 * (|f.light x| + 2) + |f.sh|) / f.gain = 2 * (|f.light x| / f.gain) + (|f.sh| + 2) / f.gain + 2 / f.gain := by ring
  have g2 : 0 < 2 / f.gain := by positivity
  have κA : κ * (15 / 16 * f.level x) ≤ κ * f.exposure y := by
    refine mul_le_mul_of_nonneg_left A1 ?_
    exact ((pos_iff_pos_of_mul_pos κP).mpr P0).le
  have P2 : f.level x ≤ 2 ^ 20 := by
    have h1 : f.level x = f.dark + (f.light x - f.sh) / f.gain := by rw [← ex]; rfl
    have h2 : (f.light x - f.sh) / f.gain ≤ (2 * (|f.light x| + 2) + |f.sh|) / f.gain :=
      div_le_div_of_nonneg_right (by linarith [le_abs_self (f.light x), neg_abs_le f.sh]) G0.le
    have h3 : f.dark ≤ 1 := B1.trans (by norm_num)
    norm_num at hsz ⊢
    linarith
  refine ⟨⟨?_, ⟨κ1, κ2⟩, γ20, ?_, ?_⟩, ?_⟩
  · rw [e3]
    have e5 : 2 * κ * f.exposure y = 2 * (κ * f.exposure y) := by ring
    have e6 : κ * (15 / 16 * f.level x) = 15 / 16 * (κ * f.level x) := by ring
    rw [e5]
    rw [e6] at κA
    generalize κ * f.exposure y = a at *
    generalize κ * f.level x = b at *
    generalize (|f.sh| + 2) / f.gain = c at *
    generalize |y| / f.gain = z at *
    generalize |f.light x| / f.gain = l at *
    generalize 3 * f.steps x * f.level x = m at *
    norm_num at hgr ⊢
    linarith
  · rw [e3]
    rw [e4] at hsz
    norm_num at hsz P2 ⊢
    linarith
  · norm_num at P1 ⊢
    linarith
  · have hrel : RelClose (f.exposure y) (f.level x) (κ / 2) := by
      unfold RelClose
      rw [div_mul_eq_mul_div]
      exact near
    have lc := logb_close (β := 10) (by norm_num) P0 hrel (by linarith)
    have e7 : f.code y - x = (Real.logb 10 (f.exposure y) - Real.logb 10 (f.level x)) * (f.γ / (2046 / 1000)) := by
      nth_rw 1 [← cx]
      unfold Spec.Film.code
      rw [ex]
      ring
    rw [e7, abs_mul, abs_of_pos (by positivity : 0 < f.γ / (2046 / 1000))]
    have e8 : κ * f.γ = 4 * (κ / 2) * (f.γ / 2) := by ring
    rw [e8]
    refine mul_le_mul lc (div_le_div_of_nonneg_left γ0.le (by norm_num) (by norm_num)) (by positivity) ?_
    exact (abs_nonneg _).trans lc

/-- C145: codes come back from light, up to a small share of a code. -/
theorem C145_roundtrip (L : Arith ℝ) (hL : Spec.GoodLibrary L) (rows rows' : List (LogParam ℝ)) (hr : Spec.GoodLetters LogParam.channel rows)
    (hr' : Spec.GoodLetters LogParam.channel rows') (f : Fin 3 → Spec.Film) (hf : ∀ i, (f i).Of rows i ∧ (f i).Of rows' i ∧ (f i).Usual)
    (b b' : Base ℝ) (d1 d2 d3 : AVal) (h : StyledNode b d1 d2 (.str "logToLin")) (h' : StyledNode b' d2 d3 (.str "linToLog")) (κ : ℝ)
    (stride : ℕ) (hs : 3 ≤ stride) (pixels : List ((Fin 3 → ℝ) × List (Flt ℝ))) (hp : ∀ p ∈ pixels, p.2.length + 3 = stride)
    (hx : ∀ p ∈ pixels, ∀ i, Spec.IsSingle (p.1 i) ∧ Spec.FilmTrip (f i) (p.1 i / Spec.fullScale (some d1)) κ) :
    ∃ (r r' : Res ℝ) (G : Fin 3 → ℝ → ℝ), logProcessR ieee L rows b (Spec.image pixels) stride = .ok r ∧
      logProcessR ieee L rows' b' r.out stride = .ok r' ∧
      r'.out = Spec.image (pixels.map fun p => (fun i => G i (p.1 i), p.2)) ∧
      ∀ p ∈ pixels, ∀ i, Spec.IsSingle (G i (p.1 i)) ∧
        |G i (p.1 i) - p.1 i / Spec.fullScale (some d1) * Spec.fullScale (some d3)|
          ≤ Spec.fullScale (some d3) * (9 * κ * (f i).γ + (|p.1 i / Spec.fullScale (some d1)| + 2) / 2 ^ 21) := by
  have hT0 := fullScale_pos (K := ℝ) (some d2)
  have hU0 := fullScale_pos (K := ℝ) (some d3)
  obtain ⟨r, F, k1, k2, k3⟩ := C145_light L hL rows hr f (fun i => ⟨(hf i).1, (hf i).2.2⟩) b d1 d2 h stride hs pixels hp fun p hp' i =>
    ⟨(hx p hp' i).1, (hx p hp' i).2.fits⟩
  have mid : ∀ p ∈ pixels, ∀ i, Spec.FilmGrain (f i) (F i (p.1 i) / Spec.fullScale (some d2)) κ ∧
      |(f i).code (F i (p.1 i) / Spec.fullScale (some d2)) - p.1 i / Spec.fullScale (some d1)| ≤ κ * (f i).γ := by
    intro p hp' i
    refine film_between (hf i).2.2 (hx p hp' i).2 ?_
    have e := (k3 p hp' i).2
    rw [← mul_le_mul_iff_right₀ hT0]
    refine le_trans (le_of_eq ?_) e
    nth_rw 1 [← abs_of_pos hT0]
    rw [← abs_mul, mul_sub, mul_div_cancel₀ _ hT0.ne', mul_comm (Spec.fullScale (some d2)) ((f i).light _)]
  obtain ⟨r', F', l1, l2, l3⟩ := C145_code L hL rows' hr' f (fun i => (hf i).2) b' d2 d3 h' κ stride hs
    (pixels.map fun p => (fun i => F i (p.1 i), p.2)) (by
      intro p hp'
      obtain ⟨q, hq, rfl⟩ := List.mem_map.mp hp'
      exact hp q hq) (by
      intro p hp' i
      obtain ⟨q, hq, rfl⟩ := List.mem_map.mp hp'
      exact ⟨(k3 q hq i).1, (mid q hq i).1⟩)
  refine ⟨r, r', fun i x => F' i (F i x), k1, by rw [k2]; exact l1, ?_, fun p hp' i => ?_⟩
  · rw [l2, List.map_map]
    rfl
  · obtain ⟨m1, m2⟩ := l3 _ (List.mem_map.mpr ⟨p, hp', rfl⟩) i
    refine ⟨m1, ?_⟩
    have m3 := (mid p hp' i).2
    simp only at m2
    have t := abs_sub_le (F' i (F i (p.1 i))) ((f i).code (F i (p.1 i) / Spec.fullScale (some d2)) * Spec.fullScale (some d3))
      (p.1 i / Spec.fullScale (some d1) * Spec.fullScale (some d3))
    rw [← sub_mul, abs_mul, abs_of_pos hU0] at t
    have m4 := mul_le_mul_of_nonneg_right m3 hU0.le
    have m5 : |(f i).code (F i (p.1 i) / Spec.fullScale (some d2))| ≤ |p.1 i / Spec.fullScale (some d1)| + 1 := by
      have h1 := abs_add_le ((f i).code (F i (p.1 i) / Spec.fullScale (some d2)) - p.1 i / Spec.fullScale (some d1)) (p.1 i / Spec.fullScale (some d1))
      rw [sub_add_cancel] at h1
      have := (hx p hp' i).2.small.2
      linarith
    have m6 : Spec.fullScale (some d3) * (8 * κ * (f i).γ + (|(f i).code (F i (p.1 i) / Spec.fullScale (some d2))| + 1) / 2 ^ 21)
        ≤ Spec.fullScale (some d3) * (8 * κ * (f i).γ + (|p.1 i / Spec.fullScale (some d1)| + 2) / 2 ^ 21) := by
      refine mul_le_mul_of_nonneg_left ?_ hU0.le
      norm_num
      linarith
    have e : Spec.fullScale (some d3) * (9 * κ * (f i).γ + (|p.1 i / Spec.fullScale (some d1)| + 2) / 2 ^ 21) =
        Spec.fullScale (some d3) * (8 * κ * (f i).γ + (|p.1 i / Spec.fullScale (some d1)| + 2) / 2 ^ 21) + κ * (f i).γ * Spec.fullScale (some d3) := by ring
    rw [e]
    linarith

/-! ## Examples -/

/-- The default parameters. -/
noncomputable def defaultFilm : Spec.Film := ⟨double.near (6 / 10), 685, 95, 1, 0⟩

theorem defaultFilm_gamma : 599 / 1000 ≤ defaultFilm.γ ∧ defaultFilm.γ ≤ 601 / 1000 := by
  have h := (literal_approx (x := 6 / 10) 1 (by norm_num) (by norm_num) (by norm_num)).2.off
  have h' := abs_le.mp h
  change 599 / 1000 ≤ double.near (6 / 10) ∧ double.near (6 / 10) ≤ 601 / 1000
  norm_num at h' ⊢
  constructor <;> linarith

theorem defaultFilm_usual : defaultFilm.Usual := by
  obtain ⟨h1, h2⟩ := defaultFilm_gamma
  refine ⟨⟨Fmt.near_near _ _, ?_, ?_, ?_, ?_⟩, ⟨by linarith, by linarith⟩, ?_, ?_, ?_, ?_⟩
  · exact_mod_cast double_nat (K := ℝ) 685 (by norm_num)
  · exact_mod_cast double_nat (K := ℝ) 95 (by norm_num)
  · exact_mod_cast double_nat (K := ℝ) 1 (by norm_num)
  · exact_mod_cast double_nat (K := ℝ) 0 (by norm_num)
  · simp only [defaultFilm]; norm_num
  · change (95 : ℝ) + defaultFilm.γ / 100 ≤ 685
    linarith
  · simp only [defaultFilm]; norm_num
  · simp only [defaultFilm]; norm_num

/-- Exponents of ten between whole numbers. -/
theorem ten_between {e : ℝ} (h1 : -2 ≤ e) (h2 : e ≤ 2) : 1 / 100 ≤ (10 : ℝ) ^ e ∧ (10 : ℝ) ^ e ≤ 100 := by
  have e1 : (10 : ℝ) ^ (-2 : ℝ) = 1 / 100 := by rw [Real.rpow_neg (by norm_num)]; norm_num
  have e2 : (10 : ℝ) ^ (2 : ℝ) = 100 := by norm_num
  rw [← e1, ← e2]
  exact ⟨Real.rpow_le_rpow_of_exponent_le (by norm_num) h1, Real.rpow_le_rpow_of_exponent_le (by norm_num) h2⟩

theorem defaultFilm_gain : 1 ≤ defaultFilm.gain ∧ defaultFilm.gain ≤ 2 ∧ 0 < defaultFilm.dark ∧ defaultFilm.dark ≤ 1 / 10 := by
  obtain ⟨h1, h2⟩ := defaultFilm_gamma
  have γ0 : 0 < defaultFilm.γ := by linarith
  have hd : defaultFilm.dark = 10 ^ ((95 - 685) * (2 / 1000) / defaultFilm.γ) := rfl
  have d1 : defaultFilm.dark ≤ 1 / 10 := by
    have e1 : (10 : ℝ) ^ (-1 : ℝ) = 1 / 10 := by rw [Real.rpow_neg_one]; norm_num
    rw [hd, ← e1]
    refine Real.rpow_le_rpow_of_exponent_le (by norm_num) ?_
    rw [div_le_iff₀ γ0]
    linarith
  have d0 : 0 < defaultFilm.dark := by rw [hd]; exact Real.rpow_pos_of_pos (by norm_num) _
  have hg : defaultFilm.gain = (1 - 0) / (1 - defaultFilm.dark) := rfl
  refine ⟨?_, ?_, d0, d1⟩
  · rw [hg, le_div_iff₀ (by linarith)]; linarith
  · rw [hg, div_le_iff₀ (by linarith)]; linarith

/-- Ten bit codes from black on come back. -/
theorem defaultFilm_trip {x : ℝ} (h1 : 95 / 1023 ≤ x) (h2 : x ≤ 1) : Spec.FilmTrip defaultFilm x (44 / 10 ^ 6) := by
  obtain ⟨γ1, γ2⟩ := defaultFilm_gamma
  obtain ⟨G1, G2, B0, B1⟩ := defaultFilm_gain
  have γ0 : 0 < defaultFilm.γ := by linarith
  have x0 : 0 ≤ x := by linarith
  have hw : defaultFilm.white = 685 := rfl
  have hs : defaultFilm.sh = 0 := rfl
  have hP : defaultFilm.level x = 10 ^ ((1023 * x - 685) * (2 / 1000) / defaultFilm.γ) := rfl
  obtain ⟨P1, P2⟩ := ten_between (e := (1023 * x - 685) * (2 / 1000) / defaultFilm.γ) (by rw [le_div_iff₀ γ0]; linarith) (by rw [div_le_iff₀ γ0]; linarith)
  rw [← hP] at P1 P2
  have hl : defaultFilm.light x = 0 + defaultFilm.gain * (defaultFilm.level x - defaultFilm.dark) := rfl
  have lev : defaultFilm.dark ≤ defaultFilm.level x := by
    rw [hP]
    refine Real.rpow_le_rpow_of_exponent_le (by norm_num) (div_le_div_of_nonneg_right ?_ γ0.le)
    change (95 - 685 : ℝ) * (2 / 1000) ≤ _
    linarith
  have la : |defaultFilm.light x| / defaultFilm.gain ≤ defaultFilm.level x := by
    rw [hl, zero_add, abs_of_nonneg (mul_nonneg (by linarith) (by linarith)), mul_div_cancel_left₀ _ (by linarith)]
    linarith
  have st : defaultFilm.steps x ≤ 342 / 100 := by
    rw [Spec.Film.steps, abs_of_nonneg x0, div_le_iff₀ γ0]
    linarith
  have st0 : 0 ≤ defaultFilm.steps x := by unfold Spec.Film.steps; positivity
  have g2 : 2 / defaultFilm.gain ≤ 2 := by rw [div_le_iff₀ (by linarith)]; linarith
  have sp : 3 * defaultFilm.steps x * defaultFilm.level x ≤ 1026 / 100 * defaultFilm.level x := mul_le_mul_of_nonneg_right (by linarith) (by linarith)
  refine ⟨⟨?_, ?_⟩, by norm_num; linarith, ?_, ?_, ⟨by norm_num, by norm_num; linarith⟩, by linarith⟩
  · rw [hw, abs_of_nonneg x0]
    norm_num
    linarith
  · rw [hs, abs_zero]
    have : defaultFilm.gain * (defaultFilm.level x + 1) ≤ 2 * 101 := mul_le_mul G2 (by linarith) (by linarith) (by norm_num)
    norm_num
    linarith
  · rw [hs, abs_zero, add_zero]
    have e : (2 * (|defaultFilm.light x| + 2)) / defaultFilm.gain = 2 * (|defaultFilm.light x| / defaultFilm.gain) + 2 * (2 / defaultFilm.gain) := by ring
    rw [e]
    norm_num at la g2 ⊢
    linarith
  · rw [hs, abs_zero, zero_add]
    generalize defaultFilm.level x = P at *
    generalize 3 * defaultFilm.steps x * P = a at *
    generalize |defaultFilm.light x| / defaultFilm.gain = b at *
    norm_num at g2 ⊢
    linarith

/-- All images of ten bit codes from black on, with alpha, through a `logToLin` node without parameters and back: each code is right up to a quarter. -/
example (L : Arith ℝ) (hL : Spec.GoodLibrary L) (pixels : List ((Fin 3 → ℝ) × List (Flt ℝ))) (hp : ∀ p ∈ pixels, p.2.length + 3 = 4)
    (hx : ∀ p ∈ pixels, ∀ i, ∃ n : ℕ, p.1 i = n ∧ 95 ≤ n ∧ n ≤ 1023) :
    ∃ (r r' : Res ℝ) (G : Fin 3 → ℝ → ℝ),
      logProcessR ieee L [] { attrs := [("inBitDepth", .str "10i"), ("outBitDepth", .str "32f"), ("style", .str "logToLin")] } (Spec.image pixels) 4 = .ok r ∧
      logProcessR ieee L [] { attrs := [("inBitDepth", .str "32f"), ("outBitDepth", .str "10i"), ("style", .str "linToLog")] } r.out 4 = .ok r' ∧
      r'.out = Spec.image (pixels.map fun p => (fun i => G i (p.1 i), p.2)) ∧ ∀ p ∈ pixels, ∀ i, |G i (p.1 i) - p.1 i| ≤ 1 / 4 := by
  have hS : Spec.fullScale (K := ℝ) (some (.str "10i")) = 1023 := by
    have := (fullScale_bits (K := ℝ) (n := 10) (d := .str "10i") (by decide)).1
    rw [this]
    norm_num
  obtain ⟨r, r', G, h1, h2, h3, h4⟩ := C145_roundtrip L hL [] [] (by simp [Spec.GoodLetters]) (by simp [Spec.GoodLetters]) (fun _ => defaultFilm)
    (fun i => ⟨.inr ⟨rfl, rfl⟩, .inr ⟨rfl, rfl⟩, defaultFilm_usual⟩)
    { attrs := [("inBitDepth", .str "10i"), ("outBitDepth", .str "32f"), ("style", .str "logToLin")] }
    { attrs := [("inBitDepth", .str "32f"), ("outBitDepth", .str "10i"), ("style", .str "linToLog")] } (.str "10i") (.str "32f") (.str "10i")
    ⟨rfl, rfl, rfl⟩ ⟨rfl, rfl, rfl⟩ (44 / 10 ^ 6) 4 (by norm_num) pixels hp (by
      intro p hp' i
      obtain ⟨n, e, n1, n2⟩ := hx p hp' i
      have n1' : (95 : ℝ) ≤ n := by exact_mod_cast n1
      have n2' : (n : ℝ) ≤ 1023 := by exact_mod_cast n2
      rw [e, hS]
      exact ⟨isSingle_nat (by omega), defaultFilm_trip (by linarith) (by linarith)⟩)
  refine ⟨r, r', G, h1, h2, h3, fun p hp' i => ?_⟩
  obtain ⟨n, e, n1, n2⟩ := hx p hp' i
  have n1' : (95 : ℝ) ≤ n := by exact_mod_cast n1
  have n2' : (n : ℝ) ≤ 1023 := by exact_mod_cast n2
  have := (h4 p hp' i).2
  rw [hS, e, div_mul_cancel₀ _ (by norm_num), abs_of_nonneg (by positivity : (0 : ℝ) ≤ n / 1023)] at this
  rw [e]
  refine this.trans ?_
  have := defaultFilm_gamma.2
  norm_num
  linarith

/-- A `logToLin` node without parameters as a stage of a list, for codes up to twice the largest. -/
example (E : Evaluator ℝ) (hE : E.rounding = ieee) (hL : Spec.GoodLibrary E.library) :
    ∃ e B', Spec.Gauge (.tone (Spec.fullScale (some (.str "10i"))) (Spec.fullScale (some (.str "32f"))) 2 (200000 / 2 ^ 27) fun _ => defaultFilm.light) 1500
      (Spec.fullScale (some (.str "32f")) * (2000000 / Spec.fullScale (some (.str "10i")))) e B' := by
  obtain ⟨γ1, γ2⟩ := defaultFilm_gamma
  obtain ⟨G1, G2, B0, B1⟩ := defaultFilm_gain
  have γ0 : 0 < defaultFilm.γ := by linarith
  have hw : defaultFilm.white = 685 := rfl
  have hs : defaultFilm.sh = 0 := rfl
  have e5 : (10 : ℝ) ^ (5 : ℝ) = 100000 := by norm_num
  have hS : Spec.fullScale (K := ℝ) (some (.str "10i")) = 1023 := by
    have := (fullScale_bits (K := ℝ) (n := 10) (d := .str "10i") (by decide)).1
    rw [this]
    norm_num
  obtain ⟨-, h2⟩ := C145_stage E hE hL [] (by simp [Spec.GoodLetters]) (fun _ => defaultFilm) (fun i => ⟨.inr ⟨rfl, rfl⟩, defaultFilm_usual⟩)
    { attrs := [("inBitDepth", .str "10i"), ("outBitDepth", .str "32f"), ("style", .str "logToLin")] } (.str "10i") (.str "32f") ⟨rfl, rfl, rfl⟩
    2 5 200000 2000000 (fun i => ⟨by norm_num, by rw [hw]; norm_num; linarith, by rw [hw]; linarith, by norm_num, by
      rw [hs, abs_zero, e5]
      norm_num
      linarith⟩) (fun i => by
      rw [hs, abs_zero, e5]
      linarith) (by norm_num) (fun i => by
      rw [e5]
      have h1 : 5 / defaultFilm.γ ≤ 10 := by rw [div_le_iff₀ γ0]; linarith
      have h2 : 0 ≤ 5 / defaultFilm.γ := by positivity
      have h3 : defaultFilm.gain * (100000 * (5 / defaultFilm.γ)) ≤ 2 * (100000 * 10) := mul_le_mul G2 (by linarith) (by positivity) (by norm_num)
      linarith)
  obtain ⟨e, B', h3, -⟩ := h2 1500 (by rw [hS]; norm_num)
  exact ⟨e, B', h3⟩

/-- Codes to light and light to codes on their own: codes from black to the largest, light from black to white. -/
example : (∀ x : ℝ, 95 / 1023 ≤ x → x ≤ 1 → defaultFilm.Fits x) ∧ ∀ y : ℝ, 0 ≤ y → y ≤ 1 → Spec.FilmGrain defaultFilm y (1 / 1000) := by
  refine ⟨fun x h1 h2 => (defaultFilm_trip h1 h2).fits, fun y y0 y1 => ?_⟩
  obtain ⟨γ1, γ2⟩ := defaultFilm_gamma
  obtain ⟨G1, G2, B0, B1⟩ := defaultFilm_gain
  have γ0 : 0 < defaultFilm.γ := by linarith
  have hs : defaultFilm.sh = 0 := rfl
  have hd : defaultFilm.dark = 10 ^ ((95 - 685) * (2 / 1000) / defaultFilm.γ) := rfl
  have D1 := (ten_between (e := (95 - 685) * (2 / 1000) / defaultFilm.γ) (by rw [le_div_iff₀ γ0]; linarith) (by rw [div_le_iff₀ γ0]; linarith)).1
  rw [← hd] at D1
  have e0 : defaultFilm.exposure y = defaultFilm.dark + y / defaultFilm.gain := by rw [Spec.Film.exposure, hs, sub_zero]
  have q0 : 0 ≤ y / defaultFilm.gain := by positivity
  have q1 : y / defaultFilm.gain ≤ 1 := by rw [div_le_iff₀ (by linarith)]; linarith
  have q2 : (2 * (|y| + 1) + |defaultFilm.sh|) / defaultFilm.gain ≤ 4 := by
    rw [div_le_iff₀ (by linarith), hs, abs_zero, abs_of_nonneg y0]
    linarith
  refine ⟨?_, ⟨by norm_num, by linarith⟩, by linarith, ?_, ?_⟩
  · rw [e0, abs_of_nonneg y0] at *
    norm_num at q2 ⊢
    linarith
  · norm_num at q2 ⊢
    linarith
  · rw [e0]
    norm_num
    linarith

end CLF
