import Verif.Lemmas.RoundedTone

/-! # Property C137: basic gamma in IEEE arithmetic -/

set_option linter.unusedSectionVars false

namespace CLF

open Spec (RelClose)

/-- A colour of depth `d` that the power `e` keeps away from underflow and overflow; or no light at all. -/
def Spec.Handled (d : AVal) (e x : ℝ) : Prop :=
  Spec.IsSingle x ∧ (x ≤ 0 ∨ (Spec.Middle (x / Spec.fullScale (some d)) ∧ Spec.Middle ((x / Spec.fullScale (some d)) ^ e)))

/-- The exponents: Python floats between a thousandth and a thousand. -/
def Spec.GammaValue (g : ℝ) : Prop := double.near g = g ∧ 1 / 2 ^ 10 ≤ g ∧ g ≤ 2 ^ 10

theorem Spec.Middle.bounds {x m : ℝ} (h : Spec.Middle x) (hm : m = 2 ^ (-110 : ℤ)) : 1024 * m ≤ x ∧ x ≤ 2 ^ 90 ∧ 0 < x := by
  have e : 1024 * m = 2 ^ (-100 : ℤ) := by rw [hm]; norm_num
  exact ⟨e ▸ h.1, h.2, lt_of_lt_of_le (two_zpow_pos _) h.1⟩

theorem log_bound {x : ℝ} (h : Spec.Middle x) : |Real.log x| ≤ 100 := by
  have l2 : Real.log 2 ≤ 1 := by have := Real.log_le_sub_one_of_pos (x := 2) (by norm_num); linarith
  have l0 : 0 ≤ Real.log 2 := Real.log_nonneg (by norm_num)
  have hx : 0 < x := lt_of_lt_of_le (two_zpow_pos _) h.1
  have h1 := Real.log_le_log (two_zpow_pos _) h.1
  have h2 := Real.log_le_log hx h.2
  rw [Real.log_zpow] at h1
  rw [Real.log_pow] at h2
  push_cast at h1 h2
  rw [abs_le]
  constructor <;> linarith

/-- The reciprocal as it is computed. -/
theorem recip_near {g : ℝ} (h : Spec.GammaValue g) : ∃ r, divR ieee (.fin 1) (.fin g) = .ok (.fin r) ∧ double.near r = r ∧
    |r - 1 / g| ≤ 1 / g * (1 / 2 ^ 52) ∧ 0 < r ∧ r ≤ 2 ^ 11 := by
  obtain ⟨-, h1, h2⟩ := h
  have g0 : 0 < g := lt_of_lt_of_le (by positivity) h1
  have i1 : 1 / g ≤ 2 ^ 10 := by
    rw [div_le_iff₀ g0]
    norm_num at h1 ⊢
    linarith
  have i2 : 1 / 2 ^ 10 ≤ 1 / g := one_div_le_one_div_of_le g0 h2
  have i0 : 0 < 1 / g := by positivity
  have hd : ieee double (.fin (1 / g)) = .fin (double.near (1 / g)) := double_fin (by
    rw [abs_of_pos i0]
    exact i1.trans (pow_le_pow_right₀ one_le_two (by norm_num)))
  have err := double_rounder.err (1 / g)
  rw [abs_of_pos i0] at err
  have tiny : (2 : ℝ) ^ (-1075 : ℤ) ≤ 1 / g * (1 / 2 ^ 53) := by
    have a1 : (2 : ℝ) ^ (-1075 : ℤ) ≤ 2 ^ (-63 : ℤ) := zpow_le_zpow_right₀ one_le_two (by norm_num)
    have a2 : (2 : ℝ) ^ (-63 : ℤ) = 1 / 2 ^ 10 * (1 / 2 ^ 53) := by norm_num
    rw [a2] at a1
    exact a1.trans (mul_le_mul_of_nonneg_right i2 (by positivity))
  have err' : |double.near (1 / g) - 1 / g| ≤ 1 / g * (1 / 2 ^ 52) := by
    generalize (2 : ℝ) ^ (-1075 : ℤ) = η at *
    have : 1 / g * (1 / 2 ^ 52) = 1 / g * (1 / 2 ^ 53) + 1 / g * (1 / 2 ^ 53) := by ring
    linarith
  refine ⟨double.near (1 / g), ?_, Fmt.near_near _ _, err', ?_, ?_⟩
  · unfold divR
    rw [pyDivF_fin g0.ne', py_ok_bind, hd]
    rfl
  · have := (abs_le.mp err').1
    generalize 1 / g = q at *
    norm_num at this
    linarith
  · have := (abs_le.mp err').2
    generalize 1 / g = q at *
    norm_num at this i1 ⊢
    linarith

/-- No light. -/
theorem power_dark {L : Arith ℝ} (hL : Spec.GoodLibrary L) (d1 d2 : Depth) {x e : ℝ} (hx : Spec.IsSingle x) (h0 : x ≤ 0) (he : double.near e = e)
    (hp : 0 < e) : ∃ u y, ieee single (toUnitR ieee (.fin x) d1) = .fin u ∧ pyPow L (Flt.pmax (.fin 0) (.fin u)) (.fin e) = .ok y ∧
      ieee single (fromUnitR ieee (ieee single y) d2) = .fin 0 := by
  obtain ⟨u, h1, -, hu, -⟩ := unit_pos d1 hx
  refine ⟨u, .fin 0, h1, ?_, ?_⟩
  · rw [Flt.pmax_fin, max_eq_left (hu h0), pyPow_ok le_rfl (.inl hp), hL.zero e he hp]
  · have z0 : ieee single (.fin (0 : ℝ)) = .fin 0 := by
      rw [single_fin (by rw [abs_zero]; positivity), Fmt.near_zero]
    rcases fromUnitR_cases ieee (.fin (0 : ℝ)) d2 with ⟨e, -⟩ | ⟨e, -⟩
    · rw [z0, e, Flt.fin_mul, zero_mul, double_fin (by rw [abs_zero]; positivity), Fmt.near_zero, z0]
    · rw [z0, e, z0]

/-- A node whose style takes powers. -/
theorem gamma_powers {L : Arith ℝ} (hL : Spec.GoodLibrary L) (rows : List (GammaParam ℝ)) (hr : Spec.GoodLetters GammaParam.channel rows)
    (b : Base ℝ) (d1 d2 st : AVal) (h : StyledNode b d1 d2 st) (f : Flt ℝ → Flt ℝ → Flt ℝ → Py (Flt ℝ)) (hf : gammaStyleR ieee L st = some f)
    (e : Fin 3 → ℝ) (he : ∀ i, double.near (e i) = e i ∧ 0 < e i ∧ e i ≤ 2 ^ 11)
    (hfe : ∀ i u, f (Spec.gammaFor rows i).1 (Spec.gammaFor rows i).2 (.fin u) = pyPow L (Flt.pmax (.fin 0) (.fin u)) (.fin (e i)))
    {m : ℝ} (hm : m = 2 ^ (-110 : ℤ)) (stride : ℕ) (hs : 3 ≤ stride) (pixels : List ((Fin 3 → ℝ) × List (Flt ℝ)))
    (hp : ∀ p ∈ pixels, p.2.length + 3 = stride)
    (hx : ∀ p ∈ pixels, ∀ i, Spec.IsSingle (p.1 i) ∧ (p.1 i ≤ 0 ∨ (m ≤ p.1 i / Spec.fullScale (some d1) ∧
      2 * m ≤ (p.1 i / Spec.fullScale (some d1)) ^ e i ∧ (p.1 i / Spec.fullScale (some d1)) ^ e i ≤ 2 ^ 99))) :
    ∃ (r : Res ℝ) (F : Fin 3 → ℝ → ℝ), gammaProcessR ieee L rows b (Spec.image pixels) stride = .ok r ∧
      r.out = Spec.image (pixels.map fun p => (fun i => F i (p.1 i), p.2)) ∧
      ∀ p ∈ pixels, ∀ i, Spec.IsSingle (F i (p.1 i)) ∧ (p.1 i ≤ 0 → F i (p.1 i) = 0) ∧ (0 < p.1 i →
        RelClose (F i (p.1 i)) ((p.1 i / Spec.fullScale (some d1)) ^ e i * Spec.fullScale (some d2)) ((e i + 1) / 2 ^ 20)) := by
  have key : ∀ (i : Fin 3) (x : ℝ), ∃ out, Spec.IsSingle x ∧ (x ≤ 0 ∨ (m ≤ x / Spec.fullScale (some d1) ∧
      2 * m ≤ (x / Spec.fullScale (some d1)) ^ e i ∧ (x / Spec.fullScale (some d1)) ^ e i ≤ 2 ^ 99)) →
      (∃ u y, ieee single (toUnitR ieee (.fin x) (some d1)) = .fin u ∧ pyPow L (Flt.pmax (.fin 0) (.fin u)) (.fin (e i)) = .ok y ∧
        ieee single (fromUnitR ieee (ieee single y) (some d2)) = .fin out) ∧ Spec.IsSingle out ∧ (x ≤ 0 → out = 0) ∧
      (0 < x → RelClose out ((x / Spec.fullScale (some d1)) ^ e i * Spec.fullScale (some d2)) ((e i + 1) / 2 ^ 20)) := by
    intro i x
    by_cases hh : Spec.IsSingle x ∧ (x ≤ 0 ∨ (m ≤ x / Spec.fullScale (some d1) ∧
      2 * m ≤ (x / Spec.fullScale (some d1)) ^ e i ∧ (x / Spec.fullScale (some d1)) ^ e i ≤ 2 ^ 99))
    · obtain ⟨hx, h0 | ⟨a, b', c⟩⟩ := hh
      · obtain ⟨u, y, k1, k2, k3⟩ := power_dark hL (some d1) (some d2) hx h0 (he i).1 (he i).2.1
        refine ⟨0, fun _ => ⟨⟨u, y, k1, k2, k3⟩, ?_, fun _ => rfl, fun h => absurd h0 (not_le.mpr h)⟩⟩
        have z0 : ieee single (.fin (0 : ℝ)) = .fin 0 := by
          rw [single_fin (by rw [abs_zero]; positivity), Fmt.near_zero]
        exact z0
      · have ae : |e i| = e i := abs_of_pos (he i).2.1
        obtain ⟨u, y, out, k1, k2, k3, k4, k5, k6⟩ := power_channel hL hm (some d1) (some d2) hx (he i).1 (by rw [ae]; exact (he i).2.2) a ⟨b', c⟩
        rw [ae] at k6
        have hm0 : 0 < m := hm ▸ two_zpow_pos _
        have x0 : 0 < x := by
          have : 0 < x / Spec.fullScale (some d1) := lt_of_lt_of_le hm0 a
          have hS := fullScale_pos (K := ℝ) (some d1)
          rwa [div_pos_iff_of_pos_right hS] at this
        refine ⟨out, fun _ => ⟨⟨u, .fin y, k1, ?_, k4⟩, k5, fun h => absurd h (not_le.mpr x0), fun _ => k6⟩⟩
        rw [Flt.pmax_fin, max_eq_right k2.le, pyPow_ok k2.le (.inl (he i).2.1), k3]
    · exact ⟨0, fun h => absurd h hh⟩
  choose F hF using key
  obtain ⟨r, h1, h2⟩ := gammaProcessR_image ieee L rows hr b d1 d2 st h f hf stride hs pixels hp F (by
    intro p hp' i
    obtain ⟨⟨u, y, k1, k2, k3⟩, -⟩ := hF i (p.1 i) (hx p hp' i)
    exact ⟨y, by rw [k1, hfe, k2], k3⟩)
  exact ⟨r, F, h1, h2, fun p hp' i => (hF i (p.1 i) (hx p hp' i)).2⟩

theorem Spec.GammaValue.pos {g : ℝ} (h : Spec.GammaValue g) : 0 < g := lt_of_lt_of_le (by positivity) h.2.1

/-- C137: `basicFwd` in IEEE arithmetic is the power up to a small fraction of it; colours without light give 0; other channels stay. -/
theorem C137_fwd (L : Arith ℝ) (hL : Spec.GoodLibrary L) (rows : List (GammaParam ℝ)) (hr : Spec.GoodLetters GammaParam.channel rows)
    (g : Fin 3 → ℝ) (hg : ∀ i, (Spec.gammaFor rows i).1 = .fin (g i) ∧ Spec.GammaValue (g i)) (b : Base ℝ) (d1 d2 : AVal)
    (h : StyledNode b d1 d2 (.str "basicFwd")) (stride : ℕ) (hs : 3 ≤ stride) (pixels : List ((Fin 3 → ℝ) × List (Flt ℝ)))
    (hp : ∀ p ∈ pixels, p.2.length + 3 = stride) (hx : ∀ p ∈ pixels, ∀ i, Spec.Handled d1 (g i) (p.1 i)) :
    ∃ (r : Res ℝ) (F : Fin 3 → ℝ → ℝ), gammaProcessR ieee L rows b (Spec.image pixels) stride = .ok r ∧
      r.out = Spec.image (pixels.map fun p => (fun i => F i (p.1 i), p.2)) ∧
      ∀ p ∈ pixels, ∀ i, Spec.IsSingle (F i (p.1 i)) ∧ (p.1 i ≤ 0 → F i (p.1 i) = 0) ∧ (0 < p.1 i →
        RelClose (F i (p.1 i)) ((p.1 i / Spec.fullScale (some d1)) ^ g i * Spec.fullScale (some d2)) ((g i + 1) / 2 ^ 20)) := by
  obtain ⟨m, hm, hm0⟩ := exists_tiny
  refine gamma_powers hL rows hr b d1 d2 _ h _ rfl g (fun i => ⟨(hg i).2.1, (hg i).2.pos, (hg i).2.2.2.trans (by norm_num)⟩)
    (fun i u => by rw [(hg i).1]; rfl) hm stride hs pixels hp fun p hp' i => ⟨(hx p hp' i).1, (hx p hp' i).2.imp id fun ⟨a, c⟩ => ?_⟩
  have a' := a.bounds hm
  have c' := c.bounds hm
  exact ⟨by linarith [a'.1], by linarith [c'.1], c'.2.1.trans (pow_le_pow_right₀ one_le_two (by norm_num))⟩

/-- The reciprocal of an exponent, rounded, is nearly as good. -/
theorem relClose_recip {g r X : ℝ} (hg : Spec.GammaValue g) (hr : |r - 1 / g| ≤ 1 / g * (1 / 2 ^ 52)) (hX : Spec.Middle X) :
    RelClose (X ^ r) (X ^ (1 / g)) (1 / 2 ^ 34) := by
  have i1 : 1 / g ≤ 2 ^ 10 := by
    rw [div_le_iff₀ hg.pos]
    have := hg.2.1
    norm_num at this ⊢
    linarith
  have X0 : 0 < X := lt_of_lt_of_le (two_zpow_pos _) hX.1
  refine (within_exponent X0 (e := 1 / g) (e' := r) (δ := 2 ^ 10 * (1 / 2 ^ 52) * 100) ?_ (by norm_num)).mono (Real.rpow_pos_of_pos X0 _).le (by norm_num)
  rw [abs_mul]
  exact mul_le_mul (hr.trans (mul_le_mul_of_nonneg_right i1 (by positivity))) (log_bound hX) (abs_nonneg _) (by positivity)

/-- C137: `basicRev` likewise; the reciprocal of the exponent is rounded first. -/
theorem C137_rev (L : Arith ℝ) (hL : Spec.GoodLibrary L) (rows : List (GammaParam ℝ)) (hr : Spec.GoodLetters GammaParam.channel rows)
    (g : Fin 3 → ℝ) (hg : ∀ i, (Spec.gammaFor rows i).1 = .fin (g i) ∧ Spec.GammaValue (g i)) (b : Base ℝ) (d1 d2 : AVal)
    (h : StyledNode b d1 d2 (.str "basicRev")) (stride : ℕ) (hs : 3 ≤ stride) (pixels : List ((Fin 3 → ℝ) × List (Flt ℝ)))
    (hp : ∀ p ∈ pixels, p.2.length + 3 = stride) (hx : ∀ p ∈ pixels, ∀ i, Spec.Handled d1 (1 / g i) (p.1 i)) :
    ∃ (r : Res ℝ) (F : Fin 3 → ℝ → ℝ), gammaProcessR ieee L rows b (Spec.image pixels) stride = .ok r ∧
      r.out = Spec.image (pixels.map fun p => (fun i => F i (p.1 i), p.2)) ∧
      ∀ p ∈ pixels, ∀ i, Spec.IsSingle (F i (p.1 i)) ∧ (p.1 i ≤ 0 → F i (p.1 i) = 0) ∧ (0 < p.1 i →
        RelClose (F i (p.1 i)) ((p.1 i / Spec.fullScale (some d1)) ^ (1 / g i) * Spec.fullScale (some d2)) ((1 / g i + 1) / 2 ^ 19)) := by
  obtain ⟨m, hm, hm0⟩ := exists_tiny
  choose e k1 k2 k3 k4 k5 using fun i => recip_near (hg i).2
  have near : ∀ p ∈ pixels, ∀ i, 0 < p.1 i → RelClose ((p.1 i / Spec.fullScale (some d1)) ^ e i) ((p.1 i / Spec.fullScale (some d1)) ^ (1 / g i)) (1 / 2 ^ 34)
      ∧ Spec.Middle (p.1 i / Spec.fullScale (some d1)) ∧ Spec.Middle ((p.1 i / Spec.fullScale (some d1)) ^ (1 / g i)) := by
    intro p hp' i h0
    rcases (hx p hp' i).2 with h | ⟨a, c⟩
    · exact absurd h0 (not_lt.mpr h)
    · exact ⟨relClose_recip (hg i).2 (k3 i) a, a, c⟩
  have ok : ∀ p ∈ pixels, ∀ i, Spec.IsSingle (p.1 i) ∧ (p.1 i ≤ 0 ∨ (m ≤ p.1 i / Spec.fullScale (some d1) ∧
      2 * m ≤ (p.1 i / Spec.fullScale (some d1)) ^ e i ∧ (p.1 i / Spec.fullScale (some d1)) ^ e i ≤ 2 ^ 99)) := by
    intro p hp' i
    refine ⟨(hx p hp' i).1, (le_or_gt (p.1 i) 0).imp id fun h0 => ?_⟩
    obtain ⟨n1, n2, n3⟩ := near p hp' i h0
    have a' := n2.bounds hm
    have c' := n3.bounds hm
    have l := n1.lower
    have u := n1.upper
    refine ⟨by linarith [a'.1], ?_, ?_⟩
    · generalize (p.1 i / Spec.fullScale (some d1)) ^ (1 / g i) = Q at *
      norm_num at l
      linarith [c'.1]
    · have hb : (1 + 1 / 2 ^ 34) * (2 : ℝ) ^ 90 ≤ 2 ^ 99 := by norm_num
      exact (u.trans (mul_le_mul_of_nonneg_left c'.2.1 (by norm_num))).trans hb
  obtain ⟨r, F, h1, h2, h3⟩ := gamma_powers hL rows hr b d1 d2 _ h _ rfl e (fun i => ⟨k2 i, k4 i, k5 i⟩)
    (fun i u => by
      rw [(hg i).1]
      show gammaBasicRevR ieee L (.fin (g i)) (.fin u) = _
      unfold gammaBasicRevR
      rw [k1, py_ok_bind]) hm stride hs pixels hp ok
  · refine ⟨r, F, h1, h2, fun p hp' i => ⟨(h3 p hp' i).1, (h3 p hp' i).2.1, fun h0 => ?_⟩⟩
    obtain ⟨n1, n2, n3⟩ := near p hp' i h0
    have hT0 := fullScale_pos (K := ℝ) (some d2)
    have i0 := one_div_pos.mpr (hg i).2.pos
    have e2 := (abs_le.mp (k3 i)).2
    refine (((h3 p hp' i).2.2 h0).trans (n1.scale hT0.le) ?_).mono (mul_pos (n3.bounds hm).2.2 hT0).le ?_
    · have := k4 i
      positivity
    · generalize 1 / g i = q at *
      have q2 : e i ≤ q * (1 + 1 / 2 ^ 52) := by linarith
      norm_num at q2 ⊢
      linarith

/-- C137: `basicFwd`, then `basicRev`: every colour comes back up to a small fraction of it, whatever the depths. -/
theorem C137_roundtrip (L : Arith ℝ) (hL : Spec.GoodLibrary L) (rows : List (GammaParam ℝ)) (hr : Spec.GoodLetters GammaParam.channel rows)
    (g : Fin 3 → ℝ) (hg : ∀ i, (Spec.gammaFor rows i).1 = .fin (g i) ∧ Spec.GammaValue (g i)) (bf br : Base ℝ) (d1 d2 : AVal)
    (hf : StyledNode bf d1 d2 (.str "basicFwd")) (hb : StyledNode br d2 d1 (.str "basicRev")) (stride : ℕ) (hs : 3 ≤ stride)
    (pixels : List ((Fin 3 → ℝ) × List (Flt ℝ))) (hp : ∀ p ∈ pixels, p.2.length + 3 = stride)
    (hx : ∀ p ∈ pixels, ∀ i, Spec.Handled d1 (g i) (p.1 i)) :
    ∃ (r r' : Res ℝ) (G : Fin 3 → ℝ → ℝ), gammaProcessR ieee L rows bf (Spec.image pixels) stride = .ok r ∧
      gammaProcessR ieee L rows br r.out stride = .ok r' ∧
      r'.out = Spec.image (pixels.map fun p => (fun i => G i (p.1 i), p.2)) ∧
      ∀ p ∈ pixels, ∀ i, Spec.IsSingle (G i (p.1 i)) ∧ (p.1 i ≤ 0 → G i (p.1 i) = 0) ∧ (0 < p.1 i →
        RelClose (G i (p.1 i)) (p.1 i) ((1 / g i + 1) / 2 ^ 17)) := by
  obtain ⟨m, hm, hm0⟩ := exists_tiny
  obtain ⟨r, F, h1, h2, h3⟩ := C137_fwd L hL rows hr g hg bf d1 d2 hf stride hs pixels hp hx
  choose e k1 k2 k3 k4 k5 using fun i => recip_near (hg i).2
  have hT0 := fullScale_pos (K := ℝ) (some d2)
  have hS0 := fullScale_pos (K := ℝ) (some d1)
  -- what the second node sees
  have mid : ∀ p ∈ pixels, ∀ i, 0 < p.1 i → RelClose ((F i (p.1 i) / Spec.fullScale (some d2)) ^ e i) (p.1 i / Spec.fullScale (some d1)) (5 * ((1 / g i + 1) / 2 ^ 20)) ∧
      Spec.Middle (p.1 i / Spec.fullScale (some d1)) ∧ m ≤ F i (p.1 i) / Spec.fullScale (some d2) := by
    intro p hp' i h0
    rcases (hx p hp' i).2 with h | ⟨a, c⟩
    · exact absurd h0 (not_lt.mpr h)
    set X := p.1 i / Spec.fullScale (some d1) with hX
    have X0 : 0 < X := (a.bounds hm).2.2
    have P0 : 0 < X ^ g i := (c.bounds hm).2.2
    have g0 := (hg i).2.pos
    have g2 := (hg i).2.2.2
    have w1 : RelClose (F i (p.1 i) / Spec.fullScale (some d2)) (X ^ g i) ((g i + 1) / 2 ^ 20) := by
      have := ((h3 p hp' i).2.2 h0).scale (inv_pos.mpr hT0).le
      rwa [mul_assoc, mul_inv_cancel₀ hT0.ne', mul_one, ← div_eq_mul_inv] at this
    have ε1 : (g i + 1) / 2 ^ 20 ≤ 1 / 2 ^ 9 := by
      rw [div_le_iff₀ (by positivity)]
      norm_num at g2 ⊢
      linarith
    have ge : g i * (1 / g i) = 1 := mul_one_div_cancel g0.ne'
    have i0 := one_div_pos.mpr g0
    have i1 : 1 / g i ≤ 2 ^ 10 := by
      rw [div_le_iff₀ g0]
      have := (hg i).2.2.1
      norm_num at this ⊢
      linarith
    have e1 : e i ≤ 1 / g i * (1 + 1 / 2 ^ 52) := by
      have := (abs_le.mp (k3 i)).2
      linarith
    have w2 := w1.pow P0 (ε1.trans (by norm_num)) (e i)
    have be : |e i| * ((g i + 1) / 2 ^ 20) ≤ (1 + 1 / 2 ^ 52) * ((1 / g i + 1) / 2 ^ 20) := by
      rw [abs_of_pos (k4 i)]
      have := mul_le_mul_of_nonneg_right e1 (by positivity : 0 ≤ (g i + 1) / 2 ^ 20)
      refine this.trans (le_of_eq ?_)
      have e : 1 / g i * (1 + 1 / 2 ^ 52) * ((g i + 1) / 2 ^ 20) = (1 + 1 / 2 ^ 52) * ((g i * (1 / g i) + 1 / g i) / 2 ^ 20) := by ring
      rw [e, ge]
      ring
    have w2' := w2 (be.trans (by
      generalize 1 / g i = q at *
      norm_num at i1 ⊢
      linarith))
    have w3 : RelClose ((X ^ g i) ^ e i) X (1 / 2 ^ 34) := by
      have h' : RelClose ((X ^ g i) ^ e i) ((X ^ g i) ^ (1 / g i)) (1 / 2 ^ 34) := relClose_recip (hg i).2 (k3 i) c
      rwa [← Real.rpow_mul X0.le (g i) (1 / g i), ge, Real.rpow_one] at h'
    refine ⟨(w2'.trans w3 (by positivity)).mono X0.le ?_, a, ?_⟩
    · generalize 1 / g i = q at *
      generalize |e i| * ((g i + 1) / 2 ^ 20) = ε at *
      norm_num at be i1 ⊢
      linarith
    · have := w1.lower
      have h5 := mul_le_mul_of_nonneg_right (by norm_num at ε1 ⊢; linarith : (1 / 2 : ℝ) ≤ 1 - (g i + 1) / 2 ^ 20) P0.le
      linarith [(c.bounds hm).1]
  have εb : ∀ i, (1 / g i + 1) / 2 ^ 20 ≤ 1 / 2 ^ 9 := by
    intro i
    have g0 := (hg i).2.pos
    have i1 : 1 / g i ≤ 2 ^ 10 := by
      rw [div_le_iff₀ g0]
      have := (hg i).2.2.1
      norm_num at this ⊢
      linarith
    rw [div_le_iff₀ (by positivity)]
    generalize 1 / g i = q at *
    norm_num at i1 ⊢
    linarith
  have pos : ∀ p ∈ pixels, ∀ i, 0 < p.1 i → 0 < F i (p.1 i) := fun p hp' i h0 => by
    have := (mid p hp' i h0).2.2
    have h4 : 0 < F i (p.1 i) / Spec.fullScale (some d2) := by linarith
    rwa [div_pos_iff_of_pos_right hT0] at h4
  obtain ⟨r', F', h4, h5, h6⟩ := gamma_powers hL rows hr br d2 d1 _ hb _ rfl e (fun i => ⟨k2 i, k4 i, k5 i⟩)
    (fun i u => by
      rw [(hg i).1]
      show gammaBasicRevR ieee L (.fin (g i)) (.fin u) = _
      unfold gammaBasicRevR
      rw [k1, py_ok_bind]) hm stride hs (pixels.map fun p => (fun i => F i (p.1 i), p.2)) (by
      intro q hq
      obtain ⟨p, hp', rfl⟩ := List.mem_map.mp hq
      exact hp p hp') (by
      intro q hq i
      obtain ⟨p, hp', rfl⟩ := List.mem_map.mp hq
      refine ⟨(h3 p hp' i).1, (le_or_gt (p.1 i) 0).imp (fun h => ((h3 p hp' i).2.1 h).le) fun h0 => ?_⟩
      obtain ⟨n1, n2, n3⟩ := mid p hp' i h0
      have n2' := n2.bounds hm
      have l := n1.lower
      have u := n1.upper
      have ε := εb i
      refine ⟨n3, ?_, ?_⟩
      · have := mul_le_mul_of_nonneg_right (by norm_num at ε ⊢; linarith : (1 / 2 : ℝ) ≤ 1 - 5 * ((1 / g i + 1) / 2 ^ 20)) n2'.2.2.le
        simp only
        linarith [n2'.1]
      · have := mul_le_mul_of_nonneg_right (by norm_num at ε ⊢; linarith : 1 + 5 * ((1 / g i + 1) / 2 ^ 20) ≤ (2 : ℝ)) n2'.2.2.le
        simp only
        have hb : 2 * (2 : ℝ) ^ 90 ≤ 2 ^ 99 := by norm_num
        linarith [n2'.2.1])
  refine ⟨r, r', fun i x => F' i (F i x), h1, by rw [h2]; exact h4, by rw [h5, List.map_map]; rfl, fun p hp' i => ?_⟩
  obtain ⟨a1, a2, a3⟩ := h6 _ (List.mem_map.mpr ⟨p, hp', rfl⟩) i
  refine ⟨a1, fun h => a2 ((h3 p hp' i).2.1 h).le, fun h0 => ?_⟩
  obtain ⟨n1, n2, n3⟩ := mid p hp' i h0
  have := (a3 (pos p hp' i h0)).trans (n1.scale hS0.le) (by have := k4 i; positivity)
  rw [div_mul_cancel₀ _ hS0.ne'] at this
  refine this.mono h0.le ?_
  have ε := εb i
  have e1 : e i ≤ 1 / g i * (1 + 1 / 2 ^ 52) := by
    have := (abs_le.mp (k3 i)).2
    linarith
  have e0 : (e i + 1) / 2 ^ 20 * (1 + 5 * ((1 / g i + 1) / 2 ^ 20)) ≤ (e i + 1) / 2 ^ 20 * 2 :=
    mul_le_mul_of_nonneg_left (by norm_num at ε ⊢; linarith) (by have := k4 i; positivity)
  have i0 := one_div_pos.mpr (hg i).2.pos
  refine (add_le_add_left e0 _).trans ?_
  generalize 1 / g i = q at *
  norm_num at e1 ⊢
  linarith

/-! ## Examples -/

/-- Gamma 2, there and back, on ten bit pixels with alpha. -/
example : ∃ (r r' : Res ℝ) (G : Fin 3 → ℝ → ℝ),
    gammaProcessR ieee realArith [⟨.fin 2, .fin 0, none⟩] { attrs := [("inBitDepth", .str "10i"), ("outBitDepth", .str "32f"), ("style", .str "basicFwd")] }
      (Spec.image [(fun i : Fin 3 => 100 * i, [.fin 7])]) 4 = .ok r ∧
    gammaProcessR ieee realArith [⟨.fin 2, .fin 0, none⟩] { attrs := [("inBitDepth", .str "32f"), ("outBitDepth", .str "10i"), ("style", .str "basicRev")] }
      r.out 4 = .ok r' ∧
    r'.out = Spec.image [(fun i => G i (100 * i), [.fin 7])] ∧ G 0 0 = 0 ∧ |G 1 100 - 100| ≤ 1 / 100 ∧ |G 2 200 - 200| ≤ 1 / 100 := by
  have h2 : Spec.GammaValue 2 := ⟨by simpa using double_nat (K := ℝ) 2 (by norm_num), by norm_num, by norm_num⟩
  have hS : Spec.fullScale (K := ℝ) (some (.str "10i")) = 1023 := by
    have := (fullScale_bits (K := ℝ) (n := 10) (d := .str "10i") (by decide)).1
    rw [this]
    norm_num
  obtain ⟨r, r', G, h1, h3, h4, h5⟩ := C137_roundtrip realArith realArith_real.good [⟨.fin 2, .fin 0, none⟩] (by intro p hp; simp at hp; subst hp; simp)
    (fun _ => 2) (fun i => ⟨by fin_cases i <;> rfl, h2⟩)
    { attrs := [("inBitDepth", .str "10i"), ("outBitDepth", .str "32f"), ("style", .str "basicFwd")] }
    { attrs := [("inBitDepth", .str "32f"), ("outBitDepth", .str "10i"), ("style", .str "basicRev")] } (.str "10i") (.str "32f")
    ⟨rfl, rfl, rfl⟩ ⟨rfl, rfl, rfl⟩ 4 (by norm_num) [(fun i : Fin 3 => 100 * i, [.fin 7])] (by simp) (by
      intro p hp i
      rw [List.mem_singleton] at hp
      subst hp
      refine ⟨?_, ?_⟩
      · have : ((100 * i.1 : ℕ) : ℝ) = 100 * (i : ℕ) := by push_cast; rfl
        simp only
        rw [← this]
        exact isSingle_nat (by omega)
      · unfold Spec.Middle
        simp only [hS, Real.rpow_two]
        fin_cases i
        · left; norm_num
        · right; norm_num
        · right; norm_num)
  have e := h5 _ (List.mem_singleton.mpr rfl)
  refine ⟨r, r', G, h1, h3, h4, ?_, ?_, ?_⟩
  · simpa using (e 0).2.1 (by simp)
  · have := (e 1).2.2 (by simp)
    unfold RelClose at this
    norm_num at this ⊢
    linarith
  · have := (e 2).2.2 (by simp)
    unfold RelClose at this
    norm_num at this ⊢
    linarith

end CLF
