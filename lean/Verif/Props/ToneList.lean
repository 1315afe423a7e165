import Verif.Props.RoundedList
import Verif.Props.RoundedGamma
import Verif.Props.RoundedLog
import Verif.Lemmas.RoundedHalf
import Mathlib.Analysis.SpecialFunctions.Pow.Deriv
import Mathlib.Analysis.Calculus.MeanValue
import Mathlib.Analysis.Complex.ExponentialBounds

/-! # Property C133, continued: Gamma and Log nodes in lists -/

set_option linter.unusedSectionVars false

namespace CLF

/-- Powers as the program takes them. -/
theorem power_near {L : Arith ℝ} (hL : Spec.GoodLibrary L) {g D : ℝ} (hg : double.near g = g) (g0 : 0 < g) (hD : 1 ≤ D) (hB : D ^ g ≤ 2 ^ 900) {u : ℝ}
    (su : double.near u = u) (hu : |u| ≤ D) : ∃ w, pyPow L (Flt.pmax (.fin 0) (.fin u)) (.fin g) = .ok (.fin w) ∧ |w - max 0 u ^ g| ≤ D ^ g / 2 ^ 49 := by
  have hP : 1 ≤ D ^ g := Real.one_le_rpow hD g0.le
  rcases le_or_gt u 0 with h | h
  · refine ⟨0, ?_, ?_⟩
    · rw [Flt.pmax_fin, max_eq_left h, pyPow_ok le_rfl (.inl g0), hL.zero g hg g0]
    · simp only [max_eq_left h, Real.zero_rpow g0.ne', sub_self, abs_zero]
      positivity
  · have hle : u ^ g ≤ D ^ g := Real.rpow_le_rpow h.le ((le_abs_self u).trans hu) g0.le
    obtain ⟨w, h1, h2⟩ := hL.pow u g su hg h (hle.trans hB)
    refine ⟨w, ?_, ?_⟩
    · rw [Flt.pmax_fin, max_eq_right h.le, pyPow_ok h.le (.inl g0), h1]
    · simp only [max_eq_right h.le]
      have tiny : (2 : ℝ) ^ (-1000 : ℤ) ≤ 2 ^ (-50 : ℤ) := zpow_le_zpow_right₀ one_le_two (by norm_num)
      have e : (2 : ℝ) ^ (-50 : ℤ) = 1 / 2 ^ 50 := by norm_num
      rw [e] at tiny
      refine h2.trans ?_
      generalize (2 : ℝ) ^ (-1000 : ℤ) = η at *
      norm_num at tiny ⊢
      linarith

theorem toneNear_power {L : Arith ℝ} (hL : Spec.GoodLibrary L) {g D : ℝ} (hg : double.near g = g) (g0 : 0 < g) (hD : 1 ≤ D) (hB : D ^ g ≤ 2 ^ 900) :
    Spec.ToneNear (fun x => pyPow L (Flt.pmax (.fin 0) x) (.fin g)) (fun x => max 0 x ^ g) D (D ^ g / 2 ^ 49) :=
  fun _ su hu => power_near hL hg g0 hD hB su.double hu

/-- Powers of at least 1 are gentle. -/
theorem toneBounds_power {g D : ℝ} (hg : 1 ≤ g) (hD : 0 ≤ D) : Spec.ToneBounds (fun x => max 0 x ^ g) D (g * D ^ (g - 1)) (D ^ g) where
  nonneg := mul_nonneg (by linarith) (Real.rpow_nonneg hD _)
  size x hx := by
    have h0 : 0 ≤ max 0 x := le_max_left _ _
    rw [abs_of_nonneg (Real.rpow_nonneg h0 _)]
    exact Real.rpow_le_rpow h0 (max_le hD ((le_abs_self x).trans hx)) (by linarith)
  close x y hx hy := by
    have mem : ∀ {z}, |z| ≤ D → max 0 z ∈ Set.Icc 0 D := fun hz => ⟨le_max_left _ _, max_le hD ((le_abs_self _).trans hz)⟩
    have := Convex.norm_image_sub_le_of_norm_deriv_le (f := fun x : ℝ => x ^ g) (s := Set.Icc 0 D) (C := g * D ^ (g - 1)) (x := max 0 y) (y := max 0 x)
      (fun z _ => (Real.hasDerivAt_rpow_const (.inr hg)).differentiableAt) (fun z hz => by
        rw [(Real.hasDerivAt_rpow_const (.inr hg)).deriv, Real.norm_eq_abs, abs_mul, abs_of_nonneg (by linarith : (0 : ℝ) ≤ g),
          abs_of_nonneg (Real.rpow_nonneg hz.1 _)]
        exact mul_le_mul_of_nonneg_left (Real.rpow_le_rpow hz.1 hz.2 (by linarith)) (by linarith))
      (convex_Icc 0 D) (mem hy) (mem hx)
    simp only [Real.norm_eq_abs] at this
    refine this.trans (mul_le_mul_of_nonneg_left ?_ (mul_nonneg (by linarith) (Real.rpow_nonneg hD _)))
    have h := abs_max_sub_max_le_abs x y 0
    rwa [max_comm x, max_comm y] at h

/-- Powers of a base as the program takes them. -/
theorem toneNear_antilog {L : Arith ℝ} (hL : Spec.GoodLibrary L) {β D : ℝ} (hβ : double.near β = β) (h1 : 1 ≤ β) (hD : 0 ≤ D) (hB : β ^ D ≤ 2 ^ 900) :
    Spec.ToneNear (fun x => .ok (L.pow (.fin β) x)) (fun x => β ^ x) D (β ^ D / 2 ^ 49) := by
  intro u su hu
  have hP : 1 ≤ β ^ D := Real.one_le_rpow h1 hD
  have hle : β ^ u ≤ β ^ D := Real.rpow_le_rpow_of_exponent_le h1 ((le_abs_self u).trans hu)
  obtain ⟨w, k1, k2⟩ := hL.pow β u hβ su.double (by linarith) (hle.trans hB)
  refine ⟨w, by simp only [k1], k2.trans ?_⟩
  have tiny : (2 : ℝ) ^ (-1000 : ℤ) ≤ 2 ^ (-50 : ℤ) := zpow_le_zpow_right₀ one_le_two (by norm_num)
  have e : (2 : ℝ) ^ (-50 : ℤ) = 1 / 2 ^ 50 := by norm_num
  rw [e] at tiny
  generalize (2 : ℝ) ^ (-1000 : ℤ) = η at *
  norm_num at tiny ⊢
  linarith

/-- Powers of a base are gentle between `-D` and `D`. -/
theorem toneBounds_antilog {β D : ℝ} (h1 : 1 ≤ β) : Spec.ToneBounds (fun x => β ^ x) D (β ^ D * Real.log β) (β ^ D) where
  nonneg := mul_nonneg (Real.rpow_nonneg (by linarith) _) (Real.log_nonneg h1)
  size x hx := by
    rw [abs_of_nonneg (Real.rpow_nonneg (by linarith) _)]
    exact Real.rpow_le_rpow_of_exponent_le h1 ((le_abs_self x).trans hx)
  close x y hx hy := by
    have hβ : 0 < β := by linarith
    have hd : ∀ z, HasDerivAt (fun x : ℝ => β ^ x) (β ^ z * Real.log β) z := fun z => Real.hasStrictDerivAt_const_rpow hβ z |>.hasDerivAt
    have := Convex.norm_image_sub_le_of_norm_deriv_le (f := fun x : ℝ => β ^ x) (s := Set.Icc (-D) D) (C := β ^ D * Real.log β) (x := y) (y := x)
      (fun z _ => (hd z).differentiableAt) (fun z hz => by
        rw [(hd z).deriv, Real.norm_eq_abs, abs_of_nonneg (mul_nonneg (Real.rpow_nonneg hβ.le _) (Real.log_nonneg h1))]
        exact mul_le_mul_of_nonneg_right (Real.rpow_le_rpow_of_exponent_le h1 hz.2) (Real.log_nonneg h1))
      (convex_Icc (-D) D) (abs_le.mp hy) (abs_le.mp hx)
    simpa [Real.norm_eq_abs] using this

/-- C133: a Gamma node of style `basicFwd` whose exponents are at least 1 is a stage of a list. -/
theorem C133_gamma (E : Evaluator ℝ) (hE : E.rounding = ieee) (hL : Spec.GoodLibrary E.library) (rows : List (GammaParam ℝ))
    (hr : Spec.GoodLetters GammaParam.channel rows) (g : Fin 3 → ℝ)
    (hg : ∀ i, (Spec.gammaFor rows i).1 = .fin (g i) ∧ double.near (g i) = g i ∧ 1 ≤ g i) (b : Base ℝ) (d1 d2 : AVal)
    (h : StyledNode b d1 d2 (.str "basicFwd")) (G D : ℝ) (hG : ∀ i, g i ≤ G) (hD : 1 ≤ D) (hB : D ^ G ≤ 2 ^ 89) :
    Implements E (.leaf (.gamma rows) b) (.tone (Spec.fullScale (some d1)) (Spec.fullScale (some d2)) D (D ^ G / 2 ^ 49) fun i x => max 0 x ^ g i) ∧
    ∀ B, B / Spec.fullScale (some d1) * (1 + 1 / 2 ^ 23) + 1 / 2 ^ 100 ≤ D →
      ∃ l e B', Spec.Gauge (.tone (Spec.fullScale (some d1)) (Spec.fullScale (some d2)) D (D ^ G / 2 ^ 49) fun i x => max 0 x ^ g i) B l e B' ∧
        l = Spec.fullScale (some d2) * (G * D ^ G / Spec.fullScale (some d1)) ∧ e ≤ Spec.fullScale (some d2) * ((G + 2) * D ^ G * D / 2 ^ 22) ∧
        B' ≤ Spec.fullScale (some d2) * (4 * D ^ G) := by
  have hle : ∀ i, D ^ g i ≤ D ^ G := fun i => Real.rpow_le_rpow_of_exponent_le hD (hG i)
  have hP : 1 ≤ D ^ G := Real.one_le_rpow hD (by have := (hg 0).2.2; linarith [hG 0])
  have hS := fullScale_pos (K := ℝ) (some d1)
  have hT := fullScale_pos (K := ℝ) (some d2)
  have G1 : 1 ≤ G := (hg 0).2.2.trans (hG 0)
  refine ⟨.gamma h hr rfl (by linarith) (by positivity) fun i => ?_, fun B hBD => ⟨_, _, _, .tone (k := G * D ^ G) (C := D ^ G) (fun i => ?_) hBD ?_, rfl, ?_, ?_⟩⟩
  · intro u su hu
    obtain ⟨w, h1, h2⟩ := toneNear_power hL (hg i).2.1 (by linarith [(hg i).2.2]) hD ((hle i).trans (hB.trans (pow_le_pow_right₀ one_le_two (by norm_num)))) u su hu
    refine ⟨w, ?_, h2.trans (div_le_div_of_nonneg_right (hle i) (by positivity))⟩
    rw [(hg i).1]
    exact h1
  · have tb := toneBounds_power (D := D) (hg i).2.2 (by linarith)
    have hk : g i * D ^ (g i - 1) ≤ G * D ^ G :=
      mul_le_mul (hG i) (Real.rpow_le_rpow_of_exponent_le hD (by linarith [hG i])) (Real.rpow_nonneg (by linarith) _) (by linarith)
    exact ⟨tb.nonneg.trans hk, fun x hx => (tb.size x hx).trans (hle i),
      fun x y hx hy => (tb.close x y hx hy).trans (mul_le_mul_of_nonneg_right hk (abs_nonneg _))⟩
  · have : (2 : ℝ) ^ 90 = 2 * 2 ^ 89 := by norm_num
    generalize D ^ G = P at *
    rw [this]
    generalize (2 : ℝ) ^ 89 = M at *
    norm_num
    linarith
  · refine mul_le_mul_of_nonneg_left ?_ hT.le
    have b1 : B / Spec.fullScale (some d1) ≤ D - 1 / 2 ^ 100 := by
      rcases le_or_gt 0 (B / Spec.fullScale (some d1)) with h | h
      · norm_num at hBD ⊢
        linarith
      · norm_num
        linarith
    have b2 : B / Spec.fullScale (some d1) / 2 ^ 23 + 1 / 2 ^ 140 ≤ D / 2 ^ 23 := by
      norm_num at b1 ⊢
      linarith
    have b3 : G * D ^ G * (B / Spec.fullScale (some d1) / 2 ^ 23 + 1 / 2 ^ 140) ≤ G * D ^ G * (D / 2 ^ 23) :=
      mul_le_mul_of_nonneg_left b2 (by positivity)
    have b4 : D ^ G ≤ D ^ G * D := le_mul_of_one_le_right (by linarith) hD
    have b5 : 0 ≤ G * D ^ G * D := by positivity
    have e : (G + 2) * D ^ G * D / 2 ^ 22 = G * D ^ G * D / 2 ^ 22 + D ^ G * D / 2 ^ 21 := by ring
    have e' : G * D ^ G * (D / 2 ^ 23) = G * D ^ G * D / 2 ^ 23 := by ring
    rw [e]
    rw [e'] at b3
    generalize G * D ^ G * D = q at *
    generalize G * D ^ G * (B / Spec.fullScale (some d1) / 2 ^ 23 + 1 / 2 ^ 140) = q1 at *
    generalize D ^ G * D = q2 at *
    generalize D ^ G = q3 at *
    norm_num at b3 ⊢
    linarith
  · refine mul_le_mul_of_nonneg_left ?_ hT.le
    generalize D ^ G = P at *
    norm_num
    linarith

/-- C133: so is a Log node of style `antiLog10` or `antiLog2`. -/
theorem C133_antilog (E : Evaluator ℝ) (hE : E.rounding = ieee) (hL : Spec.GoodLibrary E.library) (st : String) (β : ℝ) (hst : Spec.AntiLogOf st β)
    (rows : List (LogParam ℝ)) (hr : Spec.GoodLetters LogParam.channel rows) (b : Base ℝ) (d1 d2 : AVal) (h : StyledNode b d1 d2 (.str st)) (D : ℝ)
    (hD : 1 ≤ D) (hB : β ^ D ≤ 2 ^ 89) :
    Implements E (.leaf (.log rows) b) (.tone (Spec.fullScale (some d1)) (Spec.fullScale (some d2)) D (β ^ D / 2 ^ 49) fun _ x => β ^ x) ∧
    ∀ B, B / Spec.fullScale (some d1) * (1 + 1 / 2 ^ 23) + 1 / 2 ^ 100 ≤ D →
      ∃ l e B', Spec.Gauge (.tone (Spec.fullScale (some d1)) (Spec.fullScale (some d2)) D (β ^ D / 2 ^ 49) fun _ x => β ^ x) B l e B' ∧
        l = Spec.fullScale (some d2) * (3 * β ^ D / Spec.fullScale (some d1)) ∧ e ≤ Spec.fullScale (some d2) * ((3 * D + 2) * β ^ D / 2 ^ 22) ∧
        B' ≤ Spec.fullScale (some d2) * (4 * β ^ D) := by
  obtain ⟨fwd, hβ⟩ := hst.base hL
  obtain ⟨f, hf, hv⟩ := hβ.anti
  have β1 : 1 ≤ β := by linarith [hβ.two_le]
  have hP : 1 ≤ β ^ D := Real.one_le_rpow β1 (by linarith)
  have hS := fullScale_pos (K := ℝ) (some d1)
  have hT := fullScale_pos (K := ℝ) (some d2)
  have hlog : Real.log β ≤ 3 := by
    have h1 : Real.log β ≤ Real.log (2 ^ 4) := Real.log_le_log (by linarith) (by have := hβ.le_ten; norm_num; linarith)
    rw [Real.log_pow] at h1
    have := Real.log_two_lt_d9
    push_cast at h1
    linarith
  refine ⟨.log h hr (hE ▸ hf) (by linarith) (by positivity) fun i u su hu => ?_, fun B hBD => ⟨_, _, _, .tone (k := 3 * β ^ D) (C := β ^ D) (fun i => ?_) hBD ?_, rfl, ?_, ?_⟩⟩
  · rw [hv]
    exact toneNear_antilog hL hβ.isDouble β1 (by linarith) (hB.trans (pow_le_pow_right₀ one_le_two (by norm_num))) u su hu
  · have tb := toneBounds_antilog (D := D) β1
    have hk : β ^ D * Real.log β ≤ 3 * β ^ D := by
      rw [mul_comm 3]
      exact mul_le_mul_of_nonneg_left hlog (by linarith)
    exact ⟨tb.nonneg.trans hk, tb.size, fun x y hx hy => (tb.close x y hx hy).trans (mul_le_mul_of_nonneg_right hk (abs_nonneg _))⟩
  · have : (2 : ℝ) ^ 90 = 2 * 2 ^ 89 := by norm_num
    generalize β ^ D = P at *
    rw [this]
    generalize (2 : ℝ) ^ 89 = M at *
    norm_num
    linarith
  · refine mul_le_mul_of_nonneg_left ?_ hT.le
    have b1 : B / Spec.fullScale (some d1) ≤ D - 1 / 2 ^ 100 := by
      rcases le_or_gt 0 (B / Spec.fullScale (some d1)) with h | h
      · norm_num at hBD ⊢
        linarith
      · norm_num at hBD ⊢
        linarith
    have b2 : B / Spec.fullScale (some d1) / 2 ^ 23 + 1 / 2 ^ 140 ≤ D / 2 ^ 23 := by
      norm_num at b1 ⊢
      linarith
    have b3 : 3 * β ^ D * (B / Spec.fullScale (some d1) / 2 ^ 23 + 1 / 2 ^ 140) ≤ 3 * β ^ D * (D / 2 ^ 23) :=
      mul_le_mul_of_nonneg_left b2 (by positivity)
    have b5 : 0 ≤ D * β ^ D := by positivity
    have e : (3 * D + 2) * β ^ D / 2 ^ 22 = 3 * (D * β ^ D) / 2 ^ 22 + β ^ D / 2 ^ 21 := by ring
    have e' : 3 * β ^ D * (D / 2 ^ 23) = 3 * (D * β ^ D) / 2 ^ 23 := by ring
    rw [e]
    rw [e'] at b3
    generalize D * β ^ D = q at *
    generalize 3 * β ^ D * (B / Spec.fullScale (some d1) / 2 ^ 23 + 1 / 2 ^ 140) = q1 at *
    generalize β ^ D = q3 at *
    norm_num at b3 ⊢
    linarith
  · refine mul_le_mul_of_nonneg_left ?_ hT.le
    generalize β ^ D = P at *
    norm_num
    linarith

/-- Exposure, contrast and pivot as they are dealt with here: Python floats; the contrast between 1 and 1000. -/
structure Spec.ExposureValues (e c p D : ℝ) : Prop where
  isDouble : double.near e = e ∧ double.near c = c ∧ double.near p = p
  exposure : |e| ≤ 100
  contrast : 1 ≤ c ∧ c ≤ 1000
  pivot : 0 < p ∧ p ≤ 2 ^ 100
  large : 1 ≤ D ∧ D ≤ 2 ^ 100 ∧ p ≤ 2 ^ e * D

theorem two_rpow_bounds {e : ℝ} (h : |e| ≤ 100) : 1 / 2 ^ 100 ≤ (2 : ℝ) ^ e ∧ (2 : ℝ) ^ e ≤ 2 ^ 100 := by
  obtain ⟨h1, h2⟩ := abs_le.mp h
  constructor
  · have := Real.rpow_le_rpow_of_exponent_le (one_le_two (α := ℝ)) h1
    rw [Real.rpow_neg (by norm_num)] at this
    have e : (2 : ℝ) ^ (100 : ℝ) = 2 ^ 100 := by exact_mod_cast Real.rpow_natCast 2 100
    rw [e, ← one_div] at this
    exact this
  · have := Real.rpow_le_rpow_of_exponent_le (one_le_two (α := ℝ)) h2
    have e : (2 : ℝ) ^ (100 : ℝ) = 2 ^ 100 := by exact_mod_cast Real.rpow_natCast 2 100
    rwa [e] at this

/-- Exposure and contrast as the program computes them. -/
theorem toneNear_exposure {L : Arith ℝ} (hL : Spec.GoodLibrary L) {e c p D A : ℝ} (hv : Spec.ExposureValues e c p D) (hA : A = 2 ^ e * D / p)
    (hB : p * (2 * A) ^ c ≤ 2 ^ 88) (hB' : (2 * A) ^ c ≤ 2 ^ 800) :
    Spec.ToneNear (ecTone ieee L (.fin e) (.fin c) (.fin p)) (fun x => p * max 0 (2 ^ e * x / p) ^ c) D (p * ((c + 1) * (2 * A) ^ c / 2 ^ 46)) := by
  intro u su hu
  obtain ⟨⟨de, dc, dp⟩, he, ⟨hc, -⟩, ⟨hp, hp'⟩, hD, hD', hpE⟩ := hv
  obtain ⟨hE1, hE2⟩ := two_rpow_bounds he
  have hE0 : (0 : ℝ) < 2 ^ e := Real.rpow_pos_of_pos (by norm_num) _
  obtain ⟨g, g1, g2⟩ := hL.pow 2 e (by simpa using double_nat (K := ℝ) 2 (by norm_num)) de (by norm_num)
    (hE2.trans (pow_le_pow_right₀ one_le_two (by norm_num)))
  have tiny : (2 : ℝ) ^ (-1000 : ℤ) ≤ 1 / 2 ^ 100 * (1 / 2 ^ 100) := by
    refine (zpow_le_zpow_right₀ one_le_two (by norm_num : (-1000 : ℤ) ≤ -200)).trans (le_of_eq ?_)
    norm_num
  have tiny' : (2 : ℝ) ^ (-1075 : ℤ) ≤ 1 / 2 ^ 100 * (1 / 2 ^ 100) := (zpow_le_zpow_right₀ one_le_two (by norm_num)).trans tiny
  generalize (2 : ℝ) ^ e = E at *
  have A1 : 1 ≤ A := by rw [hA, le_div_iff₀ hp]; linarith
  have A0 : 0 < A := by linarith
  obtain ⟨M, hM⟩ : ∃ M, M = E * D := ⟨_, rfl⟩
  rw [← hM] at hA hpE
  have hM1 : 1 / 2 ^ 100 ≤ M := by
    rw [hM]
    exact hE1.trans (le_mul_of_one_le_right hE0.le hD)
  have hM2 : M ≤ 2 ^ 200 := by
    rw [hM, show (2 : ℝ) ^ 200 = 2 ^ 100 * 2 ^ 100 by norm_num]
    exact mul_le_mul hE2 hD' (by linarith) (by positivity)
  have M0 : 0 < M := lt_of_lt_of_le (by positivity) hM1
  obtain ⟨P, hP⟩ : ∃ P, P = (2 * A) ^ c := ⟨_, rfl⟩
  have AP : 2 * A ≤ P := by
    rw [hP]
    have := Real.rpow_le_rpow_of_exponent_le (by linarith : 1 ≤ 2 * A) hc
    rwa [Real.rpow_one] at this
  have pP : 2 * M ≤ p * P := by
    have := mul_le_mul_of_nonneg_left AP hp.le
    rw [hA] at this
    calc 2 * M = p * (2 * (M / p)) := by field_simp
      _ ≤ _ := this
  obtain ⟨κ, hκ⟩ : ∃ κ : ℝ, κ = 1 / 2 ^ 100 := ⟨_, rfl⟩
  rw [← hκ] at tiny tiny' hE1 hM1
  have κ0 : 0 < κ := by rw [hκ]; positivity
  have κs : κ ≤ 1 / 2 ^ 60 := by rw [hκ]; norm_num
  have tM : κ * κ ≤ M / 2 ^ 60 := by
    rw [div_eq_mul_one_div]
    exact mul_le_mul hM1 κs κ0.le M0.le
  have tE : κ * κ ≤ E / 2 ^ 60 := by
    rw [div_eq_mul_one_div]
    exact mul_le_mul hE1 κs κ0.le hE0.le
  generalize (2 : ℝ) ^ (-1000 : ℤ) = τ at *
  have σs : (2 : ℝ) ^ (-1075 : ℤ) ≤ 1 / 2 ^ 60 := by
    refine (zpow_le_zpow_right₀ one_le_two (by norm_num : (-1075 : ℤ) ≤ -60)).trans (le_of_eq ?_)
    norm_num
  obtain ⟨σ, hσ⟩ : ∃ σ : ℝ, σ = 2 ^ (-1075 : ℤ) := ⟨_, rfl⟩
  rw [← hσ] at tiny' σs
  -- the gain
  have gE : |g - E| ≤ E / 2 ^ 49 := by
    norm_num at g2 tE ⊢
    linarith
  -- the product
  have a1 : |g * u - E * u| ≤ M / 2 ^ 49 := by
    rw [← sub_mul, abs_mul, hM, mul_div_right_comm]
    exact mul_le_mul gE hu (abs_nonneg _) (by positivity)
  have a2 : |E * u| ≤ M := by
    rw [abs_mul, abs_of_pos hE0, hM]
    exact mul_le_mul_of_nonneg_left hu hE0.le
  have a3 : |g * u| ≤ 2 * M := by
    have := abs_add_le (g * u - E * u) (E * u)
    rw [sub_add_cancel] at this
    norm_num at a1
    linarith
  have a4 : ieee double (.fin (g * u)) = .fin (double.near (g * u)) := double_fin (a3.trans (by
    refine le_trans (b := 2 * 2 ^ 200) (by linarith) ?_
    rw [← pow_succ']
    exact pow_le_pow_right₀ one_le_two (by norm_num)))
  have a5 := double_rounder.err (g * u)
  rw [← hσ] at a5
  obtain ⟨z1, hz1⟩ : ∃ z, z = double.near (g * u) := ⟨_, rfl⟩
  rw [← hz1] at a4 a5
  have a6 : |z1 - E * u| ≤ M / 2 ^ 48 := by
    have := abs_sub_le z1 (g * u) (E * u)
    norm_num [-abs_mul] at a1 a5 tM ⊢
    linarith
  have a7 : |z1| ≤ 3 / 2 * M := by
    have := abs_add_le (z1 - E * u) (E * u)
    rw [sub_add_cancel] at this
    norm_num at a6
    linarith
  -- the quotient
  have b1 : |z1 / p - E * u / p| ≤ A / 2 ^ 48 := by
    rw [← sub_div, abs_div, abs_of_pos hp, hA, div_right_comm]
    exact div_le_div_of_nonneg_right a6 hp.le
  have b2 : |E * u / p| ≤ A := by
    rw [abs_div, abs_of_pos hp, hA]
    exact div_le_div_of_nonneg_right a2 hp.le
  have b3 : |z1 / p| ≤ 3 / 2 * A := by
    rw [abs_div, abs_of_pos hp, hA, mul_div_assoc']
    exact div_le_div_of_nonneg_right a7 hp.le
  have b4 : ieee double (.fin (z1 / p)) = .fin (double.near (z1 / p)) := double_fin_big (b3.trans (by
    refine le_trans (b := P) (by linarith) ?_
    rw [hP]
    exact hB'.trans (pow_le_pow_right₀ one_le_two (by norm_num))))
  have b5 := double_rounder.err (z1 / p)
  rw [← hσ] at b5
  obtain ⟨z2, hz2⟩ : ∃ z, z = double.near (z1 / p) := ⟨_, rfl⟩
  have dz2 : double.near z2 = z2 := by rw [hz2]; exact Fmt.near_near _ _
  rw [← hz2] at b4 b5
  have b6 : |z2 - E * u / p| ≤ A / 2 ^ 47 := by
    have := abs_sub_le z2 (z1 / p) (E * u / p)
    norm_num [-abs_div] at b1 b5 σs ⊢
    linarith
  have b7 : |z2| ≤ 2 * A := by
    have := abs_add_le (z2 - E * u / p) (E * u / p)
    rw [sub_add_cancel] at this
    norm_num at b6
    linarith
  -- the power
  obtain ⟨w, c1, c2⟩ := power_near hL dc (by linarith : 0 < c) (by linarith : 1 ≤ 2 * A) (hB'.trans (pow_le_pow_right₀ one_le_two (by norm_num))) dz2 b7
  have tb := toneBounds_power hc (by linarith : 0 ≤ 2 * A)
  have c3 := tb.close z2 (E * u / p) b7 (b2.trans (by linarith))
  have c4 := tb.size z2 b7
  rw [← hP] at c2 c4 hB
  have c5 : c * (2 * A) ^ (c - 1) * |z2 - E * u / p| ≤ c * P / 2 ^ 48 := by
    have e1 : P = (2 * A) ^ (c - 1) * (2 * A) := by
      rw [hP, ← Real.rpow_add_one (by linarith : (2 * A) ≠ 0), sub_add_cancel]
    calc c * (2 * A) ^ (c - 1) * |z2 - E * u / p| ≤ c * (2 * A) ^ (c - 1) * (A / 2 ^ 47) :=
          mul_le_mul_of_nonneg_left b6 tb.nonneg
      _ = c * P / 2 ^ 48 := by rw [e1]; ring
  have P1 : 1 ≤ P := by linarith
  have c6 : |w| ≤ 2 * P := by
    have := abs_add_le (w - max 0 z2 ^ c) (max 0 z2 ^ c)
    rw [sub_add_cancel] at this
    norm_num at c2
    linarith
  have c7 : |w - max 0 (E * u / p) ^ c| ≤ (c + 1) * P / 2 ^ 48 := by
    have := abs_sub_le w (max 0 z2 ^ c) (max 0 (E * u / p) ^ c)
    rw [add_mul, one_mul, add_div]
    norm_num at c2 c5 ⊢
    linarith
  -- times the pivot
  have d0 : |p * w| ≤ 2 * (p * P) := by
    rw [abs_mul, abs_of_pos hp]
    calc p * |w| ≤ p * (2 * P) := mul_le_mul_of_nonneg_left c6 hp.le
      _ = _ := by ring
  have d1 : ieee double (.fin (p * w)) = .fin (double.near (p * w)) := double_fin (d0.trans (by
    refine le_trans (b := 2 * 2 ^ 88) (by linarith) ?_
    rw [← pow_succ']
    exact pow_le_pow_right₀ one_le_two (by norm_num)))
  have d2 := double_rounder.err (p * w)
  rw [← hσ] at d2
  refine ⟨double.near (p * w), ?_, ?_⟩
  · unfold ecTone
    rw [pyPow_ok (by norm_num) (.inr (by norm_num)), g1, py_ok_bind, Flt.fin_mul, a4, Flt.fin_div hp.ne', b4, c1, py_ok_bind, Flt.fin_mul, d1]
    rfl
  · have d3 : |p * w - p * max 0 (E * u / p) ^ c| ≤ p * ((c + 1) * P / 2 ^ 48) := by
      rw [← mul_sub, abs_mul, abs_of_pos hp]
      exact mul_le_mul_of_nonneg_left c7 hp.le
    have d4 := abs_sub_le (double.near (p * w)) (p * w) (p * max 0 (E * u / p) ^ c)
    have d5 : p * P ≤ p * ((c + 1) * P) := mul_le_mul_of_nonneg_left (le_mul_of_one_le_left (by linarith) (by linarith)) hp.le
    have e2 : p * ((c + 1) * P / 2 ^ 48) = p * ((c + 1) * P) / 2 ^ 48 := by ring
    have e3 : p * ((c + 1) * P / 2 ^ 46) = p * ((c + 1) * P) / 2 ^ 46 := by ring
    simp only
    rw [← hP, e3]
    rw [e2] at d3
    generalize p * ((c + 1) * P) = q at *
    generalize p * P = q' at *
    norm_num [-abs_mul] at d2 d3 tM ⊢
    linarith

/-- C133: so is an ExposureContrast node of style `linear` whose contrast is at least 1. -/
theorem C133_exposure (E : Evaluator ℝ) (hE : E.rounding = ieee) (hL : Spec.GoodLibrary E.library) (e c p D : ℝ) (hv : Spec.ExposureValues e c p D)
    (P : ℝ) (hP : P = (2 * (2 ^ e * D / p)) ^ c) (hB : p * P ≤ 2 ^ 88) (hB' : P ≤ 2 ^ 800) (b : Base ℝ) (d1 d2 : AVal)
    (h : StyledNode b d1 d2 (.str "linear")) :
    Implements E (.leaf (.exposureContrast (.fin e) (.fin c) (.fin p)) b)
      (.tone (Spec.fullScale (some d1)) (Spec.fullScale (some d2)) D (p * ((c + 1) * P / 2 ^ 46)) fun _ x => p * max 0 (2 ^ e * x / p) ^ c) ∧
    ∀ B, B / Spec.fullScale (some d1) * (1 + 1 / 2 ^ 23) + 1 / 2 ^ 100 ≤ D →
      ∃ l d B', Spec.Gauge (.tone (Spec.fullScale (some d1)) (Spec.fullScale (some d2)) D (p * ((c + 1) * P / 2 ^ 46))
          fun _ x => p * max 0 (2 ^ e * x / p) ^ c) B l d B' ∧
        l = Spec.fullScale (some d2) * (c * P * 2 ^ e / Spec.fullScale (some d1)) ∧ d ≤ Spec.fullScale (some d2) * ((c + 3) * P * (2 ^ e * D) / 2 ^ 21) ∧
        B' ≤ Spec.fullScale (some d2) * (4 * (p * P) + 1) := by
  have near := toneNear_exposure hL hv rfl (by rw [← hP]; exact hB) (by rw [← hP]; exact hB')
  obtain ⟨-, he, ⟨hc, hc'⟩, ⟨hp, hp'⟩, hD, hD', hpE⟩ := hv
  obtain ⟨hE1, -⟩ := two_rpow_bounds he
  have hE0 : (0 : ℝ) < 2 ^ e := Real.rpow_pos_of_pos (by norm_num) _
  have hT := fullScale_pos (K := ℝ) (some d2)
  rw [← hP] at near
  generalize (2 : ℝ) ^ e = G at *
  obtain ⟨A, hA⟩ : ∃ A, A = G * D / p := ⟨_, rfl⟩
  rw [← hA] at hP
  have A1 : 1 ≤ A := by rw [hA, le_div_iff₀ hp]; linarith
  have P0 : A ^ c ≤ P := by rw [hP]; exact Real.rpow_le_rpow (by linarith) (by linarith) (by linarith)
  have P1 : 1 ≤ P := (Real.one_le_rpow A1 (by linarith)).trans P0
  have pP0 : 0 < p * P := by positivity
  have ε1 : p * ((c + 1) * P / 2 ^ 46) ≤ p * P / 2 ^ 30 := by
    have e1 : p * ((c + 1) * P / 2 ^ 46) = p * P * ((c + 1) / 2 ^ 46) := by ring
    rw [e1, div_eq_mul_one_div (p * P)]
    refine mul_le_mul_of_nonneg_left ?_ pP0.le
    norm_num
    linarith
  refine ⟨.exposure h (by linarith) (by positivity) (by rw [hE]; exact near), fun B hBD =>
    ⟨_, _, _, .tone (k := c * P * G) (C := p * P) (fun _ => ?_) hBD ?_, rfl, ?_, ?_⟩⟩
  · have tb := toneBounds_power hc (by linarith : 0 ≤ A)
    have arg : ∀ x, |x| ≤ D → |G * x / p| ≤ A := fun x hx => by
      rw [abs_div, abs_mul, abs_of_pos hE0, abs_of_pos hp, hA]
      exact div_le_div_of_nonneg_right (mul_le_mul_of_nonneg_left hx hE0.le) hp.le
    refine ⟨by positivity, fun x hx => ?_, fun x y hx hy => ?_⟩
    · rw [abs_mul, abs_of_pos hp]
      exact mul_le_mul_of_nonneg_left ((tb.size _ (arg x hx)).trans P0) hp.le
    · rw [← mul_sub, abs_mul, abs_of_pos hp]
      refine (mul_le_mul_of_nonneg_left (tb.close _ _ (arg x hx) (arg y hy)) hp.le).trans ?_
      have e1 : |G * x / p - G * y / p| = G * |x - y| / p := by
        rw [← sub_div, ← mul_sub, abs_div, abs_mul, abs_of_pos hE0, abs_of_pos hp]
      have e2 : p * (c * A ^ (c - 1) * (G * |x - y| / p)) = c * A ^ (c - 1) * (G * |x - y|) := by field_simp
      have e3 : A ^ (c - 1) ≤ P := (Real.rpow_le_rpow_of_exponent_le A1 (by linarith)).trans P0
      rw [e1, e2, mul_assoc (c * P)]
      exact mul_le_mul_of_nonneg_right (mul_le_mul_of_nonneg_left e3 (by linarith)) (by positivity)
  · have : (2 : ℝ) ^ 90 = 4 * 2 ^ 88 := by norm_num
    rw [this]
    generalize p * P = q at *
    generalize (2 : ℝ) ^ 88 = m at *
    norm_num at ε1
    linarith
  · refine mul_le_mul_of_nonneg_left ?_ hT.le
    have b1 : B / Spec.fullScale (some d1) ≤ D - 1 / 2 ^ 100 := by
      rcases le_or_gt 0 (B / Spec.fullScale (some d1)) with h | h
      · norm_num at hBD ⊢
        linarith
      · norm_num
        linarith
    have b2 : B / Spec.fullScale (some d1) / 2 ^ 23 + 1 / 2 ^ 140 ≤ D / 2 ^ 23 := by
      norm_num at b1 ⊢
      linarith
    have b3 : c * P * G * (B / Spec.fullScale (some d1) / 2 ^ 23 + 1 / 2 ^ 140) ≤ c * P * G * (D / 2 ^ 23) :=
      mul_le_mul_of_nonneg_left b2 (by positivity)
    have b4 : p * P ≤ P * (G * D) := by rw [mul_comm]; exact mul_le_mul_of_nonneg_left hpE (by linarith)
    have b5 : 1 / 2 ^ 100 ≤ P * (G * D) :=
      hE1.trans ((le_mul_of_one_le_right hE0.le hD).trans (le_mul_of_one_le_left (by positivity) P1))
    have e : (c + 3) * P * (G * D) / 2 ^ 21 = c * (P * (G * D)) / 2 ^ 21 + 3 * (P * (G * D)) / 2 ^ 21 := by ring
    have e' : c * P * G * (D / 2 ^ 23) = c * (P * (G * D)) / 2 ^ 23 := by ring
    have b6 : 0 ≤ c * (P * (G * D)) := by positivity
    rw [e]
    rw [e'] at b3
    generalize c * P * G * (B / Spec.fullScale (some d1) / 2 ^ 23 + 1 / 2 ^ 140) = q1 at *
    generalize c * (P * (G * D)) = q2 at *
    generalize P * (G * D) = q3 at *
    generalize p * ((c + 1) * P / 2 ^ 46) = q4 at *
    generalize p * P = q5 at *
    norm_num at b3 b5 ε1 ⊢
    linarith
  · refine mul_le_mul_of_nonneg_left ?_ hT.le
    generalize p * P = q at *
    norm_num at ε1
    linarith

/-! ## Examples -/

/-- Takes half of each channel and a quarter of the two others. -/
noncomputable def mixReal (i j : Fin 3) : ℝ := if i = j then 1 / 2 else 1 / 4

noncomputable def mixRealNode : Base ℝ where
  attrs := [("inBitDepth", .str "32f"), ("outBitDepth", .str "32f")]
  elements := [.array { dims := [3, 3], values := Spec.rowMajor fun i j => .fin (mixReal i j) }]

/-- Mixing the channels, then gamma 2, on all pixels of `float32` numbers up to 1: right up to 1/10000. -/
example (lib : Arith ℝ) (hL : Spec.GoodLibrary lib) (pixels : List (Fin 3 → ℝ)) (hp : ∀ p ∈ pixels, ∀ i, Spec.IsSingle (p i) ∧ |p i| ≤ 1) :
    ∃ g : (Fin 3 → ℝ) → Fin 3 → ℝ, processListR ⟨ieee, fun _ => single, lib⟩ 15
        [.leaf .matrix mixRealNode,
         .leaf (.gamma [⟨.fin 2, .fin 0, none⟩]) { attrs := [("inBitDepth", .str "32f"), ("outBitDepth", .str "32f"), ("style", .str "basicFwd")] }]
        (Spec.rgb pixels) 3 = .ok (Spec.rgb (pixels.map g)) ∧
      ∀ p ∈ pixels, ∀ i, Spec.IsSingle (g p i) ∧ |g p i - max 0 (∑ j, mixReal i j * p j) ^ 2| ≤ 1 / 10 ^ 4 := by
  have hS : Spec.fullScale (K := ℝ) (some (.str "32f")) = 1 := rfl
  obtain ⟨h1, h2⟩ := C133_gamma ⟨ieee, fun _ => single, lib⟩ rfl hL [⟨.fin 2, .fin 0, none⟩] (by intro p hp; simp at hp; subst hp; simp)
    (fun _ => 2) (fun i => ⟨by fin_cases i <;> rfl, by simpa using double_nat (K := ℝ) 2 (by norm_num), by norm_num⟩)
    { attrs := [("inBitDepth", .str "32f"), ("outBitDepth", .str "32f"), ("style", .str "basicFwd")] } (.str "32f") (.str "32f") ⟨rfl, rfl, rfl⟩
    2 4 (fun _ => le_rfl) (by norm_num) (by norm_num)
  have row : ∀ i, ∑ j, |mixReal i j| ≤ 1 := by
    intro i
    fin_cases i <;> simp [Fin.sum_univ_three, mixReal] <;> norm_num
  obtain ⟨l, e, B', hg, hl, he, -⟩ := h2 (2 * (1 * 1 + 0) + 1) (by rw [hS]; norm_num)
  obtain ⟨g, k1, k2⟩ := C133_chain ⟨ieee, fun _ => single, lib⟩ rfl 15
    [.leaf .matrix mixRealNode, _] _
    (.cons (.matrix (M := mixReal) ⟨rfl, rfl, _, [], rfl, rfl, rfl⟩ (.inr (.inl rfl))) (.cons h1 .nil))
    (by simp only [List.mem_cons, List.not_mem_nil, or_false]; rintro n (rfl | rfl) <;> rfl) 1 _
    (.cons (.linear (N := 1) (T := 0) row (by simp) (by norm_num)) (.cons hg .nil)) pixels hp
  refine ⟨g, k1, fun p hp' i => ⟨(k2 p hp' i).1, ?_⟩⟩
  have h3 := (k2 p hp' i).2
  have hb : |∑ j, mixReal i j * p j| ≤ 4 := by
    refine (Finset.abs_sum_le_sum_abs _ _).trans ?_
    refine (Finset.sum_le_sum (g := fun j => |mixReal i j|) fun j _ => ?_).trans ((row i).trans (by norm_num))
    rw [abs_mul]
    exact mul_le_of_le_one_right (abs_nonneg _) (hp p hp' j).2
  simp only [Spec.evalChain, Spec.Stage.eval, hS, div_one, mul_one, add_zero, Real.rpow_two] at h3
  rw [clampD_id hb] at h3
  refine h3.trans ?_
  rw [hl]
  rw [hS] at he ⊢
  norm_num at he ⊢
  linarith

/-- One stop down, a contrast of 2 around a pivot of 1/4, on ten bit codes: right up to a fifth of a code. -/
example (lib : Arith ℝ) (hL : Spec.GoodLibrary lib) (pixels : List (Fin 3 → ℝ)) (hp : ∀ p ∈ pixels, ∀ i, Spec.IsSingle (p i) ∧ |p i| ≤ 1023) :
    ∃ g : (Fin 3 → ℝ) → Fin 3 → ℝ, processListR ⟨ieee, fun _ => single, lib⟩ 15
        [.leaf (.exposureContrast (.fin (-1)) (.fin 2) (.fin (1 / 4)))
          { attrs := [("inBitDepth", .str "10i"), ("outBitDepth", .str "10i"), ("style", .str "linear")] }]
        (Spec.rgb pixels) 3 = .ok (Spec.rgb (pixels.map g)) ∧
      ∀ p ∈ pixels, ∀ i, Spec.IsSingle (g p i) ∧ |g p i - 1 / 4 * max 0 (1 / 2 * (p i / 1023) / (1 / 4)) ^ 2 * 1023| ≤ 1 / 5 := by
  have hS : Spec.fullScale (K := ℝ) (some (.str "10i")) = 1023 := by
    have := (fullScale_bits (K := ℝ) (n := 10) (d := .str "10i") (by decide)).1
    rw [this]
    norm_num
  have e2 : (2 : ℝ) ^ (-1 : ℝ) = 1 / 2 := by rw [Real.rpow_neg_one]; norm_num
  have d1 : double.near (-1 : ℝ) = -1 := by
    rw [Fmt.near_neg]
    simpa using double_nat (K := ℝ) 1 (by norm_num)
  have d2 : double.near (2 : ℝ) = 2 := by simpa using double_nat (K := ℝ) 2 (by norm_num)
  have d4 : double.near (1 / 4 : ℝ) = 1 / 4 := by
    have := Fmt.near_multiple (K := ℝ) double 1 (-2) (by decide) (by decide)
    norm_num at this ⊢
    exact this
  have hv : Spec.ExposureValues (-1) 2 (1 / 4) 2 := ⟨⟨d1, d2, d4⟩, by norm_num, by norm_num, by norm_num, by rw [e2]; norm_num⟩
  obtain ⟨h1, h2⟩ := C133_exposure ⟨ieee, fun _ => single, lib⟩ rfl hL (-1) 2 (1 / 4) 2 hv 64 (by rw [e2]; norm_num) (by norm_num)
    (le_trans (b := 2 ^ 6) (by norm_num) (pow_le_pow_right₀ one_le_two (by norm_num)))
    { attrs := [("inBitDepth", .str "10i"), ("outBitDepth", .str "10i"), ("style", .str "linear")] } (.str "10i") (.str "10i") ⟨rfl, rfl, rfl⟩
  obtain ⟨l, d, B', hg, hl, hd, -⟩ := h2 1023 (by rw [hS]; norm_num)
  obtain ⟨g, k1, k2⟩ := C133_chain ⟨ieee, fun _ => single, lib⟩ rfl 15 _ _ (.cons h1 .nil)
    (by simp only [List.mem_cons, List.not_mem_nil, or_false]; rintro n rfl; rfl) 1023 _ (.cons hg .nil) pixels hp
  refine ⟨g, k1, fun p hp' i => ⟨(k2 p hp' i).1, ?_⟩⟩
  have h3 := (k2 p hp' i).2
  have hb : |p i / 1023| ≤ 2 := by
    rw [abs_div, abs_of_pos (by norm_num : (0 : ℝ) < 1023), div_le_iff₀ (by norm_num)]
    linarith [(hp p hp' i).2]
  simp only [Spec.evalChain, Spec.Stage.eval, hS, e2, Real.rpow_two] at h3
  rw [clampD_id hb] at h3
  refine h3.trans ?_
  rw [hS, e2] at hd
  norm_num at hd ⊢
  linarith

end CLF
