import Verif.Lemmas.RoundedCdl

/-!
# The reverse styles of the ASC CDL in IEEE arithmetic: lemmas
-/

set_option linter.unusedSectionVars false

namespace CLF

variable {K : Type} [Field K] [LinearOrder K] [IsStrictOrderedRing K] [FloorRing K]

/-! ## Pixels, for any rounding -/

/-- Undoing saturation, power, offset and slope, for any rounding. -/
theorem cdlRevR_pixel (R : Rounding K) (L : Arith K) (s o p : Fin 3 → K) (σ : K) (d1 d2 : Depth) (x u c q e w a t g r out : Fin 3 → K) (l τ : K)
    (rest : List (Flt K)) (hσ : σ ≠ 0) (hp : ∀ i, p i ≠ 0) (hs : ∀ i, s i ≠ 0)
    (h1 : ∀ i, R single (toUnitR R (.fin (x i)) d1) = .fin (u i)) (h2 : ∀ i, R single (.fin (Spec.clip (u i))) = .fin (c i))
    (h3 : lumaR R (Spec.fins c ++ rest) = .ok (.fin l)) (hτ : R double (.fin (1 / σ)) = .fin τ)
    (h4 : ∀ i, saturateR R (.fin l) (.fin τ) (.fin (c i)) = .fin (q i)) (he : ∀ i, R double (.fin (1 / p i)) = .fin (e i))
    (h5 : ∀ i, pyPow L (.fin (Spec.clip (q i))) (.fin (e i)) = .ok (.fin (w i))) (h6 : ∀ i, R double (.fin (w i - o i)) = .fin (a i))
    (h7 : ∀ i, R double (.fin (a i / s i)) = .fin (t i)) (h8 : ∀ i, R single (.fin (t i)) = .fin (g i))
    (h9 : ∀ i, R single (.fin (Spec.clip (g i))) = .fin (r i)) (h10 : ∀ i, R single (fromUnitR R (.fin (r i)) d2) = .fin (out i)) :
    cdlRevR R L (finCdl s o p σ) d1 d2 (Spec.fins x ++ rest) = .ok (Spec.fins out ++ rest) := by
  unfold cdlRevR
  rw [chanLoop3_fins _ x c rest]
  · simp only [py_ok_bind, h3]
    apply chanLoop3_fins
    intro i
    simp only [finCdl, pyDivF_fin hσ, py_ok_bind, hτ, h4, fins3_get, pyDivF_fin (hp i), he, clamp01_clip, h5, Flt.fin_sub, h6,
      cdlDivR, cdlDiv_fin _ (hs i), h7, h8, h9, h10, py_pure]
  · intro i
    simp only [h1, clamp01_clip, h2, py_pure]

/-- The same without limits on what comes in and goes out. -/
theorem cdlRevNoClampR_pixel (R : Rounding K) (L : Arith K) (s o p : Fin 3 → K) (σ : K) (d1 d2 : Depth) (x u q e w a t g out : Fin 3 → K) (l τ : K)
    (rest : List (Flt K)) (hσ : σ ≠ 0) (hp : ∀ i, p i ≠ 0) (hs : ∀ i, s i ≠ 0)
    (h1 : ∀ i, R single (toUnitR R (.fin (x i)) d1) = .fin (u i))
    (h3 : lumaR R (Spec.fins u ++ rest) = .ok (.fin l)) (hτ : R double (.fin (1 / σ)) = .fin τ)
    (h4 : ∀ i, saturateR R (.fin l) (.fin τ) (.fin (u i)) = .fin (q i)) (he : ∀ i, R double (.fin (1 / p i)) = .fin (e i))
    (h5 : ∀ i, pyPow L (.fin (Spec.clip (q i))) (.fin (e i)) = .ok (.fin (w i))) (h0 : ∀ i, q i < 0 → w i = 0)
    (h6 : ∀ i, R double (.fin (w i - o i)) = .fin (a i))
    (h7 : ∀ i, R double (.fin (a i / s i)) = .fin (t i)) (h8 : ∀ i, R single (.fin (t i)) = .fin (g i))
    (h10 : ∀ i, R single (fromUnitR R (.fin (g i)) d2) = .fin (out i)) :
    cdlRevNoClampR R L (finCdl s o p σ) d1 d2 (Spec.fins x ++ rest) = .ok (Spec.fins out ++ rest) := by
  unfold cdlRevNoClampR
  rw [chanLoop3_fins _ x u rest]
  · simp only [py_ok_bind, h3]
    apply chanLoop3_fins
    intro i
    simp only [finCdl, pyDivF_fin hσ, py_ok_bind, hτ, h4, fins3_get, pyDivF_fin (hp i), he, clamp01_clip, h5, Flt.fin_sub,
      cdlDivR, cdlDiv_fin _ (hs i), Flt.lt_fin, decide_eq_true_eq]
    split_ifs with hc
    · have e0 : Spec.clip (q i) = w i := by
        rw [h0 i hc, Spec.clip, max_eq_left hc.le, min_eq_right zero_le_one]
      simp only [e0, h6, py_ok_bind, cdlDiv_fin _ (hs i), h7, h8, h10, py_pure]
    · simp only [h6, py_ok_bind, cdlDiv_fin _ (hs i), h7, h8, h10, py_pure]
  · intro i
    simp only [h1, py_pure]

/-! ## Errors -/

theorem single_fin_one : ieee single (.fin (1 : K)) = .fin 1 :=
  (single_fin (by rw [abs_one]; exact one_le_pow₀ one_le_two)).trans (congrArg _ single_one)

theorem single_fin_zero : ieee single (.fin (0 : K)) = .fin 0 :=
  (single_fin (by rw [abs_zero]; positivity)).trans (congrArg _ (Fmt.near_zero _))

/-- Results of rounding are numbers of the format. -/
theorem double_round_idem {z q : K} (h : ieee double (.fin z) = .fin q) : double.round (.fin q) = .fin q := by
  obtain ⟨h1, h2⟩ := Fmt.round_finite double h
  subst h1
  rw [Fmt.round_eq double, Fmt.near_near]
  rwa [← Fmt.abs_near, Fmt.near_near]

/-- Limiting commutes with rounding. -/
theorem clip_near (t : K) : Spec.clip (single.near t) = single.near (Spec.clip t) := by
  have h0 : ∀ {x : K}, 0 ≤ x → 0 ≤ single.near x := fun h => single_rounder.nonneg h
  have h1 : ∀ {x : K}, x ≤ 1 → single.near x ≤ 1 := fun h => by
    have := Fmt.near_mono single h
    rwa [single_one] at this
  rcases le_total t 0 with c | c
  · have := Fmt.near_mono single c
    rw [Fmt.near_zero] at this
    rw [Spec.clip, Spec.clip, max_eq_left this, max_eq_left c, min_eq_right zero_le_one, Fmt.near_zero]
  rcases le_total t 1 with c1 | c1
  · rw [clip_of_mem c c1, clip_of_mem (h0 c) (h1 c1)]
  · have := Fmt.near_mono single c1
    rw [single_one] at this
    rw [Spec.clip, Spec.clip, min_eq_left (this.trans (le_max_right _ _)), min_eq_left (c1.trans (le_max_right _ _)), single_one]

/-- A limited number on the unit scale. -/
theorem clip_pos (d : Depth) {x : K} (hx : Spec.IsSingle x) :
    ∃ u, ieee single (toUnitR ieee (.fin x) d) = .fin u ∧ ieee single (.fin (Spec.clip u)) = .fin (Spec.clip u) ∧
      |Spec.clip u - Spec.clip (x / Spec.fullScale d)| ≤ 5 / 4 * (1 / 2 ^ 24) := by
  obtain ⟨u, hu, su, u0, u0', u1, u1', eu⟩ := unit_pos d hx
  have hS := fullScale_pos (K := K) d
  have h0 : (0 : K) ≤ 5 / 4 * (1 / 2 ^ 24) := by positivity
  refine ⟨u, hu, ?_, ?_⟩
  · unfold Spec.clip
    rcases max_choice 0 u with e | e <;> rcases min_choice 1 (max 0 u) with e' | e' <;> rw [e'] <;>
      first | exact single_fin_one | (rw [e]; first | exact single_fin_zero | exact su)
  by_cases c0 : x ≤ 0
  · have a1 := u0 c0
    have a2 : x / Spec.fullScale d ≤ 0 := div_nonpos_of_nonpos_of_nonneg c0 hS.le
    rw [Spec.clip, Spec.clip, max_eq_left a1, max_eq_left a2, sub_self, abs_zero]
    exact h0
  by_cases c1 : Spec.fullScale d ≤ x
  · have a1 := u1 c1
    have a2 : 1 ≤ x / Spec.fullScale d := (one_le_div hS).mpr c1
    rw [Spec.clip, Spec.clip, min_eq_left (a1.trans (le_max_right _ _)), min_eq_left (a2.trans (le_max_right _ _)), sub_self, abs_zero]
    exact h0
  refine (clip_close _ _).trans (eu.trans ?_)
  have a1 : 0 ≤ x / Spec.fullScale d := (div_pos (not_le.mp c0) hS).le
  have a2 : x / Spec.fullScale d ≤ 1 := (div_le_one hS).mpr (not_le.mp c1).le
  rw [abs_of_nonneg a1]
  have t := tiny_zpow (K := K) (n := -148) (by norm_num)
  have b : x / Spec.fullScale d * (9 / 8 * (1 / 2 ^ 24)) ≤ 1 * (9 / 8 * (1 / 2 ^ 24)) := mul_le_mul_of_nonneg_right a2 (by positivity)
  generalize (2 : K) ^ (-148 : ℤ) = μ at *
  norm_num at *
  linarith

/-- A reciprocal. -/
theorem reciprocal_near {p : K} (h0 : 1 / 2 ^ 100 ≤ |p|) (h1 : |p| ≤ 2 ^ 100) :
    ∃ e, ieee double (.fin (1 / p)) = .fin e ∧ |e - 1 / p| ≤ |1 / p| * (1 / 2 ^ 52) ∧ (0 < p → 0 < e) := by
  have hp : 0 < |p| := lt_of_lt_of_le (by positivity) h0
  have a1 : |1 / p| ≤ 2 ^ 100 := by
    rw [abs_div, abs_one, div_le_iff₀ hp]
    have := mul_le_mul_of_nonneg_left h0 (by positivity : (0 : K) ≤ 2 ^ 100)
    rwa [mul_one_div_cancel (by positivity)] at this
  have a2 : 1 / 2 ^ 100 ≤ |1 / p| := by
    rw [abs_div, abs_one]
    exact one_div_le_one_div_of_le hp h1
  have hd := double_fin (x := 1 / p) (a1.trans (pow_le_pow_right₀ one_le_two (by norm_num)))
  have e1 := double_rounder.err (1 / p)
  have e2 : (2 : K) ^ (-1075 : ℤ) ≤ |1 / p| * (1 / 2 ^ 53) := by
    refine le_trans ?_ (mul_le_mul_of_nonneg_right a2 (by positivity))
    rw [one_div_mul_one_div, ← pow_add, one_div, ← zpow_natCast, ← zpow_neg]
    exact zpow_le_zpow_right₀ one_le_two (by norm_num)
  have e3 : |double.near (1 / p) - 1 / p| ≤ |1 / p| * (1 / 2 ^ 52) := by
    refine e1.trans ((add_le_add_right e2 _).trans_eq ?_)
    ring
  refine ⟨_, hd, e3, fun hp0 => ?_⟩
  have hq : 0 < 1 / p := one_div_pos.mpr hp0
  rw [abs_of_pos hq] at e3
  have h3 : 1 / p * (1 / 2 ^ 52) ≤ 1 / p * (1 / 2) := mul_le_mul_of_nonneg_left (by norm_num) hq.le
  have := (abs_le.mp e3).1
  linarith

/-- Undoing saturation. -/
theorem unsaturate_near {c y : Fin 3 → K} {σ : K} (hσ0 : 1 / 2 ^ 100 ≤ |σ|) (hσ1 : |σ| ≤ 2 ^ 100) (hc : ∀ i, |c i| ≤ 2)
    (hy : ∀ i, |c i - y i| ≤ 5 / 4 * (1 / 2 ^ 24)) :
    ∃ (l τ : K) (q : Fin 3 → K), (∀ rest, lumaR ieee (Spec.fins c ++ rest) = .ok (.fin l)) ∧ ieee double (.fin (1 / σ)) = .fin τ ∧
      ∀ i, saturateR ieee (.fin l) (.fin τ) (.fin (c i)) = .fin (q i) ∧ double.round (.fin (q i)) = .fin (q i) ∧
        |q i - (Spec.luma y + (y i - Spec.luma y) / σ)| ≤ (1 + 2 / |σ|) * (1 / 2 ^ 23) := by
  obtain ⟨l, h1, el, -⟩ := lumaR_near c hc
  obtain ⟨τ, hτ, eτ, -⟩ := reciprocal_near hσ0 hσ1
  have al' : |Spec.luma c| ≤ 2 := by
    have := luma_close (y := c) (w := fun _ => 0) (e := 2) (by simpa using hc)
    simpa [Spec.luma] using this
  have al : |l| ≤ 3 := by
    have := abs_of_near el al'
    norm_num at *
    linarith
  have hs0 : 0 < |σ| := lt_of_lt_of_le (by positivity) hσ0
  have b1 : |1 / σ| ≤ 2 ^ 100 := by
    rw [abs_div, abs_one, div_le_iff₀ hs0]
    have := mul_le_mul_of_nonneg_left hσ0 (by positivity : (0 : K) ≤ 2 ^ 100)
    rwa [mul_one_div_cancel (by positivity)] at this
  have eG : 2 / |σ| = 2 * |1 / σ| := by rw [abs_div, abs_one]; ring
  have aτ : |τ| ≤ 2 * |1 / σ| := by
    have := abs_of_near eτ le_rfl
    have h : |1 / σ| * (1 / 2 ^ 52) ≤ |1 / σ| * 1 := mul_le_mul_of_nonneg_left (by norm_num) (abs_nonneg _)
    linarith
  have bτ : |τ| ≤ 2 ^ 120 := by
    refine aτ.trans ((mul_le_mul_of_nonneg_left b1 zero_le_two).trans ?_)
    norm_num
  choose q hq eq using fun i => saturateR_near al (hc i) bτ
  refine ⟨l, τ, q, h1, hτ, fun i => ⟨hq i, ?_, ?_⟩⟩
  · have : saturateR ieee (.fin l) (.fin τ) (.fin (c i)) = ieee double (.fin l + ieee double (.fin τ * ieee double (.fin (c i) - .fin l))) := rfl
    rw [hq i] at this
    generalize (Flt.fin l + ieee double (.fin τ * ieee double (.fin (c i) - .fin l)) : Flt K) = z at this
    cases z with
    | inf s => exact absurd this (by rw [show ieee double (Flt.inf s : Flt K) = _ from Fmt.round_inf double s]; simp)
    | nan => exact absurd this (by rw [show ieee double (Flt.nan : Flt K) = _ from Fmt.round_nan double (by decide)]; simp)
    | fin z =>
      have hb := double_round_idem this.symm
      exact hb
  · have c1 := saturate_close (σ := 1 / σ) hy i
    have c2 : |(l + τ * (c i - l)) - (Spec.luma c + 1 / σ * (c i - Spec.luma c))| ≤
        (1 + |1 / σ|) * (1 / 2 ^ 47) + |1 / σ| * (1 / 2 ^ 52) * 5 := by
      have e : (l + τ * (c i - l)) - (Spec.luma c + 1 / σ * (c i - Spec.luma c))
          = (1 - 1 / σ) * (l - Spec.luma c) + (τ - 1 / σ) * (c i - l) := by ring
      rw [e]
      refine (abs_add_le _ _).trans (add_le_add ?_ ?_)
      · rw [abs_mul]
        refine mul_le_mul ?_ el (abs_nonneg _) (by positivity)
        refine (abs_sub 1 (1 / σ)).trans ?_
        rw [abs_one]
      · rw [abs_mul]
        exact mul_le_mul eτ ((abs_sub _ _).trans (by linarith [hc i])) (abs_nonneg _) (by positivity)
    have c3 := eq i
    have c4 := abs_sub_le (q i) (l + τ * (c i - l)) (Spec.luma y + 1 / σ * (y i - Spec.luma y))
    have c5 := abs_sub_le (l + τ * (c i - l)) (Spec.luma c + 1 / σ * (c i - Spec.luma c)) (Spec.luma y + 1 / σ * (y i - Spec.luma y))
    have c6 : |1 - 1 / σ| + |1 / σ| ≤ 1 + 2 * |1 / σ| := by
      have := abs_sub 1 (1 / σ)
      rw [abs_one] at this
      linarith
    have c7 := mul_le_mul_of_nonneg_right c6 (by positivity : (0 : K) ≤ 5 / 4 * (1 / 2 ^ 24))
    have e0 : (y i - Spec.luma y) / σ = 1 / σ * (y i - Spec.luma y) := by ring
    rw [e0, eG]
    have c8 : (1 + |τ|) * (1 / 2 ^ 47) ≤ (1 + 2 * |1 / σ|) * (1 / 2 ^ 47) := mul_le_mul_of_nonneg_right (by linarith) (by positivity)
    have hg := abs_nonneg (1 / σ)
    generalize |1 / σ| = G at *
    refine c4.trans ((add_le_add (c3.trans c8) (c5.trans (add_le_add c2 (c1.trans c7)))).trans ?_)
    norm_num at *
    linarith

/-- Undoing power, offset and slope. -/
theorem unpower_near (L : Arith K) {q Q s o e O m E : K} {φ : K → K} (hq : double.round (.fin (q)) = .fin q) (he0 : 0 < e)
    (hL : Spec.PowerNear L e φ) (hφ : ∀ x, 0 ≤ x → x ≤ 1 → 0 ≤ φ x ∧ φ x ≤ 1) (hE : |φ (Spec.clip q) - φ (Spec.clip Q)| ≤ E)
    (ho : |o| ≤ O) (hO : O ≤ 2 ^ 20) (hm : 1 / 2 ^ 100 ≤ m) (hm1 : m ≤ 2 ^ 100) (hs : m ≤ |s|) :
    ∃ w a t, pyPow L (.fin (Spec.clip q)) (.fin e) = .ok (.fin w) ∧ ieee double (.fin (w - o)) = .fin a ∧ ieee double (.fin (a / s)) = .fin t ∧
      |t| ≤ 2 ^ 125 ∧ |t| ≤ 2 * (3 + O) / m ∧ |t - (φ (Spec.clip Q) - o) / s| ≤ (E + (1 + O) * (1 / 2 ^ 39)) / m := by
  have hc := clip_mem q
  have hqc : double.round (.fin (Spec.clip q)) = .fin (Spec.clip q) := double_clip (x := q) hq
  obtain ⟨w, hw, ew⟩ := hL _ hqc hc.1 hc.2
  have hφq := hφ _ hc.1 hc.2
  have hφQ := hφ _ (clip_mem Q).1 (clip_mem Q).2
  have aw : |w| ≤ 2 := by
    have := abs_of_near ew (M := 1) (by rw [abs_of_nonneg hφq.1]; exact hφq.2)
    norm_num at *
    linarith
  have hO0 : 0 ≤ O := (abs_nonneg _).trans ho
  have hm0 : 0 < m := lt_of_lt_of_le (by positivity) hm
  have hs0 : 0 < |s| := lt_of_lt_of_le hm0 hs
  have b1 : (2 : K) + O ≤ 2 ^ 21 := by
    refine (add_le_add_right hO 2).trans ?_
    norm_num
  have awo : |w - o| ≤ 2 + O := (abs_sub _ _).trans (by linarith)
  obtain ⟨a, ha, ea⟩ := double_op awo (by linarith) (b1.trans (pow_le_pow_right₀ one_le_two (by norm_num)))
  have aa : |a| ≤ 3 + O := by
    have := abs_of_near ea awo
    have h2 : (2 + O) * (1 / 2 ^ 52) ≤ 2 ^ 21 * (1 / 2 ^ 52) := mul_le_mul_of_nonneg_right b1 (by positivity)
    have h3 : (2 : K) ^ 21 * (1 / 2 ^ 52) ≤ 1 := by norm_num
    linarith
  have im : 1 / m ≤ 2 ^ 100 := by
    rw [div_le_iff₀ hm0]
    have := mul_le_mul_of_nonneg_left hm (by positivity : (0 : K) ≤ 2 ^ 100)
    rwa [mul_one_div_cancel (by positivity)] at this
  have div_le : ∀ {z Z : K}, |z| ≤ Z → |z / s| ≤ Z / m := by
    intro z Z h
    rw [abs_div]
    exact div_le_div₀ ((abs_nonneg _).trans h) h hm0 hs
  have as := div_le aa
  have bz : (3 + O) / m ≤ 2 ^ 122 := by
    rw [div_eq_mul_one_div]
    refine (mul_le_mul (by linarith : 3 + O ≤ 2 ^ 21 + 1) im (by positivity) (by positivity)).trans ?_
    norm_num
  have ht := double_fin (x := a / s) (as.trans (bz.trans (pow_le_pow_right₀ one_le_two (by norm_num))))
  have et := double_rounder.err (a / s)
  have at' : |double.near (a / s)| ≤ 2 ^ 125 :=
    (double_size (as.trans bz)).trans (pow_le_pow_right₀ one_le_two (by norm_num))
  -- the tiny part of the last rounding
  have hη : (2 : K) ^ (-1075 : ℤ) ≤ 1 / m * (1 / 2 ^ 53) := by
    refine le_trans (b := 1 / 2 ^ 100 * (1 / 2 ^ 53)) ?_ (mul_le_mul_of_nonneg_right (one_div_le_one_div_of_le hm0 hm1) (by positivity))
    rw [one_div_mul_one_div, ← pow_add, one_div, ← zpow_natCast, ← zpow_neg]
    exact zpow_le_zpow_right₀ one_le_two (by norm_num)
  have e1 : |double.near (a / s) - a / s| ≤ (4 + O) * (1 / 2 ^ 53) / m := by
    refine et.trans ((add_le_add (mul_le_mul_of_nonneg_right as (by positivity)) hη).trans_eq ?_)
    ring
  have at2 : |double.near (a / s)| ≤ 2 * (3 + O) / m := by
    refine (abs_of_near e1 as).trans ?_
    rw [← add_div]
    refine div_le_div_of_nonneg_right ?_ hm0.le
    norm_num
    linarith
  refine ⟨w, a, _, by rw [pyPow_ok hc.1 (.inl he0), hw], ha, ht, at', at2, ?_⟩
  have e2 : |a / s - (w - o) / s| ≤ (2 + O) * (1 / 2 ^ 52) / m := by
    rw [← sub_div]; exact div_le ea
  have e3 : |(w - o) / s - (φ (Spec.clip q) - o) / s| ≤ 1 / 2 ^ 40 / m := by
    rw [← sub_div, sub_sub_sub_cancel_right]; exact div_le ew
  have e4 : |(φ (Spec.clip q) - o) / s - (φ (Spec.clip Q) - o) / s| ≤ E / m := by
    rw [← sub_div, sub_sub_sub_cancel_right]; exact div_le hE
  have t1 := abs_sub_le (double.near (a / s)) (a / s) ((φ (Spec.clip Q) - o) / s)
  have t2 := abs_sub_le (a / s) ((w - o) / s) ((φ (Spec.clip Q) - o) / s)
  have t3 := abs_sub_le ((w - o) / s) ((φ (Spec.clip q) - o) / s) ((φ (Spec.clip Q) - o) / s)
  refine (t1.trans (add_le_add e1 (t2.trans (add_le_add e2 (t3.trans (add_le_add e3 e4)))))).trans ?_
  rw [← add_div, ← add_div, ← add_div]
  refine div_le_div_of_nonneg_right ?_ hm0.le
  norm_num
  linarith

/-- What the styles of the reverse CDL ask of parameters: slopes are at least `m` in size, offsets at most `O`, powers are positive, and
none of these, nor the saturation, is extreme. -/
structure Spec.Undoable (s o p : Fin 3 → K) (σ O m : K) : Prop where
  slope : ∀ i, m ≤ |s i|
  offset : ∀ i, |o i| ≤ O
  power : ∀ i, 1 / 2 ^ 100 ≤ p i ∧ p i ≤ 2 ^ 100
  saturation : 1 / 2 ^ 100 ≤ |σ| ∧ |σ| ≤ 2 ^ 100
  small : 1 / 2 ^ 100 ≤ m ∧ m ≤ 2 ^ 100
  limit : O ≤ 2 ^ 20

/-- `φ` maps the unit interval to itself, and numbers that are at most `δ` apart to numbers that are at most `E` apart. -/
structure Spec.Modulus (φ : K → K) (δ E : K) : Prop where
  mem : ∀ x, 0 ≤ x → x ≤ 1 → 0 ≤ φ x ∧ φ x ≤ 1
  close : ∀ x y, 0 ≤ x → x ≤ 1 → 0 ≤ y → y ≤ 1 → |x - y| ≤ δ → |φ x - φ y| ≤ E

/-- The colour whose saturation is undone: its channels are moved away from luma by `1 / σ`. -/
def Spec.unsaturated (y : Fin 3 → K) (σ : K) (i : Fin 3) : K := Spec.luma y + (y i - Spec.luma y) / σ

/-- Style `Rev`: limit, undo saturation, power, offset and slope, limit. -/
def Spec.reversed (S T : K) (s o : Fin 3 → K) (φ : Fin 3 → K → K) (σ : K) (x : Fin 3 → K) (i : Fin 3) : K :=
  Spec.clip ((φ i (Spec.clip (Spec.unsaturated (fun j => Spec.clip (x j / S)) σ i)) - o i) / s i) * T

/-- Style `RevNoClamp`: undo saturation, limit, undo power, offset and slope. -/
def Spec.reversedFree (S T : K) (s o : Fin 3 → K) (φ : Fin 3 → K → K) (σ : K) (x : Fin 3 → K) (i : Fin 3) : K :=
  (φ i (Spec.clip (Spec.unsaturated (fun j => x j / S) σ i)) - o i) / s i * T

/-- The factors of both styles. -/
theorem unpowers_near (L : Arith K) {s o p : Fin 3 → K} {φ : Fin 3 → K → K} {σ O m E : K} (hu : Spec.Undoable s o p σ O m)
    (hL : ∀ i e, double.round (.fin (1 / p i)) = .fin e → Spec.PowerNear L e (φ i))
    (hφ : ∀ i, Spec.Modulus (φ i) ((1 + 2 / |σ|) * (1 / 2 ^ 23)) E) {q Q : Fin 3 → K} (hq : ∀ i, double.round (.fin (q i)) = .fin (q i))
    (hQ : ∀ i, |q i - Q i| ≤ (1 + 2 / |σ|) * (1 / 2 ^ 23)) :
    ∃ e w a t : Fin 3 → K, (∀ i, ieee double (.fin (1 / p i)) = .fin (e i)) ∧ (∀ i, pyPow L (.fin (Spec.clip (q i))) (.fin (e i)) = .ok (.fin (w i))) ∧
      (∀ i, ieee double (.fin (w i - o i)) = .fin (a i)) ∧ (∀ i, ieee double (.fin (a i / s i)) = .fin (t i)) ∧
      ∀ i, 0 < e i ∧ |t i| ≤ 2 ^ 125 ∧ |t i| ≤ 2 * (3 + O) / m ∧ |t i - (φ i (Spec.clip (Q i)) - o i) / s i| ≤ (E + (1 + O) * (1 / 2 ^ 39)) / m := by
  have hp : ∀ i, 0 < p i := fun i => lt_of_lt_of_le (by positivity) (hu.power i).1
  choose e he _ e0 using fun i => reciprocal_near (p := p i) (by rw [abs_of_pos (hp i)]; exact (hu.power i).1)
    (by rw [abs_of_pos (hp i)]; exact (hu.power i).2)
  choose w a t h5 h6 h7 h8 h8' h9 using fun i => unpower_near L (φ := φ i) (E := E) (O := O) (m := m) (s := s i) (o := o i) (q := q i) (Q := Q i)
    (hq i) (e0 i (hp i)) (hL i _ (he i)) (hφ i).mem
    ((hφ i).close _ _ (clip_mem _).1 (clip_mem _).2 (clip_mem _).1 (clip_mem _).2 ((clip_close _ _).trans (hQ i)))
    (hu.offset i) hu.limit hu.small.1 hu.small.2 (hu.slope i)
  exact ⟨e, w, a, t, he, h5, h6, h7, fun i => ⟨e0 i (hp i), h8 i, h8' i, h9 i⟩⟩

/-- One pixel of style `Rev`. -/
theorem cdlRev_near (L : Arith K) {s o p : Fin 3 → K} {φ : Fin 3 → K → K} {σ O m E : K} (d1 d2 : Depth) (hu : Spec.Undoable s o p σ O m)
    (hL : ∀ i e, double.round (.fin (1 / p i)) = .fin e → Spec.PowerNear L e (φ i))
    (hφ : ∀ i, Spec.Modulus (φ i) ((1 + 2 / |σ|) * (1 / 2 ^ 23)) E) {x : Fin 3 → K} (hx : ∀ i, Spec.IsSingle (x i)) :
    ∃ out : Fin 3 → K, (∀ rest, cdlRevR ieee L (finCdl s o p σ) d1 d2 (Spec.fins x ++ rest) = .ok (Spec.fins out ++ rest)) ∧
      ∀ i, Spec.IsSingle (out i) ∧ 0 ≤ out i ∧ out i ≤ Spec.fullScale d2 ∧
        |out i - Spec.reversed (Spec.fullScale d1) (Spec.fullScale d2) s o φ σ x i|
          ≤ Spec.fullScale d2 * ((E + (1 + O) * (1 / 2 ^ 39)) / m + 1 / 2 ^ 22) := by
  have hm0 : 0 < m := lt_of_lt_of_le (by positivity) hu.small.1
  have hs0 : ∀ i, s i ≠ 0 := fun i h => by
    have := hu.slope i
    rw [h, abs_zero] at this
    linarith
  have hp0 : ∀ i, p i ≠ 0 := fun i => (lt_of_lt_of_le (by positivity) (hu.power i).1).ne'
  have hσ0 : σ ≠ 0 := fun h => by
    have := hu.saturation.1
    rw [h, abs_zero] at this
    exact absurd this (not_le.mpr (by positivity))
  choose u h1 h2 eu using fun i => clip_pos d1 (hx i)
  obtain ⟨l, τ, q, h3, hτ, hq⟩ := unsaturate_near (c := fun i => Spec.clip (u i)) (y := fun i => Spec.clip (x i / Spec.fullScale d1))
    hu.saturation.1 hu.saturation.2 (fun i => by
      rw [abs_of_nonneg (clip_mem _).1]
      linarith [(clip_mem (u i)).2]) eu
  obtain ⟨e, w, a, t, he, h5, h6, h7, h89⟩ := unpowers_near L hu hL hφ (fun i => (hq i).2.1) (fun i => (hq i).2.2)
  have h8 := fun i => single_fin (h89 i).2.1
  have hc := fun i => clip_mem (t i)
  have hc1 : ∀ i, |Spec.clip (t i)| ≤ 2 ^ 125 := fun i => by
    rw [abs_of_nonneg (hc i).1]
    exact (hc i).2.trans (one_le_pow₀ one_le_two)
  have sr : ∀ i, Spec.IsSingle (single.near (Spec.clip (t i))) := fun i => isSingle_near (single_fin (hc1 i))
  have rm : ∀ i, 0 ≤ single.near (Spec.clip (t i)) ∧ single.near (Spec.clip (t i)) ≤ 1 := fun i => by
    rw [← clip_near]
    exact clip_mem _
  choose out h10 so o0 o1 eo using fun i => back_pos d2 (sr i) (by
    rw [abs_of_nonneg (rm i).1]
    exact (rm i).2.trans (one_le_pow₀ one_le_two))
  refine ⟨out, fun rest => cdlRevR_pixel ieee L s o p σ d1 d2 x u _ q e w a t (fun i => single.near (t i)) (fun i => single.near (Spec.clip (t i)))
    out l τ rest hσ0 hp0 hs0 h1 h2 (h3 rest) hτ (fun i => (hq i).1) he h5 h6 h7 h8 (fun i => by rw [clip_near]; exact sr i) h10, fun i =>
    ⟨so i, o0 i (rm i).1, o1 i (rm i).2, ?_⟩⟩
  have hT1 := one_le_fullScale (K := K) d2
  have t150 := tiny_zpow (K := K) (n := -150) (by norm_num)
  have t148 := tiny_zpow (K := K) (n := -148) (by norm_num)
  have c1 := (clip_close (t i) _).trans (h89 i).2.2.2
  have c2 := single_rounder.err (Spec.clip (t i))
  rw [abs_of_nonneg (hc i).1] at c2
  have c3 : Spec.clip (t i) * (1 / 2 ^ 24) ≤ 1 * (1 / 2 ^ 24) := mul_le_mul_of_nonneg_right (hc i).2 (by positivity)
  have c4 := eo i
  unfold Spec.reversed Spec.unsaturated
  generalize Spec.clip ((φ i (Spec.clip (Spec.luma (fun j => Spec.clip (x j / Spec.fullScale d1)) + (Spec.clip (x i / Spec.fullScale d1) -
    Spec.luma (fun j => Spec.clip (x j / Spec.fullScale d1))) / σ)) - o i) / s i) = Q at *
  have hr := rm i
  generalize single.near (Spec.clip (t i)) = r at *
  generalize (Spec.fullScale d2 : K) = T at *
  have hrT : |r * T| ≤ T := by
    rw [abs_mul, abs_of_nonneg hr.1, abs_of_pos (by linarith : (0 : K) < T)]
    exact mul_le_of_le_one_left (by linarith) hr.2
  have c5 := abs_sub_le r (Spec.clip (t i)) Q
  have c6 : |r * T - Q * T| ≤ ((E + (1 + O) * (1 / 2 ^ 39)) / m + (1 * (1 / 2 ^ 24) + 2 ^ (-150 : ℤ))) * T := by
    rw [← sub_mul, abs_mul, abs_of_nonneg (by linarith : (0 : K) ≤ T)]
    exact mul_le_mul_of_nonneg_right (by linarith) (by linarith)
  have c7 := abs_sub_le (out i) (r * T) (Q * T)
  have c8 : |r * T| * (9 / 8 * (1 / 2 ^ 24)) ≤ T * (9 / 8 * (1 / 2 ^ 24)) := mul_le_mul_of_nonneg_right hrT (by positivity)
  have c9 : (2 : K) ^ (-148 : ℤ) ≤ T * (1 / 2 ^ 100) := t148.trans (le_mul_of_one_le_left (by positivity) hT1)
  have c10 : (2 : K) ^ (-150 : ℤ) * T ≤ 1 / 2 ^ 100 * T := mul_le_mul_of_nonneg_right t150 (by linarith)
  generalize (E + (1 + O) * (1 / 2 ^ 39)) / m = Z at *
  generalize (2 : K) ^ (-148 : ℤ) = μ at *
  generalize (2 : K) ^ (-150 : ℤ) = ν at *
  have e1 : (Z + (1 * (1 / 2 ^ 24) + ν)) * T = Z * T + T * (1 / 2 ^ 24) + ν * T := by ring
  have e2 : T * (Z + 1 / 2 ^ 22) = Z * T + T * (1 / 2 ^ 22) := by ring
  rw [e1] at c6
  rw [e2]
  generalize Z * T = W at *
  generalize ν * T = N at *
  norm_num at *
  linarith

/-- One pixel of style `RevNoClamp`. -/
theorem cdlRevNoClamp_near (L : Arith K) {s o p : Fin 3 → K} {φ : Fin 3 → K → K} {σ O m E : K} (d1 d2 : Depth) (hu : Spec.Undoable s o p σ O m)
    (hL : ∀ i e, double.round (.fin (1 / p i)) = .fin e → Spec.PowerNear L e (φ i)) (hL0 : ∀ e : K, 0 < e → L.pow (.fin 0) (.fin e) = .fin 0)
    (hφ : ∀ i, Spec.Modulus (φ i) ((1 + 2 / |σ|) * (1 / 2 ^ 23)) E) {x : Fin 3 → K} (hx : ∀ i, Spec.IsSingle (x i))
    (hx1 : ∀ i, |x i| ≤ Spec.fullScale d1) (hm : 1 / 2 ^ 60 ≤ m) :
    ∃ out : Fin 3 → K, (∀ rest, cdlRevNoClampR ieee L (finCdl s o p σ) d1 d2 (Spec.fins x ++ rest) = .ok (Spec.fins out ++ rest)) ∧
      ∀ i, Spec.IsSingle (out i) ∧
        |out i - Spec.reversedFree (Spec.fullScale d1) (Spec.fullScale d2) s o φ σ x i|
          ≤ Spec.fullScale d2 * ((E + (1 + O) * (5 / 2 ^ 22)) / m) := by
  have hm0 : 0 < m := lt_of_lt_of_le (by positivity) hu.small.1
  have hs0 : ∀ i, s i ≠ 0 := fun i h => by
    have := hu.slope i
    rw [h, abs_zero] at this
    linarith
  have hp0 : ∀ i, p i ≠ 0 := fun i => (lt_of_lt_of_le (by positivity) (hu.power i).1).ne'
  have hσ0 : σ ≠ 0 := fun h => by
    have := hu.saturation.1
    rw [h, abs_zero] at this
    exact absurd this (not_le.mpr (by positivity))
  have hO0 : 0 ≤ O := (abs_nonneg _).trans (hu.offset 0)
  have hS := fullScale_pos (K := K) d1
  have t150 := tiny_zpow (K := K) (n := -150) (by norm_num)
  have t148 := tiny_zpow (K := K) (n := -148) (by norm_num)
  choose u h1 _ _ _ _ _ eu using fun i => unit_pos d1 (hx i)
  have ax : ∀ i, |x i / Spec.fullScale d1| ≤ 1 := fun i => by
    rw [abs_div, abs_of_pos hS]
    exact (div_le_one hS).mpr (hx1 i)
  have eu' : ∀ i, |u i - x i / Spec.fullScale d1| ≤ 5 / 4 * (1 / 2 ^ 24) := fun i => by
    refine (eu i).trans ?_
    have := mul_le_mul_of_nonneg_right (ax i) (by positivity : (0 : K) ≤ 9 / 8 * (1 / 2 ^ 24))
    generalize (2 : K) ^ (-148 : ℤ) = μ at *
    generalize |x i / Spec.fullScale d1| * (9 / 8 * (1 / 2 ^ 24)) = Z at *
    norm_num at *
    linarith
  obtain ⟨l, τ, q, h3, hτ, hq⟩ := unsaturate_near (c := u) (y := fun i => x i / Spec.fullScale d1)
    hu.saturation.1 hu.saturation.2 (fun i => by
      have := abs_of_near (eu' i) (ax i)
      norm_num at *
      linarith) eu'
  obtain ⟨e, w, a, t, he, h5, h6, h7, h89⟩ := unpowers_near L hu hL hφ (fun i => (hq i).2.1) (fun i => (hq i).2.2)
  have h8 := fun i => single_fin (h89 i).2.1
  have im : 1 / m ≤ 2 ^ 60 := by
    rw [div_le_iff₀ hm0]
    have := mul_le_mul_of_nonneg_left hm (by positivity : (0 : K) ≤ 2 ^ 60)
    rwa [mul_one_div_cancel (by positivity)] at this
  have im' : 1 / 2 ^ 100 ≤ 1 / m := one_div_le_one_div_of_le hm0 hu.small.2
  have hZ0 : 0 ≤ (3 + O) / m := by positivity
  have eg : ∀ i, |single.near (t i) - t i| ≤ 2 * (3 + O) / m * (1 / 2 ^ 24) + 2 ^ (-150 : ℤ) := fun i =>
    (single_rounder.err (t i)).trans (add_le_add_left (mul_le_mul_of_nonneg_right (h89 i).2.2.1 (by positivity)) _)
  have ag : ∀ i, |single.near (t i)| ≤ 4 * (3 + O) / m := fun i => by
    have b1 := abs_of_near (eg i) (h89 i).2.2.1
    have b2 : 1 / m ≤ (3 + O) / m := div_le_div_of_nonneg_right (by linarith) hm0.le
    have e1 : 2 * (3 + O) / m = 2 * ((3 + O) / m) := by ring
    have e2 : 4 * (3 + O) / m = 4 * ((3 + O) / m) := by ring
    rw [e1] at b1
    rw [e2]
    generalize (3 + O) / m = Z at *
    generalize (2 : K) ^ (-150 : ℤ) = ν at *
    generalize (1 : K) / 2 ^ 100 = κ at *
    norm_num at b1 ⊢
    linarith
  have bg : ∀ i, |single.near (t i)| ≤ 2 ^ 100 := fun i => by
    refine (ag i).trans ?_
    rw [div_eq_mul_one_div]
    have hl := hu.limit
    refine (mul_le_mul (by linarith : 4 * (3 + O) ≤ 4 * (3 + 2 ^ 20)) im (by positivity) (by positivity)).trans ?_
    norm_num
  choose out h10 so _ _ eo using fun i => back_pos d2 (isSingle_near (h8 i)) (bg i)
  refine ⟨out, fun rest => cdlRevNoClampR_pixel ieee L s o p σ d1 d2 x u q e w a t (fun i => single.near (t i))
    out l τ rest hσ0 hp0 hs0 h1 (h3 rest) hτ (fun i => (hq i).1) he h5 (fun i hq0 => ?_) h6 h7 h8 h10, fun i =>
    ⟨so i, ?_⟩⟩
  · have := h5 i
    rw [pyPow_ok (clip_mem _).1 (.inl (h89 i).1), Spec.clip, max_eq_left hq0.le, min_eq_right zero_le_one, hL0 _ (h89 i).1] at this
    exact (Flt.fin.inj (Except.ok.inj this)).symm
  have hT1 := one_le_fullScale (K := K) d2
  have c1 := (h89 i).2.2.2
  have c2 := eg i
  have c3 := ag i
  have c4 := eo i
  unfold Spec.reversedFree Spec.unsaturated
  generalize (φ i (Spec.clip (Spec.luma (fun j => x j / Spec.fullScale d1) + (x i / Spec.fullScale d1 -
    Spec.luma (fun j => x j / Spec.fullScale d1)) / σ)) - o i) / s i = Q at *
  generalize single.near (t i) = g at *
  generalize (Spec.fullScale d2 : K) = T at *
  have hT0 : (0 : K) ≤ T := by linarith
  have c5 := abs_sub_le g (t i) Q
  have c6 : |g * T - Q * T| ≤ (2 * (3 + O) / m * (1 / 2 ^ 24) + 2 ^ (-150 : ℤ) + (E + (1 + O) * (1 / 2 ^ 39)) / m) * T := by
    rw [← sub_mul, abs_mul, abs_of_nonneg hT0]
    exact mul_le_mul_of_nonneg_right (by linarith) hT0
  have c7 := abs_sub_le (out i) (g * T) (Q * T)
  have c8 : |g * T| * (9 / 8 * (1 / 2 ^ 24)) ≤ 4 * (3 + O) / m * (9 / 8 * (1 / 2 ^ 24)) * T := by
    rw [abs_mul, abs_of_nonneg hT0]
    calc |g| * T * (9 / 8 * (1 / 2 ^ 24)) ≤ 4 * (3 + O) / m * T * (9 / 8 * (1 / 2 ^ 24)) := by gcongr
      _ = _ := by ring
  have k1 : (2 : K) ^ (-150 : ℤ) ≤ 1 / 2 ^ 40 / m := by
    have h1 : (2 : K) ^ (-150 : ℤ) ≤ 1 / 2 ^ 40 * (1 / 2 ^ 100) := by
      rw [one_div_mul_one_div, ← pow_add, one_div, ← zpow_natCast, ← zpow_neg]
      exact zpow_le_zpow_right₀ one_le_two (by norm_num)
    refine h1.trans ((mul_le_mul_of_nonneg_left im' (by positivity)).trans_eq ?_)
    ring
  have k2 : (2 : K) ^ (-148 : ℤ) ≤ 1 / 2 ^ 40 / m * T := by
    have h1 : (2 : K) ^ (-148 : ℤ) ≤ 1 / 2 ^ 40 * (1 / 2 ^ 100) := by
      rw [one_div_mul_one_div, ← pow_add, one_div, ← zpow_natCast, ← zpow_neg]
      exact zpow_le_zpow_right₀ one_le_two (by norm_num)
    have h2 : (2 : K) ^ (-148 : ℤ) ≤ 1 / 2 ^ 40 / m := by
      refine h1.trans ((mul_le_mul_of_nonneg_left im' (by positivity)).trans_eq ?_)
      ring
    exact h2.trans (le_mul_of_one_le_right (by positivity) hT1)
  refine (c7.trans (add_le_add (c4.trans (add_le_add c8 k2)) (c6.trans (mul_le_mul_of_nonneg_right (add_le_add_left (add_le_add_right k1 _) _) hT0)))).trans ?_
  rw [← add_mul, ← add_mul, mul_comm]
  refine mul_le_mul_of_nonneg_left ?_ hT0
  have e1 : 4 * (3 + O) / m * (9 / 8 * (1 / 2 ^ 24)) + 1 / 2 ^ 40 / m
      + (2 * (3 + O) / m * (1 / 2 ^ 24) + 1 / 2 ^ 40 / m + (E + (1 + O) * (1 / 2 ^ 39)) / m)
      = (E + (4 * (3 + O) * (9 / 8 * (1 / 2 ^ 24)) + 1 / 2 ^ 40 + 2 * (3 + O) * (1 / 2 ^ 24) + 1 / 2 ^ 40 + (1 + O) * (1 / 2 ^ 39))) / m := by
    field_simp
    ring
  rw [e1]
  refine div_le_div_of_nonneg_right ?_ hm0.le
  norm_num
  linarith

end CLF
