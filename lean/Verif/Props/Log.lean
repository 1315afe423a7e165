import Verif.Lemmas.Log

/-! # Properties C32, C33: Log -/

set_option linter.unusedSectionVars false

namespace CLF

/-! ### C32: logarithms and antilogarithms -/

/-- C32: `antiLog10` after `log10` (and `antiLog2` after `log2`) returns every value not
below the smallest normal float; smaller ones are raised to it. -/
theorem C32_antilog_log (A : Arith ℝ) (hA : Spec.RealArith A) (rows : List (LogParam ℝ))
    (hr : Spec.GoodLetters LogParam.channel rows) (bf br : Base ℝ) (d1 d2 : AVal)
    (style : (StyledNode bf d1 d2 (.str "log10") ∧ StyledNode br d2 d1 (.str "antiLog10")) ∨
      (StyledNode bf d1 d2 (.str "log2") ∧ StyledNode br d2 d1 (.str "antiLog2")))
    (stride : ℕ) (hs : 3 ≤ stride)
    (pixels : List ((Fin 3 → ℝ) × List (Flt ℝ))) (hp : ∀ p ∈ pixels, p.2.length + 3 = stride) :
    ∃ r r', logProcess A rows bf (Spec.image pixels) stride = .ok r ∧
      logProcess A rows br r.out stride = .ok r' ∧
      r'.out = Spec.image (pixels.map fun p => (fun i =>
        max (p.1 i) (Spec.floor32 * Spec.fullScale (some d1)), p.2)) := by
  have hfs1 : (0 : ℝ) < Spec.fullScale (some d1) := fullScale_pos _
  have hpos : ∀ x : ℝ, 0 < max x Spec.floor32 := fun x => lt_max_of_lt_right floor32_pos
  have fin : ∀ p : (Fin 3 → ℝ) × List (Flt ℝ), ∀ i,
      max (p.1 i / Spec.fullScale (some d1)) Spec.floor32 * Spec.fullScale (some d1)
        = max (p.1 i) (Spec.floor32 * Spec.fullScale (some d1)) := by
    intro p i
    rw [max_mul_of_nonneg _ _ hfs1.le, div_mul_cancel₀ _ hfs1.ne']
  rcases style with ⟨hf, hb⟩ | ⟨hf, hb⟩
  · obtain ⟨r, r', h1, h2, h3⟩ := log_roundtrip A hA.exact rows hr bf br d1 d2 _ _ hf hb _ _ rfl rfl
      stride hs pixels hp (fun _ x => Real.logb 10 (max x Spec.floor32)) (fun _ y => (10 : ℝ) ^ y) (by
        intro p _ i
        simp only [floatMin_eq, Flt.pmax_fin, hA.log10 _ (hpos _), py_pure,
          hA.pow _ _ (.inl (by norm_num : (0 : ℝ) < 10)), and_self])
    refine ⟨r, r', h1, h2, ?_⟩
    rw [h3]
    refine congrArg Spec.image (List.map_congr_left fun p hp' => ?_)
    ext i
    · simp only
      rw [Real.rpow_logb (by norm_num) (by norm_num) (hpos _), fin]
    · rfl
  · have h2' : Real.logb 10 2 ≠ 0 := (Real.logb_pos (by norm_num) (by norm_num)).ne'
    obtain ⟨r, r', h1, h2, h3⟩ := log_roundtrip A hA.exact rows hr bf br d1 d2 _ _ hf hb _ _ rfl rfl
      stride hs pixels hp (fun _ x => Real.logb 10 (max x Spec.floor32) / Real.logb 10 2)
      (fun _ y => (2 : ℝ) ^ y) (by
        intro p _ i
        simp only [floatMin_eq, Flt.pmax_fin, hA.log10 _ (hpos _), hA.log10 _ (by norm_num : (0 : ℝ) < 2),
          Flt.fin_div h2', py_pure, hA.pow _ _ (.inl (by norm_num : (0 : ℝ) < 2)), and_self])
    refine ⟨r, r', h1, h2, ?_⟩
    rw [h3]
    refine congrArg Spec.image (List.map_congr_left fun p hp' => ?_)
    ext i
    · simp only
      have : Real.logb 10 (max (p.1 i / Spec.fullScale (some d1)) Spec.floor32) / Real.logb 10 2
          = Real.logb 2 (max (p.1 i / Spec.fullScale (some d1)) Spec.floor32) := by
        simp only [Real.logb]
        have : Real.log 10 ≠ 0 := (Real.log_pos (by norm_num)).ne'
        field_simp
      rw [this, Real.rpow_logb (by norm_num) (by norm_num) (hpos _), fin]
    · rfl

/-- C32: `log10` after `antiLog10` (and `log2` after `antiLog2`) returns every value
whose antilogarithm is not below the smallest normal float. -/
theorem C32_log_antilog (A : Arith ℝ) (hA : Spec.RealArith A) (rows : List (LogParam ℝ))
    (hr : Spec.GoodLetters LogParam.channel rows) (bf br : Base ℝ) (d1 d2 : AVal) (base : ℝ)
    (style : (base = 10 ∧ StyledNode bf d1 d2 (.str "antiLog10") ∧ StyledNode br d2 d1 (.str "log10")) ∨
      (base = 2 ∧ StyledNode bf d1 d2 (.str "antiLog2") ∧ StyledNode br d2 d1 (.str "log2")))
    (stride : ℕ) (hs : 3 ≤ stride)
    (pixels : List ((Fin 3 → ℝ) × List (Flt ℝ))) (hp : ∀ p ∈ pixels, p.2.length + 3 = stride)
    (hfloor : ∀ p ∈ pixels, ∀ i, Spec.floor32 ≤ base ^ (p.1 i / Spec.fullScale (some d1))) :
    ∃ r r', logProcess A rows bf (Spec.image pixels) stride = .ok r ∧
      logProcess A rows br r.out stride = .ok r' ∧ r'.out = Spec.image pixels := by
  have hfs1 : (Spec.fullScale (some d1) : ℝ) ≠ 0 := fullScale_ne _
  have hpos : ∀ x : ℝ, 0 < max x Spec.floor32 := fun x => lt_max_of_lt_right floor32_pos
  rcases style with ⟨rfl, hf, hb⟩ | ⟨rfl, hf, hb⟩
  · obtain ⟨r, r', h1, h2, h3⟩ := log_roundtrip A hA.exact rows hr bf br d1 d2 _ _ hf hb _ _ rfl rfl
      stride hs pixels hp (fun _ x => (10 : ℝ) ^ x) (fun _ y => Real.logb 10 (max y Spec.floor32)) (by
        intro p _ i
        simp only [floatMin_eq, Flt.pmax_fin, hA.log10 _ (hpos _), py_pure,
          hA.pow _ _ (.inl (by norm_num : (0 : ℝ) < 10)), and_self])
    refine ⟨r, r', h1, h2, ?_⟩
    rw [h3]
    conv_rhs => rw [← List.map_id pixels]
    refine congrArg Spec.image (List.map_congr_left fun p hp' => ?_)
    ext i
    · simp only [id_eq]
      rw [max_eq_left (hfloor p hp' i), Real.logb_rpow (by norm_num) (by norm_num), div_mul_cancel₀ _ hfs1]
    · rfl
  · have h2' : Real.logb 10 2 ≠ 0 := (Real.logb_pos (by norm_num) (by norm_num)).ne'
    obtain ⟨r, r', h1, h2, h3⟩ := log_roundtrip A hA.exact rows hr bf br d1 d2 _ _ hf hb _ _ rfl rfl
      stride hs pixels hp (fun _ y => (2 : ℝ) ^ y)
      (fun _ x => Real.logb 10 (max x Spec.floor32) / Real.logb 10 2) (by
        intro p _ i
        simp only [floatMin_eq, Flt.pmax_fin, hA.log10 _ (hpos _), hA.log10 _ (by norm_num : (0 : ℝ) < 2),
          Flt.fin_div h2', py_pure, hA.pow _ _ (.inl (by norm_num : (0 : ℝ) < 2)), and_self])
    refine ⟨r, r', h1, h2, ?_⟩
    rw [h3]
    conv_rhs => rw [← List.map_id pixels]
    refine congrArg Spec.image (List.map_congr_left fun p hp' => ?_)
    ext i
    · simp only [id_eq]
      rw [max_eq_left (hfloor p hp' i), Real.logb_rpow_eq_mul_logb_of_pos (by norm_num),
        mul_div_cancel_right₀ _ h2', div_mul_cancel₀ _ hfs1]
    · rfl

/-! ### C33: the film log curves -/

/-- C33: with the same parameters, `logToLin` after `linToLog` returns every linear
value whose relative exposure is not below the floating-point floor. -/
theorem C33_lin_log_lin (A : Arith ℝ) (hA : Spec.RealArith A) (rows : List (LogParam ℝ))
    (hr : Spec.GoodLetters LogParam.channel rows) (p : Fin 3 → Spec.FilmLog)
    (hl : ∀ i, Spec.LogIs rows i (p i)) (hg : ∀ i, (p i).gamma ≠ 0)
    (hh : ∀ i, (p i).highlight ≠ (p i).shadow) (bf br : Base ℝ) (d1 d2 : AVal)
    (hbf : StyledNode bf d1 d2 (.str "linToLog")) (hbr : StyledNode br d2 d1 (.str "logToLin"))
    (stride : ℕ) (hs : 3 ≤ stride)
    (pixels : List ((Fin 3 → ℝ) × List (Flt ℝ))) (hp : ∀ q ∈ pixels, q.2.length + 3 = stride)
    (hfloor : ∀ q ∈ pixels, ∀ i, Spec.floor32 ≤ (p i).ofLinear (q.1 i / Spec.fullScale (some d1))) :
    ∃ r r', logProcess A rows bf (Spec.image pixels) stride = .ok r ∧
      logProcess A rows br r.out stride = .ok r' ∧ r'.out = Spec.image pixels := by
  have hfs1 : (Spec.fullScale (some d1) : ℝ) ≠ 0 := fullScale_ne _
  obtain ⟨r, r', h1, h2, h3⟩ := log_roundtrip A hA.exact rows hr bf br d1 d2 _ _ hbf hbr _ _ rfl rfl
    stride hs pixels hp
    (fun i y => ((p i).refWhite + Real.logb 10 (max Spec.floor32 ((p i).ofLinear y))
        * (p i).gamma / 0.002) / 1023)
    (fun i x => (p i).linear ((p i).exposure x)) (by
      intro q _ i
      obtain ⟨c, hc⟩ := logIs_row (hl i)
      rw [hc]
      exact ⟨linToLog_fin hA (p i) (hg i) (hh i) c _, logToLin_fin hA (p i) (hg i) c _⟩)
  refine ⟨r, r', h1, h2, ?_⟩
  rw [h3]
  conv_rhs => rw [← List.map_id pixels]
  refine congrArg Spec.image (List.map_congr_left fun q hq => ?_)
  ext i
  · simp only [id_eq]
    rw [exposure_code (p i) (hg i) (lt_max_of_lt_left floor32_pos), max_eq_right (hfloor q hq i),
      linear_ofLinear _ (hh i), div_mul_cancel₀ _ hfs1]
  · rfl

/-- C33: with the same parameters, `linToLog` after `logToLin` returns every log code
value whose relative exposure is not below the floating-point floor. -/
theorem C33_log_lin_log (A : Arith ℝ) (hA : Spec.RealArith A) (rows : List (LogParam ℝ))
    (hr : Spec.GoodLetters LogParam.channel rows) (p : Fin 3 → Spec.FilmLog)
    (hl : ∀ i, Spec.LogIs rows i (p i)) (hg : ∀ i, (p i).gamma ≠ 0)
    (hh : ∀ i, (p i).highlight ≠ (p i).shadow) (bf br : Base ℝ) (d1 d2 : AVal)
    (hbf : StyledNode bf d1 d2 (.str "logToLin")) (hbr : StyledNode br d2 d1 (.str "linToLog"))
    (stride : ℕ) (hs : 3 ≤ stride)
    (pixels : List ((Fin 3 → ℝ) × List (Flt ℝ))) (hp : ∀ q ∈ pixels, q.2.length + 3 = stride)
    (hfloor : ∀ q ∈ pixels, ∀ i, Spec.floor32 ≤ (p i).exposure (q.1 i / Spec.fullScale (some d1))) :
    ∃ r r', logProcess A rows bf (Spec.image pixels) stride = .ok r ∧
      logProcess A rows br r.out stride = .ok r' ∧ r'.out = Spec.image pixels := by
  have hfs1 : (Spec.fullScale (some d1) : ℝ) ≠ 0 := fullScale_ne _
  obtain ⟨r, r', h1, h2, h3⟩ := log_roundtrip A hA.exact rows hr bf br d1 d2 _ _ hbf hbr _ _ rfl rfl
    stride hs pixels hp
    (fun i x => (p i).linear ((p i).exposure x))
    (fun i y => ((p i).refWhite + Real.logb 10 (max Spec.floor32 ((p i).ofLinear y))
        * (p i).gamma / 0.002) / 1023) (by
      intro q _ i
      obtain ⟨c, hc⟩ := logIs_row (hl i)
      rw [hc]
      exact ⟨logToLin_fin hA (p i) (hg i) c _, linToLog_fin hA (p i) (hg i) (hh i) c _⟩)
  refine ⟨r, r', h1, h2, ?_⟩
  rw [h3]
  conv_rhs => rw [← List.map_id pixels]
  refine congrArg Spec.image (List.map_congr_left fun q hq => ?_)
  ext i
  · simp only [id_eq]
    rw [ofLinear_linear _ (hh i), max_eq_right (hfloor q hq i), code_exposure _ (hg i),
      div_mul_cancel₀ _ hfs1]
  · rfl

/-! ### Instances -/

/-- The default curve meets the hypotheses, and so does every code value in [0, 1]. -/
example : (∀ i, Spec.LogIs [] i ⟨0.6, 685, 95, 1, 0⟩) ∧ ((0.6 : ℝ) ≠ 0) ∧ ((1 : ℝ) ≠ 0) := by
  refine ⟨fun i => rfl, by norm_num, by norm_num⟩

example (x : ℝ) (h : 0 ≤ x) : Spec.floor32 ≤ Spec.FilmLog.exposure ⟨0.6, 685, 95, 1, 0⟩ x := by
  unfold Spec.FilmLog.exposure
  have h1 : (10 : ℝ) ^ (-3 : ℝ) ≤ 10 ^ ((1023 * x - 685) * 0.002 / 0.6 : ℝ) := by
    apply Real.rpow_le_rpow_of_exponent_le (by norm_num)
    rw [le_div_iff₀ (by norm_num)]
    nlinarith
  refine le_trans ?_ h1
  rw [Real.rpow_neg (by norm_num), show (3 : ℝ) = ((3 : ℕ) : ℝ) by norm_num, Real.rpow_natCast]
  unfold Spec.floor32; norm_num

example : Spec.floor32 ≤ (10 : ℝ) ^ (-5 : ℝ) := by
  rw [Real.rpow_neg (by norm_num), show (5 : ℝ) = ((5 : ℕ) : ℝ) by norm_num, Real.rpow_natCast]
  unfold Spec.floor32; norm_num

end CLF
