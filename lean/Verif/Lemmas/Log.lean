import Verif.Lemmas.Gamma

/-! # Lemmas: log curves -/

set_option linter.unusedSectionVars false

namespace CLF

/-- The row in effect for a channel. -/
noncomputable def logRow (rows : List (LogParam ℝ)) (i : Fin 3) : LogParam ℝ :=
  (Spec.rowFor LogParam.channel rows i).getD ⟨.fin (6 / 10), .fin 685, .fin 95, .fin 1, .fin 0, none⟩

theorem logParams_eq (rows : List (LogParam ℝ)) (h : Spec.GoodLetters LogParam.channel rows) :
    logParams rows = .ok (List.ofFn fun i : Fin 3 => logRow rows i) := by
  unfold logParams
  refine (rows_fold LogParam.channel id _ rows h).trans ?_
  congr 2
  funext i
  unfold logRow
  rw [Option.map_id_apply]

/-- A Log node of a known style on finite pixels. -/
theorem logProcess_image (A : Arith ℝ) (hA : A.Exact) (rows : List (LogParam ℝ))
    (hr : Spec.GoodLetters LogParam.channel rows) (b : Base ℝ) (d1 d2 st : AVal)
    (h : StyledNode b d1 d2 st) (f : LogParam ℝ → Flt ℝ → Py (Flt ℝ))
    (hf : logStyle A st = some f) (stride : ℕ) (hs : 3 ≤ stride)
    (pixels : List ((Fin 3 → ℝ) × List (Flt ℝ))) (hp : ∀ p ∈ pixels, p.2.length + 3 = stride)
    (F : Fin 3 → ℝ → ℝ)
    (hF : ∀ p ∈ pixels, ∀ i : Fin 3, f (logRow rows i)
      (.fin (p.1 i / Spec.fullScale (some d1)))
        = .ok (.fin (F i (p.1 i / Spec.fullScale (some d1))))) :
    logProcess A rows b (Spec.image pixels) stride
      = .ok ⟨Spec.image (pixels.map fun p => (fun i => F i (p.1 i / Spec.fullScale (some d1))
            * Spec.fullScale (some d2), p.2)),
          Spec.image (pixels.map fun p => (fun i => F i (p.1 i / Spec.fullScale (some d1))
            * Spec.fullScale (some d2), p.2)), false⟩ := by
  obtain ⟨e1, e2, e3⟩ := h.attrs
  unfold logProcess
  simp only [e1, e2, e3, py_ok_bind, logParams_eq rows hr, hf]
  refine chanNode_image stride hs _ pixels hp
    (fun i x => F i (x / Spec.fullScale (some d1)) * Spec.fullScale (some d2)) ?_
  intro p hp' i
  simp only [ofFn3_get, py_ok_bind, hA _, toNormalized_fin, bitDepthSize_eq_fullScale,
    hF p hp' i, toDepth_fin, py_pure]

/-- Two Log nodes one after the other. -/
theorem log_roundtrip (A : Arith ℝ) (hA : A.Exact) (rows : List (LogParam ℝ))
    (hr : Spec.GoodLetters LogParam.channel rows) (bf br : Base ℝ) (d1 d2 st st' : AVal)
    (hbf : StyledNode bf d1 d2 st) (hbr : StyledNode br d2 d1 st')
    (f f' : LogParam ℝ → Flt ℝ → Py (Flt ℝ)) (hf : logStyle A st = some f)
    (hf' : logStyle A st' = some f') (stride : ℕ) (hs : 3 ≤ stride)
    (pixels : List ((Fin 3 → ℝ) × List (Flt ℝ))) (hp : ∀ p ∈ pixels, p.2.length + 3 = stride)
    (G H : Fin 3 → ℝ → ℝ)
    (step : ∀ p ∈ pixels, ∀ i : Fin 3,
      f (logRow rows i) (.fin (p.1 i / Spec.fullScale (some d1)))
        = .ok (.fin (G i (p.1 i / Spec.fullScale (some d1)))) ∧
      f' (logRow rows i) (.fin (G i (p.1 i / Spec.fullScale (some d1))))
        = .ok (.fin (H i (G i (p.1 i / Spec.fullScale (some d1)))))) :
    ∃ r r', logProcess A rows bf (Spec.image pixels) stride = .ok r ∧
      logProcess A rows br r.out stride = .ok r' ∧
      r'.out = Spec.image (pixels.map fun p => (fun i =>
        H i (G i (p.1 i / Spec.fullScale (some d1))) * Spec.fullScale (some d1), p.2)) := by
  have hfs2 : (Spec.fullScale (some d2) : ℝ) ≠ 0 := fullScale_ne _
  have fwd := logProcess_image A hA rows hr bf d1 d2 _ hbf f hf stride hs pixels hp G
    (fun p hp' i => (step p hp' i).1)
  have bwd := logProcess_image A hA rows hr br d2 d1 _ hbr f' hf' stride hs
    (pixels.map fun p => (fun i => G i (p.1 i / Spec.fullScale (some d1))
      * Spec.fullScale (some d2), p.2)) (by
      intro p hp'
      obtain ⟨q, hq, rfl⟩ := List.mem_map.mp hp'
      exact hp q hq) H (by
      intro p hp' i
      obtain ⟨q, hq, rfl⟩ := List.mem_map.mp hp'
      simp only [mul_div_cancel_right₀ _ hfs2]
      exact (step q hq i).2)
  refine ⟨_, _, fwd, bwd, ?_⟩
  simp only [List.map_map]
  refine congrArg Spec.image (List.map_congr_left fun p hp' => ?_)
  ext i
  · simp only [Function.comp_apply, mul_div_cancel_right₀ _ hfs2]
  · rfl

theorem floatMin_eq : (floatMin : Flt ℝ) = .fin Spec.floor32 := by
  unfold floatMin Spec.floor32; congr 1; norm_num

theorem floor32_pos : 0 < Spec.floor32 := by unfold Spec.floor32; norm_num

theorem black_pos (p : Spec.FilmLog) : 0 < p.black := Real.rpow_pos_of_pos (by norm_num) _

theorem black_lt (p : Spec.FilmLog) : p.black < 1 :=
  Real.rpow_lt_one_of_one_lt_of_neg (by norm_num) (lt_of_le_of_lt (min_le_left _ _) (by norm_num))

theorem exposure_pos (p : Spec.FilmLog) (x : ℝ) : 0 < p.exposure x :=
  Real.rpow_pos_of_pos (by norm_num) _

variable {A : Arith ℝ}

theorem pyPow10 (hA : Spec.RealArith A) (e : ℝ) :
    pyPow A (.fin 10) (.fin e) = .ok (.fin ((10 : ℝ) ^ e)) := by
  rw [pyPow_ok (by norm_num) (.inr (by norm_num)), hA.pow _ _ (.inl (by norm_num))]

/-- The row in effect has the values of `p`. -/
theorem logIs_row {rows : List (LogParam ℝ)} {i : Fin 3} {p : Spec.FilmLog} (h : Spec.LogIs rows i p) :
    ∃ c, logRow rows i = ⟨.fin p.gamma, .fin p.refWhite, .fin p.refBlack, .fin p.highlight,
      .fin p.shadow, c⟩ := by
  unfold Spec.LogIs at h
  unfold logRow
  cases hrow : Spec.rowFor LogParam.channel rows i with
  | none =>
    rw [hrow] at h
    simp only at h
    subst h
    refine ⟨none, ?_⟩
    simp only [Option.getD_none]
    congr 2
    norm_num
  | some r =>
    rw [hrow] at h
    obtain ⟨g, w, b, hi, s, c⟩ := r
    obtain ⟨h1, h2, h3, h4, h5⟩ := h
    simp only at h1 h2 h3 h4 h5
    subst h1 h2 h3 h4 h5
    exact ⟨c, rfl⟩

theorem logGain_fin (hA : Spec.RealArith A) (p : Spec.FilmLog) (hg : p.gamma ≠ 0) (c : Option String) :
    logGain A ⟨.fin p.gamma, .fin p.refWhite, .fin p.refBlack, .fin p.highlight, .fin p.shadow, c⟩
      = .ok (.fin p.black, .fin ((p.highlight - p.shadow) / (1 - p.black))) := by
  unfold logGain
  have hb : (1 : ℝ) - p.black ≠ 0 := by linarith [black_lt p]
  have e : p.black = 10 ^ (min (-1 / 100000) ((p.refBlack - p.refWhite) * (2 / 1000) / p.gamma)) := by
    unfold Spec.FilmLog.black; norm_num
  simp only [Flt.fin_sub, Flt.fin_mul, pyDivF_fin hg, py_ok_bind, Flt.pmin_fin, pyPow10 hA, ← e,
    pyDivF_fin hb, py_pure]

theorem logToLin_fin (hA : Spec.RealArith A) (p : Spec.FilmLog) (hg : p.gamma ≠ 0) (c : Option String)
    (x : ℝ) :
    logToLin A ⟨.fin p.gamma, .fin p.refWhite, .fin p.refBlack, .fin p.highlight, .fin p.shadow, c⟩
      (.fin x) = .ok (.fin (p.linear (p.exposure x))) := by
  unfold logToLin
  rw [logGain_fin hA p hg]
  have e : (1023 * x - p.refWhite) * (2 / 1000) / p.gamma = (1023 * x - p.refWhite) * 0.002 / p.gamma := by
    norm_num
  simp only [py_ok_bind, Flt.fin_sub, Flt.fin_mul, Flt.fin_div hg, hA.pow _ _ (.inl (by norm_num : (0:ℝ) < 10)),
    Flt.fin_add, py_pure, e]
  congr 2
  unfold Spec.FilmLog.linear Spec.FilmLog.exposure
  ring

theorem linToLog_fin (hA : Spec.RealArith A) (p : Spec.FilmLog) (hg : p.gamma ≠ 0)
    (hh : p.highlight ≠ p.shadow) (c : Option String) (y : ℝ) :
    linToLog A ⟨.fin p.gamma, .fin p.refWhite, .fin p.refBlack, .fin p.highlight, .fin p.shadow, c⟩
      (.fin y) = .ok (.fin ((p.refWhite + Real.logb 10 (max Spec.floor32 (p.ofLinear y))
        * p.gamma / 0.002) / 1023)) := by
  unfold linToLog
  rw [logGain_fin hA p hg]
  have hb : (1 : ℝ) - p.black ≠ 0 := by linarith [black_lt p]
  have hgain : (p.highlight - p.shadow) / (1 - p.black) ≠ 0 := div_ne_zero (sub_ne_zero.mpr hh) hb
  have hpos : 0 < max Spec.floor32 (p.ofLinear y) := lt_max_of_lt_left floor32_pos
  have e : p.black + (y - p.shadow) / ((p.highlight - p.shadow) / (1 - p.black)) = p.ofLinear y := rfl
  simp only [py_ok_bind, Flt.fin_sub, Flt.fin_div hgain, Flt.fin_add, e, floatMin_eq, Flt.pmax_fin,
    hA.log10 _ hpos, Flt.fin_mul, Flt.fin_div (by norm_num : (2 / 1000 : ℝ) ≠ 0),
    Flt.fin_div (by norm_num : (1023 : ℝ) ≠ 0), py_pure]
  congr 2
  norm_num

theorem linear_ofLinear (p : Spec.FilmLog) (hh : p.highlight ≠ p.shadow) (y : ℝ) :
    p.linear (p.ofLinear y) = y := by
  have hb : (1 : ℝ) - p.black ≠ 0 := by linarith [black_lt p]
  have hgain : (p.highlight - p.shadow) / (1 - p.black) ≠ 0 := div_ne_zero (sub_ne_zero.mpr hh) hb
  unfold Spec.FilmLog.linear Spec.FilmLog.ofLinear
  rw [add_sub_cancel_left, div_mul_cancel₀ _ hgain]; ring

theorem ofLinear_linear (p : Spec.FilmLog) (hh : p.highlight ≠ p.shadow) (e : ℝ) :
    p.ofLinear (p.linear e) = e := by
  have hb : (1 : ℝ) - p.black ≠ 0 := by linarith [black_lt p]
  have hgain : (p.highlight - p.shadow) / (1 - p.black) ≠ 0 := div_ne_zero (sub_ne_zero.mpr hh) hb
  unfold Spec.FilmLog.linear Spec.FilmLog.ofLinear
  rw [add_sub_cancel_left, mul_div_cancel_right₀ _ hgain]; ring

/-- The exposure of the code value of an exposure. -/
theorem exposure_code (p : Spec.FilmLog) (hg : p.gamma ≠ 0) {e : ℝ} (he : 0 < e) :
    p.exposure ((p.refWhite + Real.logb 10 e * p.gamma / 0.002) / 1023) = e := by
  unfold Spec.FilmLog.exposure
  have : (1023 * ((p.refWhite + Real.logb 10 e * p.gamma / 0.002) / 1023) - p.refWhite) * 0.002 / p.gamma
      = Real.logb 10 e := by
    field_simp; ring
  rw [this, Real.rpow_logb (by norm_num) (by norm_num) he]

/-- The code value of the exposure of a code value. -/
theorem code_exposure (p : Spec.FilmLog) (hg : p.gamma ≠ 0) (x : ℝ) :
    (p.refWhite + Real.logb 10 (p.exposure x) * p.gamma / 0.002) / 1023 = x := by
  unfold Spec.FilmLog.exposure
  rw [Real.logb_rpow (by norm_num) (by norm_num)]
  field_simp; ring

end CLF
