import Verif.Lemmas.Cdl
import Verif.Lemmas.Log
import Verif.Props.Exposure

/-! # Property C156: tone curves keep the order of colours -/

set_option linter.unusedSectionVars false

namespace CLF

/-- On images with `stride` numbers per pixel, `f` replaces every colour by one that depends on that colour alone and keeps all further channels;
and of two colours, one of which is nowhere darker than the other, it makes two of which the same is true. -/
def Spec.OrderKept (stride : ℕ) (f : List (Flt ℝ) → Py (List (Flt ℝ))) : Prop :=
  ∃ g : (Fin 3 → ℝ) → Fin 3 → ℝ, (∀ x y, (∀ i, x i ≤ y i) → ∀ i, g x i ≤ g y i) ∧
    ∀ pixels : List ((Fin 3 → ℝ) × List (Flt ℝ)), (∀ p ∈ pixels, p.2.length + 3 = stride) →
      f (Spec.image pixels) = .ok (Spec.image (pixels.map fun p => (g p.1, p.2)))

/-- The pixels a node leaves. -/
def outOf {K : Type} (r : Py (Res K)) : Py (List (Flt K)) := do let r ← r; pure r.out

theorem clip_mono : Monotone (Spec.clip : ℝ → ℝ) := fun _ _ h => min_le_min le_rfl (max_le_max le_rfl h)

theorem sat_mono {σ : ℝ} (h0 : 0 ≤ σ) (h1 : σ ≤ 1) {w w' : Fin 3 → ℝ} (h : w ≤ w') (i : Fin 3) :
    Spec.luma w + σ * (w i - Spec.luma w) ≤ Spec.luma w' + σ * (w' i - Spec.luma w') := by
  have hl : Spec.luma w ≤ Spec.luma w' := by
    unfold Spec.luma
    have := h 0; have := h 1; have := h 2
    linarith
  have := mul_le_mul_of_nonneg_left hl (sub_nonneg.mpr h1)
  have := mul_le_mul_of_nonneg_left (h i) h0
  linarith

theorem sop_mono {s o : ℝ} (hs : 0 ≤ s) (d : Depth) {x y : ℝ} (h : x ≤ y) :
    x / Spec.fullScale d * s + o ≤ y / Spec.fullScale d * s + o :=
  add_le_add (mul_le_mul_of_nonneg_right (div_le_div_of_nonneg_right h (fullScale_pos d).le) hs) le_rfl

/-- C156: a forward CDL, with or without clamping, with slopes that do not fall, positive powers and a saturation of at most 1. -/
theorem C156_cdl_partial (A : Arith ℝ) (hA : Spec.RealArith A) (compat : ℕ) (v : CdlValues ℝ) (s o p : Fin 3 → ℝ) (σ : ℝ) (hv : CdlIs v s o p σ)
    (hs : ∀ i, 0 ≤ s i) (hp : ∀ i, 0 < p i) (h0 : 0 ≤ σ) (h1 : σ ≤ 1) (b : Base ℝ) (d1 d2 : AVal)
    (hb : StyledNode b d1 d2 (.str "Fwd") ∨ StyledNode b d1 d2 (.str "FwdNoClamp")) (stride : ℕ) (hst : 3 ≤ stride) :
    Spec.OrderKept stride fun x => outOf (cdlProcess A compat v b x stride) := by
  have hd2 : (0 : ℝ) ≤ Spec.fullScale (some d2) := (fullScale_pos _).le
  rcases hb with hb | hb
  · let w : (Fin 3 → ℝ) → Fin 3 → ℝ := fun x i => (Spec.clip (x i / Spec.fullScale (some d1) * s i + o i)) ^ p i
    have hw : Monotone w := fun x y h i =>
      Real.rpow_le_rpow (clip_mem _).1 (clip_mono (sop_mono (hs i) _ (h i))) (hp i).le
    refine ⟨fun x i => Spec.clip (Spec.luma (w x) + σ * (w x i - Spec.luma (w x))) * Spec.fullScale (some d2), ?_, ?_⟩
    · exact fun x y h i => mul_le_mul_of_nonneg_right (clip_mono (sat_mono h0 h1 (hw h) i)) hd2
    · intro pixels hpx
      obtain ⟨r, e1, e2⟩ := cdlProcess_image A compat v b d1 d2 _ hb (.inr (by decide)) stride pixels hpx hst
        (fun x i => Spec.clip (Spec.luma (w x) + σ * (w x i - Spec.luma (w x))) * Spec.fullScale (some d2)) (by
          intro q _
          unfold cdlPixel
          rw [if_pos (by decide), hv.resolve, cdlFwd_pixel hA.powers s o p σ hp _ _ q.1 q.2 (w q.1) (fun _ => rfl)])
      simp only [outOf, e1, py_ok_bind, e2, py_pure]
  · let w : (Fin 3 → ℝ) → Fin 3 → ℝ := fun x i => if x i / Spec.fullScale (some d1) * s i + o i < 0
      then x i / Spec.fullScale (some d1) * s i + o i else (x i / Spec.fullScale (some d1) * s i + o i) ^ p i
    have hw : Monotone w := by
      intro x y h i
      have := sop_mono (o := o i) (hs i) (some d1) (h i)
      simp only [w]
      split_ifs with h1 h2 h2
      · exact this
      · exact h1.le.trans (Real.rpow_nonneg (not_lt.mp h2) _)
      · exact absurd (this.trans_lt h2) h1
      · exact Real.rpow_le_rpow (not_lt.mp h1) this (hp i).le
    refine ⟨fun x i => (Spec.luma (w x) + σ * (w x i - Spec.luma (w x))) * Spec.fullScale (some d2), ?_, ?_⟩
    · exact fun x y h i => mul_le_mul_of_nonneg_right (sat_mono h0 h1 (hw h) i) hd2
    · intro pixels hpx
      obtain ⟨r, e1, e2⟩ := cdlProcess_image A compat v b d1 d2 _ hb (.inr (by decide)) stride pixels hpx hst
        (fun x i => (Spec.luma (w x) + σ * (w x i - Spec.luma (w x))) * Spec.fullScale (some d2)) (by
          intro q _
          unfold cdlPixel
          rw [if_neg (by decide), if_pos (by decide), hv.resolve,
            cdlFwdNoClamp_pixel hA.powers s o p σ hp _ _ q.1 q.2 (w q.1) (fun _ => rfl)])
      simp only [outOf, e1, py_ok_bind, e2, py_pure]

/-- C156: a reverse CDL, with or without clamping, with positive slopes and powers and a saturation of at least 1. -/
theorem C156_reverse_partial (A : Arith ℝ) (hA : Spec.RealArith A) (compat : ℕ) (v : CdlValues ℝ) (s o p : Fin 3 → ℝ) (σ : ℝ) (hv : CdlIs v s o p σ)
    (hs : ∀ i, 0 < s i) (hp : ∀ i, 0 < p i) (h1 : 1 ≤ σ) (b : Base ℝ) (d1 d2 : AVal)
    (hb : StyledNode b d1 d2 (.str "Rev") ∨ StyledNode b d1 d2 (.str "RevNoClamp")) (stride : ℕ) (hst : 3 ≤ stride) :
    Spec.OrderKept stride fun x => outOf (cdlProcess A compat v b x stride) := by
  have hd1 : (0 : ℝ) ≤ Spec.fullScale (some d1) := (fullScale_pos _).le
  have hd2 : (0 : ℝ) ≤ Spec.fullScale (some d2) := (fullScale_pos _).le
  have hσ : 0 < σ := by linarith
  have t0 : 0 ≤ 1 / σ := (one_div_pos.mpr hσ).le
  have t1 : 1 / σ ≤ 1 := (div_le_one hσ).mpr h1
  rcases hb with hb | hb
  · let w : (Fin 3 → ℝ) → Fin 3 → ℝ := fun x i => Spec.clip (x i / Spec.fullScale (some d1))
    have hw : Monotone w := fun x y h i => clip_mono (div_le_div_of_nonneg_right (h i) hd1)
    refine ⟨fun x i => Spec.clip ((Spec.clip (Spec.luma (w x) + 1 / σ * (w x i - Spec.luma (w x))) ^ (1 / p i) - o i) / s i)
        * Spec.fullScale (some d2), ?_, ?_⟩
    · exact fun x y h i => mul_le_mul_of_nonneg_right (clip_mono (div_le_div_of_nonneg_right (sub_le_sub_right
        (Real.rpow_le_rpow (clip_mem _).1 (clip_mono (sat_mono t0 t1 (hw h) i)) (one_div_pos.mpr (hp i)).le) _) (hs i).le)) hd2
    · intro pixels hpx
      obtain ⟨r, e1, e2⟩ := cdlProcess_image A compat v b d1 d2 _ hb (.inr (by decide)) stride pixels hpx hst
        (fun x i => Spec.clip ((Spec.clip (Spec.luma (w x) + 1 / σ * (w x i - Spec.luma (w x))) ^ (1 / p i) - o i) / s i)
          * Spec.fullScale (some d2)) (by
          intro q _
          unfold cdlPixel
          rw [if_neg (by decide), if_neg (by decide), if_pos (by decide), hv.resolve,
            cdlRev_pixel hA.powers s o p σ hp (fun i => (hs i).ne') hσ.ne' _ _ q.1 q.2 (w q.1) (fun _ => rfl)])
      simp only [outOf, e1, py_ok_bind, e2, py_pure]
  · let w : (Fin 3 → ℝ) → Fin 3 → ℝ := fun x i => x i / Spec.fullScale (some d1)
    let u : (Fin 3 → ℝ) → Fin 3 → ℝ := fun x i => Spec.luma (w x) + 1 / σ * (w x i - Spec.luma (w x))
    have hw : Monotone w := fun x y h i => div_le_div_of_nonneg_right (h i) hd1
    have hu : Monotone u := fun x y h i => sat_mono t0 t1 (hw h) i
    refine ⟨fun x i => ((if u x i < 0 then 0 else Spec.clip (u x i) ^ (1 / p i)) - o i) / s i * Spec.fullScale (some d2), ?_, ?_⟩
    · intro x y h i
      refine mul_le_mul_of_nonneg_right (div_le_div_of_nonneg_right (sub_le_sub_right ?_ _) (hs i).le) hd2
      split_ifs with k1 k2 k2
      · exact le_rfl
      · exact Real.rpow_nonneg (clip_mem _).1 _
      · exact absurd ((hu h i).trans_lt k2) k1
      · exact Real.rpow_le_rpow (clip_mem _).1 (clip_mono (hu h i)) (one_div_pos.mpr (hp i)).le
    · intro pixels hpx
      obtain ⟨r, e1, e2⟩ := cdlProcess_image A compat v b d1 d2 _ hb (.inr (by decide)) stride pixels hpx hst
        (fun x i => ((if u x i < 0 then 0 else Spec.clip (u x i) ^ (1 / p i)) - o i) / s i * Spec.fullScale (some d2)) (by
          intro q _
          unfold cdlPixel
          rw [if_neg (by decide), if_neg (by decide), if_neg (by decide), if_pos (by decide), hv.resolve,
            cdlRevNoClamp_pixel hA.powers s o p σ hp (fun i => (hs i).ne') hσ.ne' _ _ q.1 q.2 (w q.1) (u q.1) (fun _ => rfl) (fun _ => rfl)])
      simp only [outOf, e1, py_ok_bind, e2, py_pure]

/-- A node that treats the channels apart. -/
theorem kept_chan (stride : ℕ) (f : List (Flt ℝ) → Py (Res ℝ)) (d1 d2 : AVal) (F : Fin 3 → ℝ → ℝ) (hF : ∀ i, Monotone (F i))
    (h : ∀ pixels : List ((Fin 3 → ℝ) × List (Flt ℝ)), (∀ p ∈ pixels, p.2.length + 3 = stride) →
      ∃ r, f (Spec.image pixels) = .ok r ∧ r.out = Spec.image (pixels.map fun p =>
        (fun i => F i (p.1 i / Spec.fullScale (some d1)) * Spec.fullScale (some d2), p.2))) :
    Spec.OrderKept stride fun x => outOf (f x) := by
  refine ⟨fun x i => F i (x i / Spec.fullScale (some d1)) * Spec.fullScale (some d2), ?_, ?_⟩
  · exact fun x y hxy i => mul_le_mul_of_nonneg_right (hF i (div_le_div_of_nonneg_right (hxy i) (fullScale_pos _).le)) (fullScale_pos _).le
  · intro pixels hp
    obtain ⟨r, e1, e2⟩ := h pixels hp
    simp only [outOf, e1, py_ok_bind, e2, py_pure]

theorem kept_gamma {A : Arith ℝ} (hA : A.Exact) (rows : List (GammaParam ℝ)) (hr : Spec.GoodLetters GammaParam.channel rows) (b : Base ℝ)
    (d1 d2 st : AVal) (h : StyledNode b d1 d2 st) (f : Flt ℝ → Flt ℝ → Flt ℝ → Py (Flt ℝ)) (hf : gammaStyle A st = some f) (stride : ℕ)
    (hs : 3 ≤ stride) (F : Fin 3 → ℝ → ℝ) (hF : ∀ i, Monotone (F i))
    (hx : ∀ (i : Fin 3) (x : ℝ), f (Spec.gammaFor rows i).1 (Spec.gammaFor rows i).2 (.fin x) = .ok (.fin (F i x))) :
    Spec.OrderKept stride fun x => outOf (gammaProcess A rows b x stride) :=
  kept_chan stride _ d1 d2 F hF fun pixels hp =>
    ⟨_, gammaProcess_image A hA rows hr b d1 d2 st h f hf stride hs pixels hp F fun _ _ i => hx i _, rfl⟩

theorem kept_log {A : Arith ℝ} (hA : A.Exact) (rows : List (LogParam ℝ)) (hr : Spec.GoodLetters LogParam.channel rows) (b : Base ℝ)
    (d1 d2 st : AVal) (h : StyledNode b d1 d2 st) (f : LogParam ℝ → Flt ℝ → Py (Flt ℝ)) (hf : logStyle A st = some f) (stride : ℕ)
    (hs : 3 ≤ stride) (F : Fin 3 → ℝ → ℝ) (hF : ∀ i, Monotone (F i))
    (hx : ∀ (i : Fin 3) (x : ℝ), f (logRow rows i) (.fin x) = .ok (.fin (F i x))) :
    Spec.OrderKept stride fun x => outOf (logProcess A rows b x stride) :=
  kept_chan stride _ d1 d2 F hF fun pixels hp =>
    ⟨_, logProcess_image A hA rows hr b d1 d2 st h f hf stride hs pixels hp F fun _ _ i => hx i _, rfl⟩

/-- C156: Gamma nodes with positive exponents, of either basic style. -/
theorem C156_gamma (A : Arith ℝ) (hA : Spec.RealArith A) (rows : List (GammaParam ℝ)) (hr : Spec.GoodLetters GammaParam.channel rows)
    (g : Fin 3 → ℝ) (hgo : ∀ i, (Spec.gammaFor rows i).1 = .fin (g i)) (hg : ∀ i, 0 < g i) (b : Base ℝ) (d1 d2 : AVal)
    (hb : StyledNode b d1 d2 (.str "basicFwd") ∨ StyledNode b d1 d2 (.str "basicRev")) (stride : ℕ) (hst : 3 ≤ stride) :
    Spec.OrderKept stride fun x => outOf (gammaProcess A rows b x stride) := by
  rcases hb with hb | hb
  · refine kept_gamma hA.exact rows hr b d1 d2 _ hb _ rfl stride hst (fun i x => max 0 x ^ g i) ?_ (fun i x => ?_)
    · exact fun i x y h => Real.rpow_le_rpow (le_max_left _ _) (max_le_max le_rfl h) (hg i).le
    · rw [hgo]
      exact basicFwd_fin hA (.inl (hg i))
  · refine kept_gamma hA.exact rows hr b d1 d2 _ hb _ rfl stride hst (fun i x => max 0 x ^ (1 / g i)) ?_ (fun i x => ?_)
    · exact fun i x y h => Real.rpow_le_rpow (le_max_left _ _) (max_le_max le_rfl h) (one_div_pos.mpr (hg i)).le
    · rw [hgo]
      exact basicRev_fin hA (.inl (hg i))

theorem moncurve_monotone {g o : ℝ} (hg : 1 < g) (ho : 0 < o) : Monotone (Spec.moncurve g o) := by
  have hP := monBreak_pos hg ho
  have ho1 : (0 : ℝ) < 1 + o := by linarith
  intro x y h
  unfold Spec.moncurve
  have hy : 0 < ((Spec.monBreak g o + o) / (1 + o)) ^ g := Real.rpow_pos_of_pos (div_pos (by linarith) ho1) _
  generalize hc : ((Spec.monBreak g o + o) / (1 + o)) ^ g = c at hy
  split_ifs with h1 h2 h2
  · exact mul_le_mul_of_nonneg_left h (div_pos hy hP).le
  · refine le_trans (mul_le_mul_of_nonneg_left h1 (div_pos hy hP).le) ?_
    rw [div_mul_cancel₀ _ hP.ne', ← hc]
    exact Real.rpow_le_rpow (div_nonneg (by linarith) ho1.le) (div_le_div_of_nonneg_right (by linarith) ho1.le) (by linarith)
  · exact absurd (h.trans h2) h1
  · exact Real.rpow_le_rpow (div_nonneg (by linarith) ho1.le) (div_le_div_of_nonneg_right (by linarith) ho1.le) (by linarith)

/-- C156: the monitor curve. -/
theorem C156_moncurve (A : Arith ℝ) (hA : Spec.RealArith A) (rows : List (GammaParam ℝ)) (hr : Spec.GoodLetters GammaParam.channel rows)
    (g o : Fin 3 → ℝ) (hgo : ∀ i, Spec.gammaFor rows i = (.fin (g i), .fin (o i))) (hg : ∀ i, 1 < g i) (ho : ∀ i, 0 < o i) (b : Base ℝ)
    (d1 d2 : AVal) (hb : StyledNode b d1 d2 (.str "moncurveFwd")) (stride : ℕ) (hst : 3 ≤ stride) :
    Spec.OrderKept stride fun x => outOf (gammaProcess A rows b x stride) := by
  refine kept_gamma hA.exact rows hr b d1 d2 _ hb _ rfl stride hst (fun i => Spec.moncurve (g i) (o i)) (fun i => moncurve_monotone (hg i) (ho i)) (fun i x => ?_)
  rw [hgo]
  exact moncurveFwd_fin hA (hg i) (ho i) _

/-- C156: the log and antilog curves of either base. -/
theorem C156_log (A : Arith ℝ) (hA : Spec.RealArith A) (rows : List (LogParam ℝ)) (hr : Spec.GoodLetters LogParam.channel rows) (b : Base ℝ)
    (d1 d2 : AVal) (st : String) (hst4 : st = "log10" ∨ st = "log2" ∨ st = "antiLog10" ∨ st = "antiLog2") (hb : StyledNode b d1 d2 (.str st))
    (stride : ℕ) (hst : 3 ≤ stride) : Spec.OrderKept stride fun x => outOf (logProcess A rows b x stride) := by
  have hpos : ∀ x : ℝ, 0 < max x Spec.floor32 := fun x => lt_max_of_lt_right floor32_pos
  have hl : Monotone fun x => Real.logb 10 (max x Spec.floor32) := fun x y h =>
    Real.logb_le_logb_of_le (by norm_num) (hpos x) (max_le_max h le_rfl)
  have h2' : 0 < Real.logb 10 2 := Real.logb_pos (by norm_num) (by norm_num)
  rcases hst4 with rfl | rfl | rfl | rfl
  · refine kept_log hA.exact rows hr b d1 d2 _ hb _ rfl stride hst (fun _ x => Real.logb 10 (max x Spec.floor32)) (fun _ => hl) (fun i x => ?_)
    simp only [floatMin_eq, Flt.pmax_fin, hA.log10 _ (hpos _), py_pure]
  · refine kept_log hA.exact rows hr b d1 d2 _ hb _ rfl stride hst (fun _ x => Real.logb 10 (max x Spec.floor32) / Real.logb 10 2)
      (fun _ x y h => div_le_div_of_nonneg_right (hl h) h2'.le) (fun i x => ?_)
    simp only [floatMin_eq, Flt.pmax_fin, hA.log10 _ (hpos _), hA.log10 _ (by norm_num : (0 : ℝ) < 2), Flt.fin_div h2'.ne', py_pure]
  · refine kept_log hA.exact rows hr b d1 d2 _ hb _ rfl stride hst (fun _ x => (10 : ℝ) ^ x) (fun _ x y h => Real.rpow_le_rpow_of_exponent_le (by norm_num) h) (fun i x => ?_)
    simp only [py_pure, hA.pow _ _ (.inl (by norm_num : (0 : ℝ) < 10))]
  · refine kept_log hA.exact rows hr b d1 d2 _ hb _ rfl stride hst (fun _ x => (2 : ℝ) ^ x) (fun _ x y h => Real.rpow_le_rpow_of_exponent_le (by norm_num) h) (fun i x => ?_)
    simp only [py_pure, hA.pow _ _ (.inl (by norm_num : (0 : ℝ) < 2))]

/-- C156: the film log curves with positive gamma whose highlight is above their shadow. -/
theorem C156_film (A : Arith ℝ) (hA : Spec.RealArith A) (rows : List (LogParam ℝ)) (hr : Spec.GoodLetters LogParam.channel rows)
    (p : Fin 3 → Spec.FilmLog) (hl : ∀ i, Spec.LogIs rows i (p i)) (hg : ∀ i, 0 < (p i).gamma) (hh : ∀ i, (p i).shadow < (p i).highlight)
    (b : Base ℝ) (d1 d2 : AVal) (hb : StyledNode b d1 d2 (.str "logToLin") ∨ StyledNode b d1 d2 (.str "linToLog")) (stride : ℕ)
    (hst : 3 ≤ stride) : Spec.OrderKept stride fun x => outOf (logProcess A rows b x stride) := by
  have slope : ∀ i, 0 < ((p i).highlight - (p i).shadow) / (1 - (p i).black) := fun i =>
    div_pos (sub_pos.mpr (hh i)) (sub_pos.mpr (black_lt _))
  rcases hb with hb | hb
  · refine kept_log hA.exact rows hr b d1 d2 _ hb _ rfl stride hst (fun i x => (p i).linear ((p i).exposure x)) (fun i x y h => ?_) (fun i x => ?_)
    · have he : (p i).exposure x ≤ (p i).exposure y := by
        refine Real.rpow_le_rpow_of_exponent_le (by norm_num) (div_le_div_of_nonneg_right ?_ (hg i).le)
        linarith
      have := mul_le_mul_of_nonneg_right (sub_le_sub_right he (p i).black) (slope i).le
      simp only [Spec.FilmLog.linear]
      linarith
    · obtain ⟨c, hc⟩ := logIs_row (hl i)
      rw [hc]
      exact logToLin_fin hA (p i) (hg i).ne' c _
  · refine kept_log hA.exact rows hr b d1 d2 _ hb _ rfl stride hst (fun i y => ((p i).refWhite + Real.logb 10 (max Spec.floor32 ((p i).ofLinear y)) * (p i).gamma / 0.002) / 1023)
      (fun i x y h => ?_) (fun i x => ?_)
    · have he : (p i).ofLinear x ≤ (p i).ofLinear y := by
        have := div_le_div_of_nonneg_right (sub_le_sub_right h (p i).shadow) (slope i).le
        simp only [Spec.FilmLog.ofLinear]
        linarith
      have := mul_le_mul_of_nonneg_right (Real.logb_le_logb_of_le (b := 10) (by norm_num) (lt_max_of_lt_left floor32_pos)
        (max_le_max (le_refl Spec.floor32) he)) (hg i).le
      exact div_le_div_of_nonneg_right (add_le_add le_rfl (div_le_div_of_nonneg_right this (by norm_num))) (by norm_num)
    · obtain ⟨c, hc⟩ := logIs_row (hl i)
      rw [hc]
      exact linToLog_fin hA (p i) (hg i).ne' (hh i).ne' c _

/-- C156: exposure and contrast, on pixels of three channels. -/
theorem C156_exposure (A : Arith ℝ) (hA : Spec.RealArith A) (e c p : ℝ) (hp : 0 < p) (hc : 0 ≤ c) (b : Base ℝ) (d1 d2 : AVal)
    (h : StyledNode b d1 d2 (.str "linear")) : Spec.OrderKept 3 fun x => outOf (ecProcess A (.fin e) (.fin c) (.fin p) b x 3) := by
  refine kept_chan 3 _ d1 d2 (fun _ x => p * max 0 (2 ^ e * x / p) ^ c) (fun _ x y hxy => ?_) fun pixels hpx => ?_
  · have hE : (0 : ℝ) < 2 ^ e := Real.rpow_pos_of_pos (by norm_num) _
    exact mul_le_mul_of_nonneg_left (Real.rpow_le_rpow (le_max_left _ _) (max_le_max le_rfl
      (div_le_div_of_nonneg_right (mul_le_mul_of_nonneg_left hxy hE.le) hp.le)) hc) hp.le
  · have hpix : pixels = (pixels.map Prod.fst).map fun v => (v, []) := by
      rw [List.map_map]
      conv_lhs => rw [← List.map_id pixels]
      refine List.map_congr_left fun q hq => ?_
      have : q.2 = [] := List.length_eq_zero_iff.mp (by have := hpx q hq; omega)
      exact Prod.ext rfl this
    obtain ⟨r, e1, e2⟩ := ec_applies hA e c p hp.ne' hc b d1 d2 h (pixels.map Prod.fst)
    refine ⟨r, ?_, ?_⟩
    · rw [hpix, rgb_image]
      exact e1
    · rw [e2, ← rgb_image, hpix]
      simp only [List.map_map]
      rfl

/-- C156: lists of nodes that keep order keep order. -/
theorem C156_list (A : Arith ℝ) (hA : Spec.RealArith A) (compat stride : ℕ) (ns : List (Node ℝ)) (hby : ∀ n ∈ ns, n.attr "bypass" = none)
    (h : ∀ n ∈ ns, Spec.OrderKept stride fun x => outOf (n.process A compat stride x)) :
    Spec.OrderKept stride fun x => processList A compat ns x stride := by
  have main : ∀ (ns : List (Node ℝ)), (∀ n ∈ ns, n.attr "bypass" = none) →
      (∀ n ∈ ns, Spec.OrderKept stride fun x => outOf (n.process A compat stride x)) →
      ∃ g : (Fin 3 → ℝ) → Fin 3 → ℝ, (∀ x y, (∀ i, x i ≤ y i) → ∀ i, g x i ≤ g y i) ∧
        ∀ (pixels : List ((Fin 3 → ℝ) × List (Flt ℝ))) (s : Res ℝ) (prev : Option Depth), (∀ p ∈ pixels, p.2.length + 3 = stride) →
          s.out = Spec.image pixels → outOf (runNodes A compat stride false prev ns s)
            = .ok (Spec.image (pixels.map fun p => (g p.1, p.2))) := by
    intro ns
    induction ns with
    | nil =>
      intro _ _
      refine ⟨fun x => x, fun _ _ h => h, fun pixels s prev _ hs => ?_⟩
      simp only [outOf, runNodes, py_ok_bind, py_pure, hs, Prod.mk.eta, List.map_id']
    | cons n ns ih =>
      intro hby h
      obtain ⟨g1, m1, f1⟩ := h n (by simp)
      obtain ⟨g2, m2, f2⟩ := ih (fun n hn => hby n (by simp [hn])) (fun n hn => h n (by simp [hn]))
      refine ⟨fun x => g2 (g1 x), fun x y hxy => m2 _ _ (m1 x y hxy), fun pixels s prev hp hs => ?_⟩
      have e1 := f1 pixels hp
      rw [← hs] at e1
      rw [runNodes.eq_def]
      cases hr : n.process A compat stride s.out with
      | error e => simp [outOf, hr, bind, Except.bind] at e1
      | ok r =>
        simp only [outOf, hr, py_ok_bind, py_pure, Except.ok.injEq] at e1
        have := f2 (pixels.map fun p => (g1 p.1, p.2)) (s.step r) (some n.outDepth) (by
          intro q hq
          obtain ⟨q', hq', rfl⟩ := List.mem_map.mp hq
          exact hp q' hq') e1
        rw [List.map_map] at this
        simp only [hby n (by simp), Option.isNone_none, Bool.true_or, if_true, py_ok_bind, py_pure, hr]
        exact this
  obtain ⟨g, m, f⟩ := main ns hby h
  refine ⟨g, m, fun pixels hp => ?_⟩
  have e : (Spec.image pixels).map A.f32 = Spec.image pixels := by
    conv_rhs => rw [← List.map_id (Spec.image pixels)]
    exact List.map_congr_left fun x _ => hA.exact x
  have := f pixels ⟨(Spec.image pixels).map A.f32, (Spec.image pixels).map A.f32, true⟩ none hp e
  exact this

/-- C156: with a saturation above 1, making a grey bluer makes it less red. -/
theorem C156_saturation_false (A : Arith ℝ) (hA : Spec.RealArith A) (compat stride : ℕ) (σ : ℝ) (hσ : 1 < σ) (v : CdlValues ℝ)
    (hv : CdlIs v (fun _ => 1) (fun _ => 0) (fun _ => 1) σ) (b : Base ℝ) (d1 d2 : AVal) (hst : 3 ≤ stride)
    (hb : StyledNode b d1 d2 (.str "Fwd")) : ¬ Spec.OrderKept stride fun x => outOf (cdlProcess A compat v b x stride) := by
  rintro ⟨g, m, f⟩
  have hd1 : (0 : ℝ) < Spec.fullScale (some d1) := fullScale_pos _
  have hd2 : (0 : ℝ) < Spec.fullScale (some d2) := fullScale_pos _
  have c1 : Spec.clip (1 : ℝ) = 1 := clip_of_mem zero_le_one le_rfl
  have c2 : Spec.clip (1 / 2 : ℝ) = 1 / 2 := clip_of_mem (by norm_num) (by norm_num)
  let x : Fin 3 → ℝ := fun _ => 1 / 2 * Spec.fullScale (some d1)
  let y : Fin 3 → ℝ := ![1 / 2 * Spec.fullScale (some d1), 1 / 2 * Spec.fullScale (some d1), 1 * Spec.fullScale (some d1)]
  have le := m x y (by
    intro i
    fin_cases i
    · exact le_rfl
    · exact le_rfl
    · show 1 / 2 * Spec.fullScale (some d1) ≤ 1 * Spec.fullScale (some d1)
      linarith) 0
  have out : ∀ (u w : Fin 3 → ℝ), (∀ i, w i = Spec.clip (u i / Spec.fullScale (some d1) * 1 + 0) ^ (1 : ℝ)) →
      g u 0 = Spec.clip (Spec.luma w + σ * (w 0 - Spec.luma w)) * Spec.fullScale (some d2) := by
    intro u w hw
    have e := f [(u, List.replicate (stride - 3) .nan)] (by simp; omega)
    obtain ⟨r, e1, e2⟩ := cdlProcess_image A compat v b d1 d2 _ hb (.inr (by decide)) stride [(u, List.replicate (stride - 3) .nan)]
      (by simp; omega) hst (fun _ i => Spec.clip (Spec.luma w + σ * (w i - Spec.luma w)) * Spec.fullScale (some d2)) (by
        intro q hq
        rw [List.mem_singleton] at hq
        subst hq
        unfold cdlPixel
        rw [if_pos (by decide), hv.resolve, cdlFwd_pixel hA.powers _ _ _ σ (fun _ => one_pos) _ _ u _ w hw])
    simp only [outOf, e1, py_ok_bind, py_pure, e2, Except.ok.injEq] at e
    simp [Spec.image, Spec.fins] at e
    exact e.1.symm
  have hx := out x (fun _ => 1 / 2) (fun i => by
    simp only [x]
    rw [mul_div_cancel_right₀ _ hd1.ne', mul_one, add_zero, c2, Real.rpow_one])
  have hy := out y ![1 / 2, 1 / 2, 1] (fun i => by
    fin_cases i
    · show (1 / 2 : ℝ) = Spec.clip (1 / 2 * Spec.fullScale (some d1) / Spec.fullScale (some d1) * 1 + 0) ^ (1 : ℝ)
      rw [mul_div_cancel_right₀ _ hd1.ne', mul_one, add_zero, c2, Real.rpow_one]
    · show (1 / 2 : ℝ) = Spec.clip (1 / 2 * Spec.fullScale (some d1) / Spec.fullScale (some d1) * 1 + 0) ^ (1 : ℝ)
      rw [mul_div_cancel_right₀ _ hd1.ne', mul_one, add_zero, c2, Real.rpow_one]
    · show (1 : ℝ) = Spec.clip (1 * Spec.fullScale (some d1) / Spec.fullScale (some d1) * 1 + 0) ^ (1 : ℝ)
      rw [mul_div_cancel_right₀ _ hd1.ne', mul_one, add_zero, c1, Real.rpow_one])
  rw [hx, hy] at le
  have le := le_of_mul_le_mul_right le hd2
  have l1 : Spec.luma (fun _ => (1 / 2 : ℝ)) = 1 / 2 := by norm_num [Spec.luma]
  have l2 : Spec.luma (![1 / 2, 1 / 2, 1] : Fin 3 → ℝ) = 1 / 2 + 361 / 10000 := by 
    show (2126 / 10000 * (1 / 2) + 7152 / 10000 * (1 / 2) + 722 / 10000 * 1 : ℝ) = _
    norm_num
  rw [l1, l2] at le
  simp only [sub_self, mul_zero, add_zero, c2, Matrix.cons_val_zero] at le
  have : Spec.clip (1 / 2 + 361 / 10000 + σ * (1 / 2 - (1 / 2 + 361 / 10000))) < (1 / 2 : ℝ) :=
    min_lt_of_right_lt (max_lt (by norm_num) (by linarith))
  linarith

/-- C156: so it does in a reverse CDL with a saturation below 1. -/
theorem C156_reverse_false (A : Arith ℝ) (hA : Spec.RealArith A) (compat stride : ℕ) (σ : ℝ) (h0 : 0 < σ) (h1 : σ < 1) (v : CdlValues ℝ)
    (hv : CdlIs v (fun _ => 1) (fun _ => 0) (fun _ => 1) σ) (b : Base ℝ) (d1 d2 : AVal) (hst : 3 ≤ stride)
    (hb : StyledNode b d1 d2 (.str "Rev")) : ¬ Spec.OrderKept stride fun x => outOf (cdlProcess A compat v b x stride) := by
  rintro ⟨g, m, f⟩
  have hσ : 1 < 1 / σ := (one_lt_div h0).mpr h1
  have hd1 : (0 : ℝ) < Spec.fullScale (some d1) := fullScale_pos _
  have hd2 : (0 : ℝ) < Spec.fullScale (some d2) := fullScale_pos _
  have c1 : Spec.clip (1 : ℝ) = 1 := clip_of_mem zero_le_one le_rfl
  have c2 : Spec.clip (1 / 2 : ℝ) = 1 / 2 := clip_of_mem (by norm_num) (by norm_num)
  let x : Fin 3 → ℝ := fun _ => 1 / 2 * Spec.fullScale (some d1)
  let y : Fin 3 → ℝ := ![1 / 2 * Spec.fullScale (some d1), 1 / 2 * Spec.fullScale (some d1), 1 * Spec.fullScale (some d1)]
  have le := m x y (by
    intro i
    fin_cases i
    · exact le_rfl
    · exact le_rfl
    · show 1 / 2 * Spec.fullScale (some d1) ≤ 1 * Spec.fullScale (some d1)
      linarith) 0
  have out : ∀ (u w : Fin 3 → ℝ), (∀ i, w i = Spec.clip (u i / Spec.fullScale (some d1))) →
      g u 0 = Spec.clip (Spec.luma w + 1 / σ * (w 0 - Spec.luma w)) * Spec.fullScale (some d2) := by
    intro u w hw
    have e := f [(u, List.replicate (stride - 3) .nan)] (by simp; omega)
    obtain ⟨r, e1, e2⟩ := cdlProcess_image A compat v b d1 d2 _ hb (.inr (by decide)) stride [(u, List.replicate (stride - 3) .nan)]
      (by simp; omega) hst (fun _ i => Spec.clip (Spec.luma w + 1 / σ * (w i - Spec.luma w)) * Spec.fullScale (some d2)) (by
        intro q hq
        rw [List.mem_singleton] at hq
        subst hq
        unfold cdlPixel
        rw [if_neg (by decide), if_neg (by decide), if_pos (by decide), hv.resolve,
          cdlRev_pixel hA.powers _ _ _ σ (fun _ => one_pos) (fun _ => one_ne_zero) h0.ne' _ _ u _ w hw]
        refine congrArg (fun z => Except.ok (Spec.fins z ++ _)) (funext fun i => ?_)
        rw [div_one, div_one, Real.rpow_one, sub_zero, clip_of_mem (clip_mem _).1 (clip_mem _).2])
    simp only [outOf, e1, py_ok_bind, py_pure, e2, Except.ok.injEq] at e
    simp [Spec.image, Spec.fins] at e
    rw [one_div]
    exact e.1.symm
  have hx := out x (fun _ => 1 / 2) (fun i => by
    simp only [x]
    rw [mul_div_cancel_right₀ _ hd1.ne', c2])
  have hy := out y ![1 / 2, 1 / 2, 1] (fun i => by
    fin_cases i
    · show (1 / 2 : ℝ) = Spec.clip (1 / 2 * Spec.fullScale (some d1) / Spec.fullScale (some d1))
      rw [mul_div_cancel_right₀ _ hd1.ne', c2]
    · show (1 / 2 : ℝ) = Spec.clip (1 / 2 * Spec.fullScale (some d1) / Spec.fullScale (some d1))
      rw [mul_div_cancel_right₀ _ hd1.ne', c2]
    · show (1 : ℝ) = Spec.clip (1 * Spec.fullScale (some d1) / Spec.fullScale (some d1))
      rw [mul_div_cancel_right₀ _ hd1.ne', c1])
  rw [hx, hy] at le
  have le := le_of_mul_le_mul_right le hd2
  have l1 : Spec.luma (fun _ => (1 / 2 : ℝ)) = 1 / 2 := by norm_num [Spec.luma]
  have l2 : Spec.luma (![1 / 2, 1 / 2, 1] : Fin 3 → ℝ) = 1 / 2 + 361 / 10000 := by 
    show (2126 / 10000 * (1 / 2) + 7152 / 10000 * (1 / 2) + 722 / 10000 * 1 : ℝ) = _
    norm_num
  rw [l1, l2] at le
  generalize 1 / σ = τ at *
  simp only [sub_self, mul_zero, add_zero, c2, Matrix.cons_val_zero] at le
  have : Spec.clip (1 / 2 + 361 / 10000 + τ * (1 / 2 - (1 / 2 + 361 / 10000))) < (1 / 2 : ℝ) :=
    min_lt_of_right_lt (max_lt (by norm_num) (by linarith))
  linarith

/-- C156: the reverse monitor curve falls: just above its break point it is lower than at it. -/
theorem C156_moncurveRev_false (A : Arith ℝ) (hA : Spec.RealArith A) (g o : ℝ) (hg : 1 < g) (ho : 0 < o) (hne : o ≠ g - 1) (b : Base ℝ)
    (d1 d2 : AVal) (hb : StyledNode b d1 d2 (.str "moncurveRev")) :
    ∃ x y u v : ℝ, x < y ∧ v < u ∧
      outOf (gammaProcess A [⟨.fin g, .fin o, none⟩] b [.fin x, .fin x, .fin x] 3) = .ok [.fin u, .fin u, .fin u] ∧
      outOf (gammaProcess A [⟨.fin g, .fin o, none⟩] b [.fin y, .fin y, .fin y] 3) = .ok [.fin v, .fin v, .fin v] := by
  have hd1 : (0 : ℝ) < Spec.fullScale (some d1) := fullScale_pos _
  have hd2 : (0 : ℝ) < Spec.fullScale (some d2) := fullScale_pos _
  have hP := monBreak_pos hg ho
  have ho1 : (0 : ℝ) < 1 + o := by linarith
  have hg0 : (0 : ℝ) < g := by linarith
  obtain ⟨t, ht, hlt⟩ := mon_counter hg ho hne
  have hc : 0 < ((Spec.monBreak g o + o) / (1 + o)) ^ g / Spec.monBreak g o :=
    div_pos (Real.rpow_pos_of_pos (div_pos (by linarith) ho1) _) hP
  have htP : Spec.monBreak g o < t := by
    by_contra hn
    rw [Spec.moncurve, if_pos (not_lt.mp hn)] at ht
    rw [lt_div_iff₀ hc] at hlt
    linarith
  rw [Spec.moncurve, if_neg (not_le.mpr htP)] at ht
  generalize hcc : ((Spec.monBreak g o + o) / (1 + o)) ^ g / Spec.monBreak g o = c at *
  obtain ⟨m, hm1, hm2⟩ := exists_between hlt
  have hy : Spec.monBreak g o < ((m + o) / (1 + o)) ^ g := by
    rw [← ht]
    exact Real.rpow_lt_rpow (div_nonneg (by linarith) ho1.le) (div_lt_div_of_pos_right (by linarith) ho1) hg0
  have good : Spec.GoodLetters GammaParam.channel [(⟨.fin g, .fin o, none⟩ : GammaParam ℝ)] := by
    intro p hp; simp only [List.mem_singleton] at hp; subst hp; exact .inl rfl
  have run : ∀ z : ℝ, outOf (gammaProcess A [⟨.fin g, .fin o, none⟩] b
      [.fin (z * Spec.fullScale (some d1)), .fin (z * Spec.fullScale (some d1)), .fin (z * Spec.fullScale (some d1))] 3)
      = .ok (Spec.fins fun _ : Fin 3 => (if z ≤ Spec.monBreak g o then z / c else z ^ (1 / g) * (1 + o) - o) * Spec.fullScale (some d2)) := by
    intro z
    have := gammaProcess_image A hA.exact _ good b d1 d2 _ hb _ rfl 3 le_rfl [(fun _ => z * Spec.fullScale (some d1), [])] (by simp)
      (fun _ y => if y ≤ Spec.monBreak g o then y / c else y ^ (1 / g) * (1 + o) - o) (by
        intro p _ i
        rw [← hcc]
        exact moncurveRev_fin hA hg ho _)
    have e : Spec.image [((fun _ => z * Spec.fullScale (some d1) : Fin 3 → ℝ), ([] : List (Flt ℝ)))]
        = [.fin (z * Spec.fullScale (some d1)), .fin (z * Spec.fullScale (some d1)), .fin (z * Spec.fullScale (some d1))] := rfl
    rw [e] at this
    rw [this]
    simp [outOf, Spec.image, mul_div_cancel_right₀ _ hd1.ne']
  refine ⟨_, _, _, _, ?_, ?_, (run (Spec.monBreak g o)).trans rfl, (run (((m + o) / (1 + o)) ^ g)).trans rfl⟩
  · exact mul_lt_mul_of_pos_right hy hd1
  · refine mul_lt_mul_of_pos_right ?_ hd2
    rw [if_pos le_rfl, if_neg (not_le.mpr hy), one_div, Real.rpow_rpow_inv (div_nonneg (by linarith) ho1.le) hg0.ne',
      div_mul_cancel₀ _ ho1.ne', add_sub_cancel_right]
    exact hm2

/-! ### Instances -/

/-- The usual numbers: a CDL that takes away colour, and the curve of sRGB. -/
example : CdlIs (⟨some [.fin (3 / 2), .fin 1, .fin 1], none, some [.fin (6 / 5), .fin 1, .fin 1], some (.fin (9 / 10))⟩ : CdlValues ℝ)
    ![3 / 2, 1, 1] (fun _ => 0) ![6 / 5, 1, 1] (9 / 10) := by
  refine ⟨.inl ?_, .inr ⟨rfl, rfl⟩, .inl ?_, .inl rfl⟩ <;> rfl

/-- A list of a CDL, a monitor curve and a film curve with its default numbers. -/
example (A : Arith ℝ) (hA : Spec.RealArith A) (compat : ℕ) :
    let b := fun st : String => (⟨[("inBitDepth", .str "16f"), ("outBitDepth", .str "16f"), ("style", .str st)], [], [], []⟩ : Base ℝ)
    Spec.OrderKept 4 fun x => processList A compat
      [.leaf (.cdl false ⟨some [.fin (3 / 2), .fin 1, .fin 1], none, some [.fin (6 / 5), .fin 1, .fin 1], some (.fin (9 / 10))⟩) (b "Fwd"),
        .leaf (.gamma [⟨.fin (12 / 5), .fin (11 / 200), none⟩]) (b "moncurveFwd"), .leaf (.log []) (b "linToLog")] x 4 := by
  intro b
  have hb : ∀ st, StyledNode (b st) (.str "16f") (.str "16f") (.str st) := fun st => ⟨rfl, rfl, rfl⟩
  refine C156_list A hA compat 4 _ ?_ ?_
  · intro n hn
    simp only [List.mem_cons, List.not_mem_nil, or_false] at hn
    rcases hn with rfl | rfl | rfl <;> rfl
  · intro n hn
    simp only [List.mem_cons, List.not_mem_nil, or_false] at hn
    rcases hn with rfl | rfl | rfl
    · refine C156_cdl_partial A hA compat _ ![3 / 2, 1, 1] (fun _ => 0) ![6 / 5, 1, 1] (9 / 10) ⟨.inl rfl, .inr ⟨rfl, rfl⟩, .inl rfl, .inl rfl⟩
        ?_ ?_ (by norm_num) (by norm_num) _ _ _ (.inl (hb _)) 4 (by norm_num) <;> intro i <;> fin_cases i <;> norm_num
    · refine C156_moncurve A hA _ ?_ (fun _ => 12 / 5) (fun _ => 11 / 200) (fun _ => rfl) (fun _ => by norm_num) (fun _ => by norm_num) _ _ _
        (hb _) 4 (by norm_num)
      intro p hp; simp only [List.mem_singleton] at hp; subst hp; exact .inl rfl
    · exact C156_film A hA [] (fun _ h => absurd h List.not_mem_nil) (fun _ => ⟨0.6, 685, 95, 1, 0⟩) (fun _ => rfl) (fun _ => by norm_num)
        (fun _ => by norm_num) _ _ _ (.inr (hb _)) 4 (by norm_num)

example : (1 : ℝ) < 2.4 ∧ (0 : ℝ) < 0.055 ∧ (0.055 : ℝ) ≠ 2.4 - 1 := by norm_num

end CLF
