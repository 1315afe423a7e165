import Verif.Lemmas.Gamma

/-! # Properties C30, C31: Gamma -/

set_option linter.unusedSectionVars false

namespace CLF

variable {K : Type} [Field K] [LinearOrder K] [IsStrictOrderedRing K] [FloorRing K]

/-! ### C30: basicFwd and basicRev -/

/-- C30: `basicRev` after `basicFwd` returns every non-negative value and sends
negative values to 0, with the exponent each channel was given last.  Exponents are
positive, or negative on channels whose values are all positive. -/
theorem C30_inverse (A : Arith ℝ) (hA : Spec.RealArith A) (rows : List (GammaParam ℝ))
    (hr : Spec.GoodLetters GammaParam.channel rows) (g : Fin 3 → ℝ)
    (hg : ∀ i, (Spec.gammaFor rows i).1 = .fin (g i)) (bf br : Base ℝ) (d1 d2 : AVal)
    (hbf : StyledNode bf d1 d2 (.str "basicFwd")) (hbr : StyledNode br d2 d1 (.str "basicRev"))
    (stride : ℕ) (hs : 3 ≤ stride)
    (pixels : List ((Fin 3 → ℝ) × List (Flt ℝ))) (hp : ∀ p ∈ pixels, p.2.length + 3 = stride)
    (hpos : ∀ i, 0 < g i ∨ (g i < 0 ∧ ∀ p ∈ pixels, 0 < p.1 i)) :
    ∃ r r', gammaProcess A rows bf (Spec.image pixels) stride = .ok r ∧
      gammaProcess A rows br r.out stride = .ok r' ∧
      r'.out = Spec.image (pixels.map fun p => (fun i => max 0 (p.1 i), p.2)) := by
  have hfs1 : (0 : ℝ) < Spec.fullScale (some d1) := fullScale_pos _
  have hfs2 : (Spec.fullScale (some d2) : ℝ) ≠ 0 := fullScale_ne _
  have fwd := gammaProcess_image A hA.exact rows hr bf d1 d2 _ hbf _ rfl stride hs pixels hp
    (fun i x => (max 0 x) ^ g i) (by
      intro p hp' i
      simp only [hg]
      apply basicFwd_fin hA
      exact (hpos i).imp id fun h => div_pos (h.2 p hp') hfs1)
  have bwd := gammaProcess_image A hA.exact rows hr br d2 d1 _ hbr _ rfl stride hs
    (pixels.map fun p => (fun i => (max 0 (p.1 i / Spec.fullScale (some d1))) ^ g i
      * Spec.fullScale (some d2), p.2)) (by
      intro p hp'
      obtain ⟨q, hq, rfl⟩ := List.mem_map.mp hp'
      exact hp q hq)
    (fun i x => (max 0 x) ^ (1 / g i)) (by
      intro p hp' i
      obtain ⟨q, hq, rfl⟩ := List.mem_map.mp hp'
      simp only [hg]
      apply basicRev_fin hA
      rcases hpos i with h | h
      · exact .inl h
      · refine .inr ⟨h.1.ne, ?_⟩
        rw [mul_div_cancel_right₀ _ hfs2]
        exact Real.rpow_pos_of_pos (lt_max_of_lt_right (div_pos (h.2 q hq) hfs1)) _)
  refine ⟨_, _, fwd, bwd, ?_⟩
  simp only [List.map_map]
  refine congrArg Spec.image (List.map_congr_left fun p hp' => ?_)
  ext i
  · simp only [Function.comp_apply]
    rw [mul_div_cancel_right₀ _ hfs2]
    have h0 : (0 : ℝ) ≤ max 0 (p.1 i / Spec.fullScale (some d1)) := le_max_left _ _
    have hgi : g i ≠ 0 := by
      rcases hpos i with h | h
      exacts [h.ne', h.1.ne]
    rw [max_eq_right (Real.rpow_nonneg h0 _), one_div, Real.rpow_rpow_inv h0 hgi,
      max_mul_of_nonneg _ _ hfs1.le, zero_mul, div_mul_cancel₀ _ hfs1.ne']
  · rfl

/-- C30, the remaining case: a negative exponent on a channel value that is not
positive makes `basicFwd` raise `ZeroDivisionError`. -/
theorem C30_negative (A : Arith ℝ) (hA : A.Exact) (rows : List (GammaParam ℝ))
    (hr : Spec.GoodLetters GammaParam.channel rows) (g : Fin 3 → ℝ)
    (hg : ∀ i, (Spec.gammaFor rows i).1 = .fin (g i)) (b : Base ℝ) (d1 d2 : AVal)
    (hb : StyledNode b d1 d2 (.str "basicFwd")) (x : Fin 3 → ℝ) (extra : List (Flt ℝ))
    (hneg : ∃ i, g i < 0 ∧ x i ≤ 0) :
    gammaProcess A rows b (Spec.fins x ++ extra) (3 + extra.length) = .error .zeroDivision := by
  obtain ⟨e1, e2, e3⟩ := hb.attrs
  have hfs1 : (0 : ℝ) < Spec.fullScale (some d1) := fullScale_pos _
  unfold gammaProcess
  simp only [e1, e2, e3, py_ok_bind, gammaParams_eq rows hr]
  have hsty : gammaStyle A (.str "basicFwd") = some fun g _ x => gammaBasicFwd A g x := rfl
  rw [hsty]
  simp only
  have hpow : ∀ i, (∃ y, gammaBasicFwd A (.fin (g i)) (.fin (x i / Spec.fullScale (some d1))) = .ok y)
      ∨ gammaBasicFwd A (.fin (g i)) (.fin (x i / Spec.fullScale (some d1))) = .error .zeroDivision := by
    intro i
    unfold gammaBasicFwd
    rw [Flt.pmax_fin]
    by_cases h : max 0 (x i / Spec.fullScale (some d1)) = 0 ∧ g i < 0
    · exact .inr (by simp only [pyPow, if_pos h])
    · refine .inl ?_
      have h2 : ¬ (max 0 (x i / Spec.fullScale (some d1)) < 0 ∧ ((⌊g i⌋ : ℤ) : ℝ) ≠ g i) :=
        fun h => absurd h.1 (not_lt.mpr (le_max_left _ _))
      exact ⟨_, by simp only [pyPow, if_neg h, if_neg h2]; rfl⟩
  have hbad : ∃ i, gammaBasicFwd A (.fin (g i)) (.fin (x i / Spec.fullScale (some d1)))
      = .error .zeroDivision := by
    obtain ⟨i, hgi, hxi⟩ := hneg
    refine ⟨i, ?_⟩
    unfold gammaBasicFwd
    rw [Flt.pmax_fin, max_eq_left (div_nonpos_of_nonpos_of_nonneg hxi hfs1.le)]
    simp [pyPow, hgi]
  have chan : chanLoop 3 (fun i x => do
        let (g, o) ← pyGet (List.ofFn fun i : Fin 3 => Spec.gammaFor rows i) i
        let x := A.f32 (bitDepthToNormalized x (some d1))
        let y ← gammaBasicFwd A g x
        pure (A.f32 (normalizedToBitDepth (A.f32 y) (some d2)))) (Spec.fins x ++ extra)
      = .error .zeroDivision := by
    rw [fins3]
    simp only [List.cons_append, List.nil_append]
    rw [chanLoop3]
    have g0 : pyGet (List.ofFn fun i : Fin 3 => Spec.gammaFor rows i) 0 = .ok _ := ofFn3_get _ 0
    have g1 : pyGet (List.ofFn fun i : Fin 3 => Spec.gammaFor rows i) 1 = .ok _ := ofFn3_get _ 1
    have g2 : pyGet (List.ofFn fun i : Fin 3 => Spec.gammaFor rows i) 2 = .ok _ := ofFn3_get _ 2
    rw [g0, g1, g2]
    simp only [py_ok_bind, hg, hA _, toNormalized_fin, bitDepthSize_eq_fullScale]
    rcases hpow 0 with ⟨y0, h0⟩ | h0
    · rw [h0]
      rcases hpow 1 with ⟨y1, h1⟩ | h1
      · rw [h1]
        rcases hpow 2 with ⟨y2, h2⟩ | h2
        · exfalso
          obtain ⟨i, hi⟩ := hbad
          fin_cases i
          · simp [h0] at hi
          · simp [h1] at hi
          · simp [h2] at hi
        · rw [h2]; rfl
      · rw [h1]; rfl
    · rw [h0]; rfl
  have := viewLoop_chunks (3 + extra.length) (by omega) (chanLoop 3 (fun i x => do
        let (g, o) ← pyGet (List.ofFn fun i : Fin 3 => Spec.gammaFor rows i) i
        let x := A.f32 (bitDepthToNormalized x (some d1))
        let y ← gammaBasicFwd A g x
        pure (A.f32 (normalizedToBitDepth (A.f32 y) (some d2))))) [Spec.fins x ++ extra] []
    (by simp [Spec.fins]; omega) (by simp) (by
      intro c hc o ho
      rw [List.mem_singleton.mp hc] at ho
      rw [chan] at ho; cases ho)
  simp only [List.flatten_cons, List.flatten_nil, List.append_nil] at this
  rw [this, py_mapM_cons, chan]
  rfl

/-- C30: what a node does depends on its parameter rows only through the values that
come last for each channel, in every style and for every input. -/
theorem C30_rows (A : Arith K) (rows rows' : List (GammaParam K))
    (h : Spec.GoodLetters GammaParam.channel rows) (h' : Spec.GoodLetters GammaParam.channel rows')
    (same : ∀ i, Spec.gammaFor rows i = Spec.gammaFor rows' i) (b : Base K)
    (values : List (Flt K)) (stride : ℕ) :
    gammaProcess A rows b values stride = gammaProcess A rows' b values stride := by
  unfold gammaProcess
  rw [gammaParams_eq rows h, gammaParams_eq rows' h', show Spec.gammaFor rows = Spec.gammaFor rows'
    from funext same]

/-- C30: a row for another channel letter makes processing raise `KeyError`. -/
theorem C30_letters (A : Arith K) (rows : List (GammaParam K)) (b : Base K) (d1 d2 st : AVal)
    (hb : StyledNode b d1 d2 st)
    (hbad : ∃ p ∈ rows, ∃ c, p.channel = some c ∧ c ≠ "R" ∧ c ≠ "G" ∧ c ≠ "B")
    (values : List (Flt K)) (stride : ℕ) :
    gammaProcess A rows b values stride = .error .keyError := by
  obtain ⟨e1, e2, e3⟩ := hb.attrs
  have hg : gammaParams rows = .error .keyError :=
    rows_bad GammaParam.channel (fun p => (p.gamma, p.offset)) rows _ rfl hbad
  unfold gammaProcess
  rw [e1, e2, hg]
  rfl

/-! ### C31: the monitor curves -/

/-- C31 is false: whatever the exponent and offset (except offset = exponent − 1), some
grey value does not come back. -/
theorem C31_false (A : Arith ℝ) (hA : Spec.RealArith A) (g o : ℝ) (hg : 1 < g) (ho : 0 < o)
    (hne : o ≠ g - 1) (bf br : Base ℝ) (d1 d2 : AVal)
    (hbf : StyledNode bf d1 d2 (.str "moncurveFwd")) (hbr : StyledNode br d2 d1 (.str "moncurveRev")) :
    ∃ (x : ℝ) (r r' : Res ℝ),
      gammaProcess A [⟨.fin g, .fin o, none⟩] bf [.fin x, .fin x, .fin x] 3 = .ok r ∧
      gammaProcess A [⟨.fin g, .fin o, none⟩] br r.out 3 = .ok r' ∧
      r'.out ≠ [.fin x, .fin x, .fin x] := by
  have hfs1 : (0 : ℝ) < Spec.fullScale (some d1) := fullScale_pos _
  have hfs2 : (Spec.fullScale (some d2) : ℝ) ≠ 0 := fullScale_ne _
  obtain ⟨t, hm, hrev⟩ := mon_counter hg ho hne
  have good : Spec.GoodLetters GammaParam.channel [(⟨.fin g, .fin o, none⟩ : GammaParam ℝ)] := by
    intro p hp; simp only [List.mem_singleton] at hp; subst hp; exact .inl rfl
  have params : ∀ i, Spec.gammaFor [(⟨.fin g, .fin o, none⟩ : GammaParam ℝ)] i = (.fin g, .fin o) :=
    fun i => rfl
  have fwd := gammaProcess_image A hA.exact _ good bf d1 d2 _ hbf _ rfl 3 le_rfl
    [(fun _ => t * Spec.fullScale (some d1), [])] (by simp) (fun _ => Spec.moncurve g o) (by
      intro p _ i
      rw [params]
      exact moncurveFwd_fin hA hg ho _)
  have bwd := gammaProcess_image A hA.exact _ good br d2 d1 _ hbr _ rfl 3 le_rfl
    [(fun _ => Spec.monBreak g o * Spec.fullScale (some d2), [])] (by simp)
    (fun _ y => if y ≤ Spec.monBreak g o
      then y / (((Spec.monBreak g o + o) / (1 + o)) ^ g / Spec.monBreak g o)
      else y ^ (1 / g) * (1 + o) - o) (by
      intro p _ i
      rw [params]
      exact moncurveRev_fin hA hg ho _)
  simp only [List.map_cons, List.map_nil, mul_div_cancel_right₀ _ hfs1.ne', hm] at fwd
  simp only [List.map_cons, List.map_nil, mul_div_cancel_right₀ _ hfs2, le_refl, if_true] at bwd
  have e : Spec.image [(fun _ : Fin 3 => t * Spec.fullScale (some d1), [])]
      = [.fin (t * Spec.fullScale (some d1)), .fin (t * Spec.fullScale (some d1)),
        .fin (t * Spec.fullScale (some d1))] := by simp [Spec.image, fins3]
  rw [e] at fwd
  refine ⟨t * Spec.fullScale (some d1), _, _, fwd, bwd, ?_⟩
  · intro h
    simp only [Spec.image, List.map_cons, List.map_nil, fins3, List.flatten_cons, List.flatten_nil,
      List.append_nil] at h
    have h0 := Flt.fin.inj (List.cons.inj h).1
    exact hrev.ne' (mul_right_cancel₀ hfs1.ne' h0)

/-- C31, the part that holds: a value comes back when it and its image lie on the same
side of the break point.  Missing: values whose image falls on the other side, which
`moncurveRev` treats with the wrong segment.  (When offset = exponent − 1, no such
values exist.) -/
theorem C31_sameSide_partial (A : Arith ℝ) (hA : Spec.RealArith A) (rows : List (GammaParam ℝ))
    (hr : Spec.GoodLetters GammaParam.channel rows) (g o : Fin 3 → ℝ)
    (hgo : ∀ i, Spec.gammaFor rows i = (.fin (g i), .fin (o i))) (hg : ∀ i, 1 < g i)
    (ho : ∀ i, 0 < o i) (bf br : Base ℝ) (d1 d2 : AVal)
    (hbf : StyledNode bf d1 d2 (.str "moncurveFwd")) (hbr : StyledNode br d2 d1 (.str "moncurveRev"))
    (stride : ℕ) (hs : 3 ≤ stride)
    (pixels : List ((Fin 3 → ℝ) × List (Flt ℝ))) (hp : ∀ p ∈ pixels, p.2.length + 3 = stride)
    (side : ∀ p ∈ pixels, ∀ i, p.1 i / Spec.fullScale (some d1) ≤ Spec.monBreak (g i) (o i) ↔
      Spec.moncurve (g i) (o i) (p.1 i / Spec.fullScale (some d1)) ≤ Spec.monBreak (g i) (o i)) :
    ∃ r r', gammaProcess A rows bf (Spec.image pixels) stride = .ok r ∧
      gammaProcess A rows br r.out stride = .ok r' ∧ r'.out = Spec.image pixels := by
  have hfs1 : (0 : ℝ) < Spec.fullScale (some d1) := fullScale_pos _
  have hfs2 : (Spec.fullScale (some d2) : ℝ) ≠ 0 := fullScale_ne _
  have fwd := gammaProcess_image A hA.exact rows hr bf d1 d2 _ hbf _ rfl stride hs pixels hp
    (fun i => Spec.moncurve (g i) (o i)) (by
      intro p hp' i
      rw [hgo]
      exact moncurveFwd_fin hA (hg i) (ho i) _)
  have bwd := gammaProcess_image A hA.exact rows hr br d2 d1 _ hbr _ rfl stride hs
    (pixels.map fun p => (fun i => Spec.moncurve (g i) (o i) (p.1 i / Spec.fullScale (some d1))
      * Spec.fullScale (some d2), p.2)) (by
      intro p hp'
      obtain ⟨q, hq, rfl⟩ := List.mem_map.mp hp'
      exact hp q hq)
    (fun i y => if y ≤ Spec.monBreak (g i) (o i)
      then y / (((Spec.monBreak (g i) (o i) + o i) / (1 + o i)) ^ g i / Spec.monBreak (g i) (o i))
      else y ^ (1 / g i) * (1 + o i) - o i) (by
      intro p hp' i
      rw [hgo]
      exact moncurveRev_fin hA (hg i) (ho i) _)
  refine ⟨_, _, fwd, bwd, ?_⟩
  simp only [List.map_map]
  conv_rhs => rw [← List.map_id pixels]
  refine congrArg Spec.image (List.map_congr_left fun p hp' => ?_)
  ext i
  · simp only [Function.comp_apply, id_eq]
    rw [mul_div_cancel_right₀ _ hfs2]
    have hP := monBreak_pos (hg i) (ho i)
    have ho1 : 0 < 1 + o i := by linarith [ho i]
    have hy : 0 < ((Spec.monBreak (g i) (o i) + o i) / (1 + o i)) ^ g i :=
      Real.rpow_pos_of_pos (div_pos (by linarith [ho i]) ho1) _
    by_cases hx : p.1 i / Spec.fullScale (some d1) ≤ Spec.monBreak (g i) (o i)
    · rw [if_pos ((side p hp' i).mp hx), Spec.moncurve, if_pos hx, mul_comm _ (p.1 i / _),
        mul_div_cancel_right₀ _ (div_pos hy hP).ne', div_mul_cancel₀ _ hfs1.ne']
    · rw [if_neg (fun h => hx ((side p hp' i).mpr h)), Spec.moncurve, if_neg hx]
      have hx' := not_le.mp hx
      have h0 : 0 ≤ (p.1 i / Spec.fullScale (some d1) + o i) / (1 + o i) :=
        div_nonneg (by linarith [ho i]) ho1.le
      rw [one_div, Real.rpow_rpow_inv h0 (by linarith [hg i]), div_mul_cancel₀ _ ho1.ne',
        add_sub_cancel_right, div_mul_cancel₀ _ hfs1.ne']
  · rfl

/-- C31 holds for every value when offset = exponent − 1. -/
theorem C31_matched (A : Arith ℝ) (hA : Spec.RealArith A) (rows : List (GammaParam ℝ))
    (hr : Spec.GoodLetters GammaParam.channel rows) (g o : Fin 3 → ℝ)
    (hgo : ∀ i, Spec.gammaFor rows i = (.fin (g i), .fin (o i))) (hg : ∀ i, 1 < g i)
    (ho : ∀ i, o i = g i - 1) (bf br : Base ℝ) (d1 d2 : AVal)
    (hbf : StyledNode bf d1 d2 (.str "moncurveFwd")) (hbr : StyledNode br d2 d1 (.str "moncurveRev"))
    (stride : ℕ) (hs : 3 ≤ stride)
    (pixels : List ((Fin 3 → ℝ) × List (Flt ℝ))) (hp : ∀ p ∈ pixels, p.2.length + 3 = stride) :
    ∃ r r', gammaProcess A rows bf (Spec.image pixels) stride = .ok r ∧
      gammaProcess A rows br r.out stride = .ok r' ∧ r'.out = Spec.image pixels := by
  refine C31_sameSide_partial A hA rows hr g o hgo hg (fun i => by rw [ho]; linarith [hg i])
    bf br d1 d2 hbf hbr stride hs pixels hp ?_
  intro p _ i
  have hb : Spec.monBreak (g i) (o i) = 1 := by
    rw [Spec.monBreak, ho, div_self (by linarith [hg i])]
  have ho0 : 0 < 1 + o i := by rw [ho]; linarith [hg i]
  rw [Spec.moncurve, hb]
  generalize p.1 i / Spec.fullScale (some d1) = x
  by_cases hx : x ≤ 1
  · simp [hx, div_self ho0.ne']
  · have h1 : 1 < (x + o i) / (1 + o i) := by
      rw [lt_div_iff₀ ho0]; linarith
    have := Real.one_lt_rpow h1 (by linarith [hg i] : 0 < g i)
    simp only [hx, if_false, false_iff, not_le]
    exact this

/-! ### Instances -/

/-- Rows that override each other: all channels, then green, then all channels, then
blue. -/
def exampleRows : List (GammaParam ℝ) :=
  [⟨.fin 2, .fin 0, none⟩, ⟨.fin 3, .fin 0, some "G"⟩, ⟨.fin 4, .fin 0, none⟩, ⟨.fin 5, .fin 0, some "B"⟩]

example : Spec.GoodLetters GammaParam.channel exampleRows := by
  intro p hp
  simp only [exampleRows, List.mem_cons, List.not_mem_nil, or_false] at hp
  rcases hp with rfl | rfl | rfl | rfl
  · exact .inl rfl
  · exact .inr ⟨1, rfl⟩
  · exact .inl rfl
  · exact .inr ⟨2, rfl⟩

example : Spec.gammaFor exampleRows 0 = (.fin 4, .fin 0) ∧ Spec.gammaFor exampleRows 1 = (.fin 4, .fin 0)
    ∧ Spec.gammaFor exampleRows 2 = (.fin 5, .fin 0) := ⟨rfl, rfl, rfl⟩

/-- The hypotheses of `C31_false`, and values on both sides for `C31_sameSide_partial`:
with exponent 2 and offset 1 the curve is `((x+1)/2)^2` above 1 and `x` below. -/
example : (1 : ℝ) < 2.4 ∧ (0 : ℝ) < 0.055 ∧ (0.055 : ℝ) ≠ 2.4 - 1 := by norm_num

example : (1 / 2 : ℝ) ≤ Spec.monBreak 2 1 ∧ Spec.moncurve 2 1 (1 / 2) ≤ Spec.monBreak 2 1 ∧
    ¬ ((3 : ℝ) ≤ Spec.monBreak 2 1) ∧ ¬ (Spec.moncurve 2 1 3 ≤ Spec.monBreak 2 1) := by
  have h : Spec.monBreak 2 1 = 1 := by norm_num [Spec.monBreak]
  have h1 : (1 / 2 : ℝ) ≤ 1 := by norm_num
  have h3 : ¬ (3 : ℝ) ≤ 1 := by norm_num
  refine ⟨by rw [h]; exact h1, ?_, by rw [h]; exact h3, ?_⟩
  · rw [Spec.moncurve, h, if_pos h1]; norm_num
  · rw [Spec.moncurve, h, if_neg h3]; norm_num

end CLF
