import Verif.Lemmas.Cdl
import Verif.Spec.Curves
import Mathlib.Analysis.Convex.SpecificFunctions.Basic

/-! # Lemmas: gamma -/

set_option linter.unusedSectionVars false

namespace CLF

variable {K : Type} [Field K] [LinearOrder K] [IsStrictOrderedRing K] [FloorRing K]

/-- A node that works on the three colour channels one by one, on finite pixels. -/
theorem chanNode_image (stride : ℕ) (hs : 3 ≤ stride) (f : ℕ → Flt K → Py (Flt K))
    (pixels : List ((Fin 3 → K) × List (Flt K))) (hp : ∀ p ∈ pixels, p.2.length + 3 = stride)
    (F : Fin 3 → K → K)
    (h : ∀ p ∈ pixels, ∀ i : Fin 3, f i (.fin (p.1 i)) = .ok (.fin (F i (p.1 i)))) :
    viewLoop stride (Spec.image pixels) (chanLoop 3 f)
      = .ok ⟨Spec.image (pixels.map fun p => (fun i => F i (p.1 i), p.2)),
          Spec.image (pixels.map fun p => (fun i => F i (p.1 i), p.2)), false⟩ := by
  rw [image_eq]
  have := viewLoop_chunks stride (by omega) (chanLoop 3 f)
    (pixels.map fun p => Spec.fins p.1 ++ p.2) [] (by
      intro c hc
      obtain ⟨p, hp', rfl⟩ := List.mem_map.mp hc
      have := hp p hp'
      simp [Spec.fins]; omega) (by simp; omega) (by
      intro c hc o ho
      obtain ⟨p, hp', rfl⟩ := List.mem_map.mp hc
      have := hp p hp'
      rw [(chanLoop_length ho).2]
      simp [Spec.fins]; omega)
  rw [List.append_nil] at this
  rw [this, py_mapM_map, py_mapM_ok _ (fun p => Spec.fins (fun i => F i (p.1 i)) ++ p.2) pixels]
  · simp only [py_ok_bind, image_eq, List.map_map, List.length_nil, List.replicate_zero,
      List.append_nil]
    rfl
  · intro p hp'
    exact chanLoop3_fins f p.1 (fun i => F i (p.1 i)) p.2 (h p hp')

/-! ### Parameter rows -/

theorem channelIndex_letter (i : Fin 3) : channelIndex (Spec.letter i) = .ok (i : ℕ) := by
  fin_cases i <;> rfl

theorem letter_inj {i j : Fin 3} (h : Spec.letter i = Spec.letter j) : i = j := by
  revert h; fin_cases i <;> fin_cases j <;> decide

theorem rowFor_nil {ρ : Type} (chan : ρ → Option String) (i : Fin 3) :
    Spec.rowFor chan [] i = none := rfl

theorem rowFor_snoc {ρ : Type} (chan : ρ → Option String) (rows : List ρ) (p : ρ) (i : Fin 3) :
    Spec.rowFor chan (rows ++ [p]) i
      = if chan p = none ∨ chan p = some (Spec.letter i) then some p else Spec.rowFor chan rows i := by
  unfold Spec.rowFor
  rw [List.reverse_append, List.reverse_singleton, List.singleton_append, List.find?_cons]
  by_cases h : chan p = none ∨ chan p = some (Spec.letter i) <;> simp [h]

/-- Folding parameter rows into per-channel settings, for `Gamma` and `Log`. -/
theorem rows_fold {ρ σ : Type} (chan : ρ → Option String) (val : ρ → σ) (dflt : σ)
    (rows : List ρ) (h : Spec.GoodLetters chan rows) :
    rows.foldlM (init := List.replicate 3 dflt) (fun acc p =>
      match chan p with
      | none => .ok (List.replicate 3 (val p))
      | some c => do
        let i ← channelIndex c
        pySet acc i (val p))
    = (.ok (List.ofFn fun i : Fin 3 => ((Spec.rowFor chan rows i).map val).getD dflt) :
        Py (List σ)) := by
  induction rows using List.reverseRecOn with
  | nil => simp [rowFor_nil, List.ofFn_succ, List.replicate]
  | append_singleton rows p ih =>
    rw [List.foldlM_append, ih fun q hq => h q (by simp [hq])]
    simp only [py_ok_bind, List.foldlM_cons, List.foldlM_nil, bind_pure]
    rcases h p (by simp) with hc | ⟨j, hc⟩
    · rw [hc]
      simp [rowFor_snoc, hc, List.ofFn_succ, List.replicate]
    · rw [hc]
      simp only [channelIndex_letter, py_ok_bind]
      rw [pySet_of_lt (by simp)]
      congr 1
      apply List.ext_getElem
      · simp
      · intro n h1 h2
        simp only [List.getElem_set, List.getElem_ofFn, rowFor_snoc, hc]
        have hn : n < 3 := by simpa using h2
        by_cases hjn : (j : ℕ) = n
        · have : j = ⟨n, hn⟩ := Fin.ext hjn
          subst this
          simp
        · rw [if_neg hjn, if_neg]
          rintro (h | h)
          · cases h
          · have := letter_inj (Option.some.inj h)
            exact hjn (by rw [this])

theorem rows_bad {ρ σ : Type} (chan : ρ → Option String) (val : ρ → σ) (rows : List ρ)
    (init : List σ) (hi : init.length = 3)
    (h : ∃ p ∈ rows, ∃ c, chan p = some c ∧ c ≠ "R" ∧ c ≠ "G" ∧ c ≠ "B") :
    rows.foldlM (init := init) (fun acc p =>
      match chan p with
      | none => .ok (List.replicate 3 (val p))
      | some c => do
        let i ← channelIndex c
        pySet acc i (val p))
    = (.error .keyError : Py (List σ)) := by
  induction rows generalizing init with
  | nil => obtain ⟨p, hp, _⟩ := h; cases hp
  | cons q rows ih =>
    obtain ⟨p, hp, c, hc, hR, hG, hB⟩ := h
    rw [List.foldlM_cons]
    rcases List.mem_cons.mp hp with rfl | hp
    · rw [hc]
      simp [channelIndex, hR, hG, hB]
    · cases hq : chan q with
      | none =>
        simp only [py_ok_bind]
        exact ih _ (by simp) ⟨p, hp, c, hc, hR, hG, hB⟩
      | some d =>
        simp only
        unfold channelIndex
        split_ifs with h1 h2 h3
        · simp only [py_ok_bind]
          rw [pySet_of_lt (by omega)]
          exact ih _ (by simpa using hi) ⟨p, hp, c, hc, hR, hG, hB⟩
        · simp only [py_ok_bind]
          rw [pySet_of_lt (by omega)]
          exact ih _ (by simpa using hi) ⟨p, hp, c, hc, hR, hG, hB⟩
        · simp only [py_ok_bind]
          rw [pySet_of_lt (by omega)]
          exact ih _ (by simpa using hi) ⟨p, hp, c, hc, hR, hG, hB⟩
        · rfl

theorem gammaParams_eq (rows : List (GammaParam K))
    (h : Spec.GoodLetters GammaParam.channel rows) :
    gammaParams rows = .ok (List.ofFn fun i : Fin 3 => Spec.gammaFor rows i) := by
  unfold gammaParams
  refine (rows_fold GammaParam.channel (fun p => (p.gamma, p.offset)) (.fin 1, .fin 0) rows h).trans ?_
  congr 2
  funext i
  unfold Spec.gammaFor
  cases Spec.rowFor GammaParam.channel rows i <;> rfl

theorem ofFn3_get {σ : Type} (f : Fin 3 → σ) (i : Fin 3) : pyGet (List.ofFn f) (i : ℕ) = .ok (f i) := by
  rw [pyGet_eq_ok, List.getElem?_ofFn, dif_pos i.2]

/-- A Gamma node of a known style on finite pixels. -/
theorem gammaProcess_image (A : Arith K) (hA : A.Exact) (rows : List (GammaParam K))
    (hr : Spec.GoodLetters GammaParam.channel rows) (b : Base K) (d1 d2 st : AVal)
    (h : StyledNode b d1 d2 st) (f : Flt K → Flt K → Flt K → Py (Flt K))
    (hf : gammaStyle A st = some f) (stride : ℕ) (hs : 3 ≤ stride)
    (pixels : List ((Fin 3 → K) × List (Flt K))) (hp : ∀ p ∈ pixels, p.2.length + 3 = stride)
    (F : Fin 3 → K → K)
    (hF : ∀ p ∈ pixels, ∀ i : Fin 3, f (Spec.gammaFor rows i).1 (Spec.gammaFor rows i).2
      (.fin (p.1 i / Spec.fullScale (some d1)))
        = .ok (.fin (F i (p.1 i / Spec.fullScale (some d1))))) :
    gammaProcess A rows b (Spec.image pixels) stride
      = .ok ⟨Spec.image (pixels.map fun p => (fun i => F i (p.1 i / Spec.fullScale (some d1))
            * Spec.fullScale (some d2), p.2)),
          Spec.image (pixels.map fun p => (fun i => F i (p.1 i / Spec.fullScale (some d1))
            * Spec.fullScale (some d2), p.2)), false⟩ := by
  obtain ⟨e1, e2, e3⟩ := h.attrs
  unfold gammaProcess
  simp only [e1, e2, e3, py_ok_bind, gammaParams_eq rows hr, hf]
  refine chanNode_image stride hs _ pixels hp
    (fun i x => F i (x / Spec.fullScale (some d1)) * Spec.fullScale (some d2)) ?_
  intro p hp' i
  simp only [ofFn3_get, py_ok_bind, hA _, toNormalized_fin, bitDepthSize_eq_fullScale,
    hF p hp' i, toDepth_fin, py_pure]

/-! ### The curves -/

theorem basicFwd_fin {A : Arith ℝ} (hA : Spec.RealArith A) {g x : ℝ} (hg : 0 < g ∨ 0 < x) :
    gammaBasicFwd A (.fin g) (.fin x) = .ok (.fin ((max 0 x) ^ g)) := by
  unfold gammaBasicFwd
  rw [Flt.pmax_fin]
  have h0 : (0 : ℝ) ≤ max 0 x := le_max_left _ _
  have h1 : 0 < g ∨ 0 < max 0 x := hg.imp id (fun h => lt_max_of_lt_right h)
  rw [pyPow_ok h0 h1, hA.pow]
  rcases h1 with h | h
  · rcases eq_or_lt_of_le h0 with h' | h'
    · exact .inr ⟨h'.symm, h.le⟩
    · exact .inl h'
  · exact .inl h

theorem basicRev_fin {A : Arith ℝ} (hA : Spec.RealArith A) {g x : ℝ} (hg : 0 < g ∨ (g ≠ 0 ∧ 0 < x)) :
    gammaBasicRev A (.fin g) (.fin x) = .ok (.fin ((max 0 x) ^ (1 / g))) := by
  unfold gammaBasicRev
  rw [pyDivF_fin (by rcases hg with h | h; exacts [h.ne', h.1]), py_ok_bind]
  exact basicFwd_fin hA (hg.imp (fun h => one_div_pos.mpr h) And.right)

variable {g o : ℝ}

theorem monBreak_pos (hg : 1 < g) (ho : 0 < o) : 0 < Spec.monBreak g o :=
  div_pos ho (by linarith)

theorem monBreak_add (hg : 1 < g) (ho : 0 < o) : Spec.monBreak g o + o = g * Spec.monBreak g o := by
  have : g - 1 ≠ 0 := by linarith
  unfold Spec.monBreak; field_simp; ring

/-- The tangent at the break point lies below the power segment. -/
theorem mon_tangent (hg : 1 < g) (ho : 0 < o) {x : ℝ} (hx : -o ≤ x) (hne : x ≠ Spec.monBreak g o) :
    ((Spec.monBreak g o + o) / (1 + o)) ^ g / Spec.monBreak g o * x < ((x + o) / (1 + o)) ^ g := by
  have hP := monBreak_pos hg ho
  have hPo := monBreak_add hg ho
  generalize Spec.monBreak g o = P at *
  have hgP : 0 < g * P := by nlinarith
  have hs : -1 ≤ (x - P) / (P + o) := by
    rw [le_div_iff₀ (by linarith)]; linarith
  have hs' : (x - P) / (P + o) ≠ 0 := div_ne_zero (sub_ne_zero.mpr hne) (by linarith)
  have B := one_add_mul_self_lt_rpow_one_add hs hs' hg
  have e1 : 1 + g * ((x - P) / (P + o)) = x / P := by
    rw [hPo]; field_simp; ring
  have e2 : 1 + (x - P) / (P + o) = (x + o) / (P + o) := by
    have : P + o ≠ 0 := by linarith
    field_simp; ring
  rw [e1, e2] at B
  have hy : 0 < ((P + o) / (1 + o)) ^ g := Real.rpow_pos_of_pos (div_pos (by linarith) (by linarith)) _
  have e3 : ((x + o) / (1 + o)) ^ g = ((P + o) / (1 + o)) ^ g * ((x + o) / (P + o)) ^ g := by
    rw [← Real.mul_rpow (div_nonneg (by linarith) (by linarith)) (div_nonneg (by linarith) (by linarith))]
    congr 1
    have h1 : P + o ≠ 0 := by linarith
    have h2 : 1 + o ≠ 0 := by linarith
    field_simp
  rw [e3, div_mul_eq_mul_div, mul_div_assoc]
  exact mul_lt_mul_of_pos_left B hy

/-- A value of the power segment that is mapped to the break point, so that the linear
segment of the inverse is used on it. -/
theorem mon_counter (hg : 1 < g) (ho : 0 < o) (hne : o ≠ g - 1) :
    ∃ t, Spec.moncurve g o t = Spec.monBreak g o ∧
      t < Spec.monBreak g o / (((Spec.monBreak g o + o) / (1 + o)) ^ g / Spec.monBreak g o) := by
  have hP := monBreak_pos hg ho
  have hPo := monBreak_add hg ho
  have hP1 : Spec.monBreak g o ≠ 1 := by
    intro h
    rw [Spec.monBreak, div_eq_one_iff_eq (by linarith)] at h
    exact hne h
  have hg0 : 0 < g := by linarith
  have ho1 : 0 < 1 + o := by linarith
  have hy : 0 < ((Spec.monBreak g o + o) / (1 + o)) ^ g :=
    Real.rpow_pos_of_pos (div_pos (by linarith) ho1) _
  -- the break point is mapped below itself
  have hlt : ((Spec.monBreak g o + o) / (1 + o)) ^ g < Spec.monBreak g o := by
    have := mon_tangent hg ho (x := 1) (by linarith) (Ne.symm hP1)
    rw [div_self ho1.ne', Real.one_rpow, mul_one, div_lt_one hP] at this
    exact this
  -- a value of the power segment that is mapped to the break point
  obtain ⟨t, ht⟩ : ∃ t, Spec.monBreak g o ^ (1 / g) * (1 + o) - o = t := ⟨_, rfl⟩
  have htt : (t + o) / (1 + o) = Spec.monBreak g o ^ (1 / g) := by
    rw [← ht]; field_simp; ring
  have ht2 : ((t + o) / (1 + o)) ^ g = Spec.monBreak g o := by
    rw [htt, ← Real.rpow_mul hP.le, one_div, inv_mul_cancel₀ hg0.ne', Real.rpow_one]
  have ht1 : Spec.monBreak g o < t := by
    have h1 : (((Spec.monBreak g o + o) / (1 + o)) ^ g) ^ (1 / g) < Spec.monBreak g o ^ (1 / g) :=
      Real.rpow_lt_rpow hy.le hlt (one_div_pos.mpr hg0)
    rw [one_div, Real.rpow_rpow_inv (div_pos (by linarith) ho1).le hg0.ne', ← one_div,
      div_lt_iff₀ ho1] at h1
    linarith
  have hm : Spec.moncurve g o t = Spec.monBreak g o := by
    rw [Spec.moncurve, if_neg (not_le.mpr ht1), ht2]
  have hrev : t < Spec.monBreak g o / (((Spec.monBreak g o + o) / (1 + o)) ^ g / Spec.monBreak g o) := by
    rw [lt_div_iff₀ (div_pos hy hP)]
    have := mon_tangent hg ho (x := t) (by linarith) ht1.ne'
    rw [ht2] at this
    linarith
  exact ⟨t, hm, hrev⟩

theorem moncurveFwd_fin {A : Arith ℝ} (hA : Spec.RealArith A) (hg : 1 < g) (ho : 0 < o) (x : ℝ) :
    moncurveFwd A (.fin g) (.fin o) (.fin x) = .ok (.fin (Spec.moncurve g o x)) := by
  have hg1 : g - 1 ≠ 0 := by linarith
  have ho1 : o + 1 ≠ 0 := by linarith
  have hP := monBreak_pos hg ho
  have hPo := monBreak_add hg ho
  unfold moncurveFwd
  simp only [Flt.fin_sub, Flt.fin_add, Flt.fin_mul, pyDivF_fin hg1, py_ok_bind, Flt.le_fin,
    decide_eq_true_eq]
  unfold Spec.moncurve
  have hb : o / (g - 1) = Spec.monBreak g o := rfl
  rw [hb]
  by_cases hx : x ≤ Spec.monBreak g o
  · rw [if_pos hx, if_pos hx]
    have hq : 0 < g * o / ((g - 1) * (o + 1)) :=
      div_pos (mul_pos (by linarith) ho) (mul_pos (by linarith) (by linarith))
    rw [pyDivF_fin ho.ne', pyDivF_fin (mul_ne_zero hg1 ho1)]
    simp only [py_ok_bind, pyPow_ok hq.le (.inr hq), hA.pow _ _ (.inl hq), Flt.fin_mul, py_pure]
    have e : g * o / ((g - 1) * (o + 1)) = (Spec.monBreak g o + o) / (1 + o) := by
      rw [hPo, Spec.monBreak]; field_simp; ring
    rw [e]
    congr 2
    rw [Spec.monBreak]
    field_simp
  · rw [if_neg hx, if_neg hx]
    have hx' : Spec.monBreak g o < x := not_le.mp hx
    have hq : 0 < (x + o) / (o + 1) := div_pos (by linarith) (by linarith)
    rw [Flt.fin_div ho1, Flt.pmax_fin, max_eq_right hq.le, pyPow_ok hq.le (.inr hq), hA.pow _ _ (.inl hq),
      add_comm o 1]

theorem moncurveRev_fin {A : Arith ℝ} (hA : Spec.RealArith A) (hg : 1 < g) (ho : 0 < o) (y : ℝ) :
    moncurveRev A (.fin g) (.fin o) (.fin y) = .ok (.fin (if y ≤ Spec.monBreak g o
      then y / (((Spec.monBreak g o + o) / (1 + o)) ^ g / Spec.monBreak g o)
      else y ^ (1 / g) * (1 + o) - o)) := by
  have hg0 : (0 : ℝ) < g := by linarith
  have hg1 : 0 < g - 1 := by linarith
  have ho1 : 0 < o + 1 := by linarith
  have ho1' : 0 < 1 + o := by linarith
  have hP := monBreak_pos hg ho
  have hPo := monBreak_add hg ho
  have hq : 0 < g * o / ((g - 1) * (o + 1)) :=
    div_pos (mul_pos hg0 ho) (mul_pos hg1 ho1)
  unfold moncurveRev
  simp only [Flt.fin_sub, Flt.fin_add, Flt.fin_mul, pyDivF_fin (mul_pos hg1 ho1).ne',
    pyDivF_fin hg1.ne', py_ok_bind, Flt.le_fin, decide_eq_true_eq, pyPow_ok hq.le (.inr hq)]
  have hb : o / (g - 1) = Spec.monBreak g o := rfl
  rw [hb]
  by_cases hy : y ≤ Spec.monBreak g o
  · rw [if_pos hy, if_pos hy]
    have ha : 0 < (g - 1) / o := div_pos hg1 ho
    have hc : 0 < (1 + o) / g := div_pos ho1' hg0
    rw [pyDivF_fin ho.ne', pyDivF_fin hg0.ne']
    simp only [py_ok_bind, pyPow_ok ha.le (.inr ha), pyPow_ok hc.le (.inr hc), hA.pow _ _ (.inl ha),
      hA.pow _ _ (.inl hc), Flt.fin_mul, py_pure]
    congr 2
    have e1 : (g - 1) / o = (Spec.monBreak g o)⁻¹ := by rw [Spec.monBreak, inv_div]
    rw [e1, hPo]
    generalize Spec.monBreak g o = P at *
    rw [Real.inv_rpow hP.le, Real.rpow_sub hP, Real.rpow_one, Real.div_rpow ho1'.le hg0.le,
      Real.div_rpow (mul_pos hg0 hP).le ho1'.le, Real.mul_rpow hg0.le hP.le]
    have := (Real.rpow_pos_of_pos hP g).ne'
    have := (Real.rpow_pos_of_pos hg0 g).ne'
    have := (Real.rpow_pos_of_pos ho1' g).ne'
    field_simp
  · rw [if_neg hy, if_neg hy]
    have hy' : Spec.monBreak g o < y := not_le.mp hy
    have hy0 : 0 < y := by linarith
    rw [pyDivF_fin hg0.ne', Flt.pmax_fin, max_eq_right hy0.le]
    simp only [py_ok_bind, pyPow_ok hy0.le (.inr hy0), hA.pow _ _ (.inl hy0), Flt.fin_mul, Flt.fin_sub,
      py_pure]

end CLF
