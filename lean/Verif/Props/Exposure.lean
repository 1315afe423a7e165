import Verif.Lemmas.Exposure
import Verif.Lemmas.RoundedList

/-! # Property C144: exposure and contrast -/

set_option linter.unusedSectionVars false

namespace CLF

/-- `node` applies the curve `F` to every channel of every pixel of three channels, whatever the image. -/
def Spec.AppliesCurve (node : List (Flt ℝ) → Py (Res ℝ)) (F : ℝ → ℝ) : Prop :=
  ∀ pixels : List (Fin 3 → ℝ), ∃ r, node (Spec.rgb pixels) = .ok r ∧ r.out = Spec.rgb (pixels.map fun v i => F (v i))

/-- Exact arithmetic. -/
theorem ecProcess_rgb {A : Arith ℝ} (hA : Spec.RealArith A) (e c p : ℝ) (hp : p ≠ 0) (hc : 0 ≤ c) (b : Base ℝ) (d1 d2 : AVal)
    (h : StyledNode b d1 d2 (.str "linear")) (pixels : List (Fin 3 → ℝ)) :
    ∃ r, ecProcess A (.fin e) (.fin c) (.fin p) b (Spec.rgb pixels) 3 = .ok r ∧
      r.out = Spec.rgb (pixels.map fun v i => p * max 0 (2 ^ e * (v i / Spec.fullScale (some d1)) / p) ^ c * Spec.fullScale (some d2)) := by
  rw [← ecR_exact hA.exact, ← rgb_image]
  obtain ⟨r, h1, h2⟩ := ecProcessR_image unrounded A (.fin e) (.fin c) (.fin p) b d1 d2 h (pixels.map fun v => (v, [])) (by simp)
    (fun _ x => p * max 0 (2 ^ e * (x / Spec.fullScale (some d1)) / p) ^ c * Spec.fullScale (some d2)) (by
      intro q _ i
      refine ⟨.fin (p * max 0 (2 ^ e * (q.1 i / Spec.fullScale (some d1)) / p) ^ c), ?_, ?_⟩
      · simp only [unrounded, ecTone]
        rw [pyPow_ok (by norm_num) (.inr (by norm_num)), hA.pow 2 e (.inl (by norm_num))]
        have hn : toUnitR unrounded (.fin (q.1 i)) (some d1) = .fin (q.1 i / Spec.fullScale (some d1)) := by
          rw [toUnitR_exact, toNormalized_fin, bitDepthSize_eq_fullScale]
        rw [hn, py_ok_bind, Flt.fin_mul, Flt.fin_div hp, Flt.pmax_fin]
        have h0 : 0 ≤ max 0 (2 ^ e * (q.1 i / Spec.fullScale (some d1)) / p) := le_max_left _ _
        have hpow : ∀ z : ℝ, 0 ≤ z → pyPow A (.fin z) (.fin c) = .ok (.fin (z ^ c)) := by
          intro z hz
          rw [← hA.pow z c (by
            rcases eq_or_lt_of_le hz with hz | hz
            · exact .inr ⟨hz.symm, hc⟩
            · exact .inl hz)]
          simp only [pyPow]
          rw [if_neg (fun h => absurd h.2 (not_lt.mpr hc)), if_neg (fun h => absurd h.1 (not_lt.mpr hz))]
        rw [hpow _ h0, py_ok_bind, Flt.fin_mul]
        rfl
      · show fromUnitR unrounded _ _ = _
        rw [fromUnitR_exact]
        simp only [unrounded, toDepth_fin, bitDepthSize_eq_fullScale])
  refine ⟨r, h1, h2.trans ?_⟩
  rw [← rgb_image]
  simp only [List.map_map]
  rfl

/-- The node's curve. -/
theorem ec_applies {A : Arith ℝ} (hA : Spec.RealArith A) (e c p : ℝ) (hp : p ≠ 0) (hc : 0 ≤ c) (b : Base ℝ) (d1 d2 : AVal)
    (h : StyledNode b d1 d2 (.str "linear")) :
    Spec.AppliesCurve (fun v => ecProcess A (.fin e) (.fin c) (.fin p) b v 3)
      fun x => p * max 0 (2 ^ e * (x / Spec.fullScale (some d1)) / p) ^ c * Spec.fullScale (some d2) :=
  fun pixels => ecProcess_rgb hA e c p hp hc b d1 d2 h pixels

/-- C144: with contrast 1, an exposure of `e` stops multiplies light by `2 ^ e`, whatever the pivot; colours below black become black. -/
theorem C144_stops (A : Arith ℝ) (hA : Spec.RealArith A) (e p : ℝ) (hp : 0 < p) (b : Base ℝ) (d1 d2 : AVal) (h : StyledNode b d1 d2 (.str "linear")) :
    Spec.AppliesCurve (fun v => ecProcess A (.fin e) (.fin 1) (.fin p) b v 3)
      fun x => 2 ^ e * max 0 x * (Spec.fullScale (some d2) / Spec.fullScale (some d1)) := by
  have hS := fullScale_pos (K := ℝ) (some d1)
  have := ec_applies hA e 1 p hp.ne' zero_le_one b d1 d2 h
  convert this using 2 with x
  have hE : (0 : ℝ) < 2 ^ e := Real.rpow_pos_of_pos (by norm_num) _
  have : 2 ^ e * (x / Spec.fullScale (some d1)) / p = 2 ^ e / (Spec.fullScale (some d1) * p) * x := by
    field_simp
  rw [Real.rpow_one, this]
  have e1 : max 0 (2 ^ e / (Spec.fullScale (some d1) * p) * x) = 2 ^ e / (Spec.fullScale (some d1) * p) * max 0 x := by
    rw [mul_max_of_nonneg _ _ (by positivity), mul_zero]
  rw [e1]
  field_simp

/-- C144: contrast leaves the pivot alone: without exposure, a colour at the pivot stays there; more light gives more, less gives less, and
none gives none. -/
theorem C144_pivot (A : Arith ℝ) (hA : Spec.RealArith A) (c p : ℝ) (hp : 0 < p) (hc : 0 < c) (b : Base ℝ) (d1 d2 : AVal)
    (h : StyledNode b d1 d2 (.str "linear")) :
    ∃ F, Spec.AppliesCurve (fun v => ecProcess A (.fin 0) (.fin c) (.fin p) b v 3) F ∧
      F (p * Spec.fullScale (some d1)) = p * Spec.fullScale (some d2) ∧ StrictMonoOn F (Set.Ici 0) ∧ ∀ x ≤ 0, F x = 0 := by
  have hS := fullScale_pos (K := ℝ) (some d1)
  have hT := fullScale_pos (K := ℝ) (some d2)
  refine ⟨_, ec_applies hA 0 c p hp.ne' hc.le b d1 d2 h, ?_, ?_, ?_⟩
  · rw [mul_div_cancel_right₀ _ hS.ne', Real.rpow_zero, one_mul, div_self hp.ne', max_eq_right zero_le_one, Real.one_rpow, mul_one]
  · intro x hx y hy hxy
    simp only [Real.rpow_zero, one_mul]
    have hx' : 0 ≤ x / Spec.fullScale (some d1) / p := div_nonneg (div_nonneg hx hS.le) hp.le
    have hlt : x / Spec.fullScale (some d1) / p < y / Spec.fullScale (some d1) / p :=
      div_lt_div_of_pos_right (div_lt_div_of_pos_right hxy hS) hp
    rw [max_eq_right hx', max_eq_right (hx'.trans hlt.le)]
    exact mul_lt_mul_of_pos_right (mul_lt_mul_of_pos_left (Real.rpow_lt_rpow hx' hlt hc) hp) hT
  · intro x hx
    have : 2 ^ (0 : ℝ) * (x / Spec.fullScale (some d1)) / p ≤ 0 := by
      rw [Real.rpow_zero, one_mul]
      exact div_nonpos_of_nonpos_of_nonneg (div_nonpos_of_nonpos_of_nonneg hx hS.le) hp.le
    simp only [max_eq_left this, Real.zero_rpow hc.ne', mul_zero, zero_mul]

/-- C144: two nodes with the same pivot are one: contrasts multiply, and the second exposure counts through the first contrast. -/
theorem C144_compose (A : Arith ℝ) (hA : Spec.RealArith A) (e c e' c' p : ℝ) (hp : 0 < p) (hc : 0 < c) (hc' : 0 ≤ c') (b b' b'' : Base ℝ) (d1 d2 d3 : AVal)
    (h : StyledNode b d1 d2 (.str "linear")) (h' : StyledNode b' d2 d3 (.str "linear")) (h'' : StyledNode b'' d1 d3 (.str "linear"))
    (pixels : List (Fin 3 → ℝ)) :
    ∃ r r' r'', ecProcess A (.fin e) (.fin c) (.fin p) b (Spec.rgb pixels) 3 = .ok r ∧
      ecProcess A (.fin e') (.fin c') (.fin p) b' r.out 3 = .ok r' ∧
      ecProcess A (.fin (e + e' / c)) (.fin (c * c')) (.fin p) b'' (Spec.rgb pixels) 3 = .ok r'' ∧ r'.out = r''.out := by
  have hT := fullScale_pos (K := ℝ) (some d2)
  obtain ⟨r, h1, h2⟩ := ec_applies hA e c p hp.ne' hc.le b d1 d2 h pixels
  obtain ⟨r', h3, h4⟩ := ec_applies hA e' c' p hp.ne' hc' b' d2 d3 h' (pixels.map fun v i =>
    p * max 0 (2 ^ e * (v i / Spec.fullScale (some d1)) / p) ^ c * Spec.fullScale (some d2))
  obtain ⟨r'', h5, h6⟩ := ec_applies hA (e + e' / c) (c * c') p hp.ne' (by positivity) b'' d1 d3 h'' pixels
  rw [← h2] at h3
  refine ⟨r, r', r'', h1, h3, h5, ?_⟩
  rw [h4, h6, List.map_map]
  congr 1
  refine List.map_congr_left fun v _ => ?_
  funext i
  simp only [Function.comp_apply]
  congr 2
  have hE : (0 : ℝ) < 2 ^ (e' / c) := Real.rpow_pos_of_pos (by norm_num) _
  have hE' : (0 : ℝ) < 2 ^ e' := Real.rpow_pos_of_pos (by norm_num) _
  have e1 : 2 ^ (e + e' / c) * (v i / Spec.fullScale (some d1)) / p = 2 ^ (e' / c) * (2 ^ e * (v i / Spec.fullScale (some d1)) / p) := by
    rw [Real.rpow_add (by norm_num)]
    ring
  have h0 := le_max_left 0 (2 ^ e * (v i / Spec.fullScale (some d1)) / p)
  rw [e1]
  generalize 2 ^ e * (v i / Spec.fullScale (some d1)) / p = X at *
  have e2 : max 0 (2 ^ (e' / c) * X) = 2 ^ (e' / c) * max 0 X := by rw [mul_max_of_nonneg _ _ hE.le, mul_zero]
  have e3 : 2 ^ e' * (p * max 0 X ^ c * Spec.fullScale (some d2) / Spec.fullScale (some d2)) / p = (2 ^ (e' / c) * max 0 X) ^ c := by
    rw [mul_div_cancel_right₀ _ hT.ne', Real.mul_rpow hE.le h0, ← Real.rpow_mul (by norm_num), div_mul_cancel₀ _ hc.ne']
    field_simp
  rw [e2, e3, max_eq_right (Real.rpow_nonneg (mul_nonneg hE.le h0) _), Real.rpow_mul (mul_nonneg hE.le h0)]

/-- C144: every setting can be undone. -/
theorem C144_undo (A : Arith ℝ) (hA : Spec.RealArith A) (e c p : ℝ) (hp : 0 < p) (hc : 0 < c) (b b' : Base ℝ) (d1 d2 : AVal)
    (h : StyledNode b d1 d2 (.str "linear")) (h' : StyledNode b' d2 d1 (.str "linear")) (pixels : List (Fin 3 → ℝ)) :
    ∃ r r', ecProcess A (.fin e) (.fin c) (.fin p) b (Spec.rgb pixels) 3 = .ok r ∧
      ecProcess A (.fin (-(e * c))) (.fin (1 / c)) (.fin p) b' r.out 3 = .ok r' ∧ r'.out = Spec.rgb (pixels.map fun v i => max 0 (v i)) := by
  have hi : 0 ≤ 1 / c := by positivity
  have hb : StyledNode (⟨[("inBitDepth", d1), ("outBitDepth", d1), ("style", .str "linear")], [], [], []⟩ : Base ℝ) d1 d1 (.str "linear") :=
    ⟨rfl, rfl, rfl⟩
  obtain ⟨r, r', r'', h1, h2, h3, h4⟩ := C144_compose A hA e c (-(e * c)) (1 / c) p hp hc hi b b' _ d1 d2 d1 h h' hb pixels
  refine ⟨r, r', h1, h2, ?_⟩
  have e1 : e + -(e * c) / c = 0 := by field_simp; ring
  have e2 : c * (1 / c) = 1 := by field_simp
  rw [e1, e2] at h3
  obtain ⟨q, k1, k2⟩ := C144_stops A hA 0 p hp _ d1 d1 hb pixels
  simp only at k1
  rw [k1] at h3
  cases h3
  rw [h4, k2]
  simp only [Real.rpow_zero, one_mul, div_self (fullScale_ne (K := ℝ) (some d1)), mul_one]

/-! ## Pivots that make no sense -/

/-- C144: with pivot 0, all light becomes NaN. -/
theorem C144_zero_pivot (A : Arith ℝ) (hA : Spec.RealArith A) (e c : ℝ) (hi : A.pow (.inf false) (.fin c) = .inf false) (b : Base ℝ) (d1 d2 : AVal)
    (h : StyledNode b d1 d2 (.str "linear")) (pixels : List (Fin 3 → ℝ)) (hx : ∀ p ∈ pixels, ∀ i, 0 < p i) :
    ∃ r, ecProcess A (.fin e) (.fin c) (.fin 0) b (Spec.rgb pixels) 3 = .ok r ∧ r.out = (pixels.map fun _ => [.nan, .nan, .nan]).flatten := by
  have hS := fullScale_pos (K := ℝ) (some d1)
  have key : ∀ x : ℝ, 0 < x → (do
      let y ← ecTone unrounded A (.fin e) (.fin c) (.fin 0) (unrounded single (toUnitR unrounded (.fin x) (some d1)))
      pure (unrounded single (fromUnitR unrounded (unrounded single y) (some d2))) : Py (Flt ℝ)) = .ok .nan := by
    intro x hx
    have hE : (0 : ℝ) < 2 ^ e := Real.rpow_pos_of_pos (by norm_num) _
    have hX : 0 < 2 ^ e * (x / Spec.fullScale (some d1)) := mul_pos hE (div_pos hx hS)
    have h1 : (.fin (2 ^ e * (x / Spec.fullScale (some d1))) : Flt ℝ) / .fin 0 = .inf false := by
      show Flt.div _ _ = _
      simp [Flt.div, hX.ne', hX.le]
    have h2 : Flt.pmax (.fin 0) (.inf false : Flt ℝ) = .inf false := rfl
    have h3 : pyPow A (.inf false) (.fin c) = .ok (.inf false) := by
      show Except.ok (A.pow _ _) = _
      rw [hi]
    have h4 : (.fin 0 : Flt ℝ) * .inf false = .nan := by
      show Flt.mul _ _ = _
      simp [Flt.mul]
    have h5 : normalizedToBitDepth (.nan : Flt ℝ) (some d2) = .nan := by
      unfold normalizedToBitDepth
      split_ifs <;> rfl
    simp only [unrounded, ecTone]
    rw [pyPow_ok (by norm_num) (.inr (by norm_num)), hA.pow 2 e (.inl (by norm_num)), toUnitR_exact, toNormalized_fin, bitDepthSize_eq_fullScale,
      py_ok_bind, Flt.fin_mul, h1, h2, h3, py_ok_bind, h4]
    show Except.ok (fromUnitR unrounded _ _) = _
    rw [fromUnitR_exact, h5]
  rw [← ecR_exact hA.exact, ecProcessR_view unrounded A _ _ _ b d1 d2 h, Spec.rgb]
  have := viewLoop_pixels 3 (by norm_num) (chanLoop 3 fun _ x => do
      let y ← ecTone unrounded A (.fin e) (.fin c) (.fin 0) (unrounded single (toUnitR unrounded x (some d1)))
      pure (unrounded single (fromUnitR unrounded (unrounded single y) (some d2)))) (fun _ => [.nan, .nan, .nan]) (pixels.map Spec.fins) (by
      intro p hp
      obtain ⟨q, -, rfl⟩ := List.mem_map.mp hp
      simp [Spec.fins]) (by
      intro p hp
      obtain ⟨q, hq, rfl⟩ := List.mem_map.mp hp
      rw [fins3, chanLoop3, key _ (hx q hq 0), key _ (hx q hq 1), key _ (hx q hq 2)]
      rfl) (by simp)
  rw [this, List.map_map]
  exact ⟨_, rfl, rfl⟩

/-! ## Examples -/

/-- One stop, a contrast of 2 around 18 % grey, and back. -/
example : ∃ r r', ecProcess realArith (.fin 1) (.fin 2) (.fin (18 / 100))
    { attrs := [("inBitDepth", .str "10i"), ("outBitDepth", .str "32f"), ("style", .str "linear")] } (Spec.rgb [![100, 200, 300], ![-5, 0, 2000]]) 3 = .ok r ∧
    ecProcess realArith (.fin (-(1 * 2))) (.fin (1 / 2)) (.fin (18 / 100))
      { attrs := [("inBitDepth", .str "32f"), ("outBitDepth", .str "10i"), ("style", .str "linear")] } r.out 3 = .ok r' ∧
    r'.out = Spec.rgb [![100, 200, 300], ![0, 0, 2000]] := by
  obtain ⟨r, r', h1, h2, h3⟩ := C144_undo realArith realArith_real 1 2 (18 / 100) (by norm_num) (by norm_num)
    { attrs := [("inBitDepth", .str "10i"), ("outBitDepth", .str "32f"), ("style", .str "linear")] }
    { attrs := [("inBitDepth", .str "32f"), ("outBitDepth", .str "10i"), ("style", .str "linear")] } (.str "10i") (.str "32f") ⟨rfl, rfl, rfl⟩
    ⟨rfl, rfl, rfl⟩ [![100, 200, 300], ![-5, 0, 2000]]
  refine ⟨r, r', h1, h2, h3.trans ?_⟩
  congr 1
  simp only [List.map_cons, List.map_nil]
  congr 2
  · funext i; fin_cases i <;> simp
  · congr 1
    funext i; fin_cases i <;> simp

/-- Full scale white with pivot 0. -/
example : ∃ A : Arith ℝ, Spec.RealArith A ∧ A.pow (.inf false) (.fin 1) = .inf false ∧ ∃ r, ecProcess A (.fin 0) (.fin 1) (.fin 0)
    { attrs := [("inBitDepth", .str "10i"), ("outBitDepth", .str "10i"), ("style", .str "linear")] } (Spec.rgb [![1023, 1023, 1023]]) 3 = .ok r ∧
    r.out = [.nan, .nan, .nan] := by
  have hA : Spec.RealArith { realArith with pow := fun b e => if b = .inf false then .inf false else realArith.pow b e } :=
    ⟨realArith_real.exact, fun b e h => by simpa using realArith_real.pow b e h, realArith_real.log10⟩
  obtain ⟨r, h1, h2⟩ := C144_zero_pivot _ hA 0 1 (by simp)
    { attrs := [("inBitDepth", .str "10i"), ("outBitDepth", .str "10i"), ("style", .str "linear")] } (.str "10i") (.str "10i") ⟨rfl, rfl, rfl⟩
    [![1023, 1023, 1023]] (by
      intro p hp i
      rw [List.mem_singleton] at hp
      subst hp
      fin_cases i <;> norm_num)
  exact ⟨_, hA, by simp, r, h1, by simpa using h2⟩

end CLF
