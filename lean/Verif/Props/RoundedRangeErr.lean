import Verif.Lemmas.RoundedRangeErr
import Verif.Props.RoundedLut1d

/-! # Property C126: accuracy of the Range node in IEEE arithmetic -/

set_option linter.unusedSectionVars false

namespace CLF

variable {K : Type} [Field K] [LinearOrder K] [IsStrictOrderedRing K] [FloorRing K]

theorem rangeF_close {din dout : AVal} {mi ma mo mx x : K} (hb : Spec.Bounds din dout mi ma mo mx) (hi : 0 ≤ mi) (ho : 0 ≤ mo)
    (hx : Spec.PixelNumber din x) (h1 : mi ≤ x) (h2 : x ≤ ma) :
    |rangeF din dout mi ma mo mx x - Spec.affine mi ma mo mx x|
      ≤ (x * ((mx - mo) / (ma - mi)) + mx) / 2 ^ 20 + 2 ^ (-129 : ℤ) := by
  have hSi : (0 : K) < Spec.fullScale (some din) := fullScale_pos _
  have hSo : (0 : K) < Spec.fullScale (some dout) := fullScale_pos _
  obtain ⟨rs, ls⟩ := scale_rel hb hi ho
  obtain ⟨-, ru, lu, -⟩ := pixel_rel hx (hi.trans h1)
  obtain ⟨ra, -, la, -⟩ := pixel_rel hb.minIn hi
  obtain ⟨rc, -, -, -⟩ := pixel_rel hb.minOut ho
  obtain ⟨rd, -, -, -⟩ := pixel_rel hb.maxOut (ho.trans hb.le)
  have hw : 0 < ma - mi := sub_pos.mpr hb.lt
  have hσ : 0 ≤ (mx - mo) / Spec.fullScale (some dout) / ((ma - mi) / Spec.fullScale (some din)) :=
    div_nonneg (div_nonneg (sub_nonneg.mpr hb.le) hSo.le) (div_nonneg hw.le hSi.le)
  have hx0 : 0 ≤ x / Spec.fullScale (some din) := div_nonneg (hi.trans h1) hSi.le
  have ha0 : 0 ≤ mi / Spec.fullScale (some din) := div_nonneg hi hSi.le
  have hp := (prod_rel ru hx0 lu rs hσ ls (by positivity) (by norm_num)).mono (mul_nonneg hx0 hσ)
    (show (5 / 4 * (1 / 2 ^ 24) + 1 / 2 ^ 31 : K) ≤ 3 / 2 * (1 / 2 ^ 24) by norm_num)
  have hm := (prod_rel ra ha0 la rs hσ ls (by positivity) (by norm_num)).mono (mul_nonneg ha0 hσ)
    (show (1 / 2 ^ 52 + 1 / 2 ^ 31 : K) ≤ 1 / 2 ^ 30 by norm_num)
  have eT : (x / Spec.fullScale (some din) * ((mx - mo) / Spec.fullScale (some dout) / ((ma - mi) / Spec.fullScale (some din)))
      - mi / Spec.fullScale (some din) * ((mx - mo) / Spec.fullScale (some dout) / ((ma - mi) / Spec.fullScale (some din)))
      + mo / Spec.fullScale (some dout)) * Spec.fullScale (some dout) = Spec.affine mi ma mo mx x := by
    unfold Spec.affine
    field_simp
    ring
  have ePS : (x / Spec.fullScale (some din) * ((mx - mo) / Spec.fullScale (some dout) / ((ma - mi) / Spec.fullScale (some din)))
      + mx / Spec.fullScale (some dout)) * Spec.fullScale (some dout) = x * ((mx - mo) / (ma - mi)) + mx := by
    field_simp
  have hT := ((C07_map hb.lt hb.le).2.2.2 x h1 h2).2
  have := range_err (mul_nonneg hx0 hσ) (mul_nonneg ha0 hσ)
    (mul_le_mul_of_nonneg_right (div_le_div_of_nonneg_right h1 hSi.le) hσ) (div_nonneg ho hSo.le) hSo
    (by rw [le_div_iff₀ hSo, eT]; exact hT) hp hm rc rd rfl rfl
  rw [eT, ePS] at this
  refine this.trans (add_le_add_right ?_ _)
  have h16 : (Spec.fullScale (some dout) : K) + 1 ≤ 2 ^ 17 := by
    rw [← bitDepthSize_eq_fullScale]
    unfold bitDepthSize
    split_ifs <;> norm_num
  refine (mul_le_mul_of_nonneg_right h16 (two_zpow_pos _).le).trans_eq ?_
  rw [← zpow_natCast, ← zpow_add₀ two_ne_zero]
  norm_num

/-- C126: between bounds that are not negative, the numbers pixels hold go to the affine map of the bounds up to
`(x (maxOut - minOut) / (maxIn - minIn) + maxOut) / 2^20 + 2^-129`. -/
theorem C126_close (b : Base K) (din dout : AVal) (minIn maxIn minOut maxOut : K)
    (h : FullRange b din dout minIn maxIn minOut maxOut) (hcl : Clamps b) (hb : Spec.Bounds din dout minIn maxIn minOut maxOut)
    (hi : 0 ≤ minIn) (ho : 0 ≤ minOut) (xs : List K)
    (hxs : ∀ x ∈ xs, Spec.PixelNumber din x ∧ minIn ≤ x ∧ x ≤ maxIn) :
    ∃ (r : Res K) (f : K → K), rangeProcessR ieee b (xs.map .fin) = .ok r ∧ r.out = xs.map (fun x => .fin (f x)) ∧
      ∀ x ∈ xs, |f x - Spec.affine minIn maxIn minOut maxOut x|
        ≤ (x * ((maxOut - minOut) / (maxIn - minIn)) + maxOut) / 2 ^ 20 + 2 ^ (-129 : ℤ) := by
  obtain ⟨e, -⟩ := rangeR_finite h hcl hb xs fun x hx => (hxs x hx).1.single
  exact ⟨_, rangeF din dout minIn maxIn minOut maxOut, e, rfl, fun x hx => rangeF_close hb hi ho (hxs x hx).1 (hxs x hx).2.1 (hxs x hx).2.2⟩

/-- C126: a Range without bounds takes every number that pixels of its input depth hold to its value at the output depth,
exactly, where pixels of that depth hold that. -/
theorem C126_convert (b : Base K) (din dout : AVal) (h : FreeRange b din dout) (xs : List K)
    (hxs : ∀ x ∈ xs, Spec.PixelNumber din x ∧ Spec.PixelNumber dout (x / Spec.fullScale (some din) * Spec.fullScale (some dout))) :
    ∃ r, rangeProcessR ieee b (xs.map .fin) = .ok r ∧
      r.out = xs.map fun x => .fin (x / Spec.fullScale (some din) * Spec.fullScale (some dout)) := by
  rw [rangeR_eq ieee b din dout _ h.inDepth h.outDepth _ rfl none none none none
    (by simp [rangeBoundR, h.minIn, h.noDefault]) (by simp [rangeBoundR, h.maxIn, h.noDefault])
    (by simp [rangeBoundR, h.minOut, h.noDefault]) (by simp [rangeBoundR, h.maxOut, h.noDefault])]
  rw [py_mapM_ok _ (Spec.convert (some din) (some dout))]
  · exact ⟨_, rfl, by simp [Function.comp_def, convert_fin]⟩
  · intro v hv
    obtain ⟨x, hx, rfl⟩ := List.mem_map.mp hv
    obtain ⟨h1, h2⟩ := hxs x hx
    have hstep : ∀ R : Rounding K, ∀ cl, rangeStepR R (some din) (some dout) cl none none none none (.fin x)
        = .ok (R single (fromUnitR R (R single (toUnitR R (.fin x) (some din))) (some dout))) := fun _ _ => rfl
    obtain ⟨u1, u2⟩ := unitR_eq din h1.single
    have e : unitF din x = unitF dout (x / Spec.fullScale (some din) * Spec.fullScale (some dout)) := by
      unfold unitF
      rw [mul_div_cancel_right₀ _ (fullScale_ne _)]
    rw [hstep, u1, (backR_eq dout h2 h2 u2 e.ge e.le).1, e, h2.back, convert_fin]

/-! ### What fails -/

/-- From the legal range of 10-bit video to that of 8-bit video. -/
def legal10to8 : Base ℚ where
  attrs := [("inBitDepth", .str "10i"), ("outBitDepth", .str "8i")]
  values := [("minInValue", .fin 64), ("maxInValue", .fin 940), ("minOutValue", .fin 16), ("maxOutValue", .fin 235)]

theorem pixelNumber_code (n k : ℕ) (d : AVal)
    (hd : (n, d) ∈ [(8, AVal.str "8i"), (10, .str "10i"), (12, .str "12i"), (16, .str "16i")]) (h : k < 2 ^ n) :
    Spec.PixelNumber d (k : K) := .inl ⟨n, k, hd, h, rfl⟩

theorem legal10to8_bounds : Spec.Bounds (.str "10i") (.str "8i") (64 : ℚ) 940 16 235 where
  minIn := by exact_mod_cast pixelNumber_code (K := ℚ) 10 64 _ (by simp) (by norm_num)
  maxIn := by exact_mod_cast pixelNumber_code (K := ℚ) 10 940 _ (by simp) (by norm_num)
  minOut := by exact_mod_cast pixelNumber_code (K := ℚ) 8 16 _ (by simp) (by norm_num)
  maxOut := by exact_mod_cast pixelNumber_code (K := ℚ) 8 235 _ (by simp) (by norm_num)
  lt := by norm_num
  le := by norm_num

/-- C126 is not exact where the affine map gives a whole code: the 10-bit code 128 should become the 8-bit code 32, but becomes
the number of `float32` before it. -/
theorem C126_codes_false : ¬ ∀ (b : Base ℚ) (din dout : AVal) (minIn maxIn minOut maxOut : ℚ),
    FullRange b din dout minIn maxIn minOut maxOut → Clamps b → Spec.Bounds din dout minIn maxIn minOut maxOut →
    ∀ x, Spec.PixelNumber din x → minIn ≤ x → x ≤ maxIn → Spec.PixelNumber dout (Spec.affine minIn maxIn minOut maxOut x) →
      (rangeProcessR ieee b [.fin x]).map (·.out) = .ok [.fin (Spec.affine minIn maxIn minOut maxOut x)] := by
  intro h
  have e : Spec.affine (64 : ℚ) 940 16 235 128 = 32 := by norm_num [Spec.affine]
  have := h legal10to8 (.str "10i") (.str "8i") 64 940 16 235 (by constructor <;> rfl) (.inl rfl) legal10to8_bounds 128
    (by exact_mod_cast pixelNumber_code (K := ℚ) 10 128 _ (by simp) (by norm_num)) (by norm_num) (by norm_num)
    (by rw [e]; exact_mod_cast pixelNumber_code (K := ℚ) 8 32 _ (by simp) (by norm_num))
  rw [e] at this
  have h2 : (rangeProcessR ieee legal10to8 [.fin 128]).map (·.out) = .ok [.fin (32 - 1 / 2 ^ 19)] := by decide +kernel
  rw [h2] at this
  exact absurd this (by decide +kernel)

/-- C126, a 10-bit image through the same node, written with 8 bits: the codes 64, 128, 132 and 940 should become
16, 32, 33 and 235. -/
theorem C126_image_false : filterImage storedArith 2
    (some ⟨.uint16, 2, 2, 1, some 10, .ints [64 * 64, 128 * 64, 132 * 64, 940 * 64]⟩)
    [.leaf .range legal10to8] (some (.str "8i")) 2 [0, 1, 0, 1] = .ok (some ⟨.uint8, 2, 2, 1, some 8, .ints [16, 31, 32, 235]⟩) := by
  decide +kernel

/-- The bounds have to be numbers that pixels hold: 0.1 as a `float32` number is above the `float64` number 0.1. -/
example : (rangeProcessR (K := ℚ) ieee ⟨[("inBitDepth", .str "16f"), ("outBitDepth", .str "16f")],
    [("minInValue", .fin 0), ("maxInValue", .fin 1), ("minOutValue", .fin 0), ("maxOutValue", .fin (1 / 10))], [], []⟩
    [.inf false]).map (·.out) = .ok [.fin (13421773 / 2 ^ 27)] ∧ (1 / 10 : ℚ) < 13421773 / 2 ^ 27 := by decide +kernel

/-- Bounds below zero are left out of `C126_identity_partial`: between -1 and 1 tiny numbers become zero. -/
example : (rangeProcessR (K := ℚ) ieee ⟨[("inBitDepth", .str "16f"), ("outBitDepth", .str "16f")],
    [("minInValue", .fin (-1)), ("maxInValue", .fin 1), ("minOutValue", .fin (-1)), ("maxOutValue", .fin 1)], [], []⟩
    [.fin (1 / 2 ^ 60)]).map (·.out) = .ok [.fin 0] := by decide +kernel

/-! ### Instances -/

example (values : List (Flt ℚ)) : ∃ r, rangeProcessR ieee legal10to8 values = .ok r ∧ r.out.length = values.length ∧
    (∀ y ∈ r.out, ∃ z, y = .fin z ∧ Spec.IsSingle z ∧ 16 ≤ z ∧ z ≤ 235) ∧
    ∀ i : ℕ, values[i]? = some (Flt.nan : Flt ℚ) → r.out[i]? = some (Flt.fin 16) :=
  C126_bounds legal10to8 (.str "10i") (.str "8i") 64 940 16 235 (by constructor <;> rfl) (.inl rfl) legal10to8_bounds values

example : ∃ ys : List ℚ, ys.length = 3 ∧
    rangeProcessR ieee legal10to8 ([0, 128, 940].map .fin) = .ok ⟨ys.map .fin, ys.map .fin, true⟩ := by
  obtain ⟨ys, h1, h2, -⟩ := C126_monotone legal10to8 (.str "10i") (.str "8i") 64 940 16 235 (by constructor <;> rfl) (.inl rfl)
    legal10to8_bounds [0, 128, 940] (by
      intro x hx
      simp only [List.mem_cons, List.not_mem_nil, or_false] at hx
      rcases hx with rfl | rfl | rfl
      · exact isSingle_zero
      · exact_mod_cast isSingle_nat (K := ℚ) (k := 128) (by norm_num)
      · exact_mod_cast isSingle_nat (K := ℚ) (k := 940) (by norm_num))
  exact ⟨ys, h1, h2⟩

/-- Every code of the legal range is within half a code, so it would be right after rounding to the nearest. -/
example (k : ℕ) (h1 : 64 ≤ k) (h2 : k ≤ 940) : ∃ (r : Res ℚ) (y : ℚ), rangeProcessR ieee legal10to8 [.fin (k : ℚ)] = .ok r ∧
    r.out = [.fin y] ∧ |y - Spec.affine 64 940 16 235 (k : ℚ)| ≤ 1 / 1000 := by
  have c1 : (64 : ℚ) ≤ k := by exact_mod_cast h1
  have c2 : (k : ℚ) ≤ 940 := by exact_mod_cast h2
  obtain ⟨r, f, e, e2, h⟩ := C126_close legal10to8 (.str "10i") (.str "8i") 64 940 16 235 (by constructor <;> rfl) (.inl rfl)
    legal10to8_bounds (by norm_num) (by norm_num) [(k : ℚ)] (by
      simp only [List.mem_singleton, forall_eq]
      exact ⟨pixelNumber_code 10 k _ (by simp) (by omega), c1, c2⟩)
  refine ⟨r, f k, e, e2, (h k (by simp)).trans ?_⟩
  have : (2 : ℚ) ^ (-129 : ℤ) ≤ 1 / 2 ^ 20 := by norm_num
  norm_num at this ⊢
  linarith

/-- A Range that clamps 8-bit pixels to the legal range. -/
example (k : ℕ) (h : k < 256) : ∃ r, rangeProcessR (K := ℚ) ieee ⟨[("inBitDepth", .str "8i"), ("outBitDepth", .str "8i")],
      [("minInValue", .fin 16), ("maxInValue", .fin 235), ("minOutValue", .fin 16), ("maxOutValue", .fin 235)], [], []⟩
      ([(k : ℚ)].map .fin) = .ok r ∧ r.out = [(k : ℚ)].map fun x => .fin (min 235 (max 16 x)) :=
  C126_identity_partial _ (.str "8i") 16 235 (by constructor <;> rfl) (.inl rfl)
    (by exact_mod_cast pixelNumber_code (K := ℚ) 8 16 _ (by simp) (by norm_num))
    (by exact_mod_cast pixelNumber_code (K := ℚ) 8 235 _ (by simp) (by norm_num)) (by norm_num) (by norm_num) _ (by
      simp only [List.mem_singleton, forall_eq]
      exact pixelNumber_code 8 k _ (by simp) h)

/-- Every 8-bit code becomes 257 times the code with 16 bits. -/
example (k : ℕ) (h : k < 256) : ∃ r, rangeProcessR (K := ℚ) ieee ⟨[("inBitDepth", .str "8i"), ("outBitDepth", .str "16i")], [], [], []⟩
    ([(k : ℚ)].map .fin) = .ok r ∧ r.out = [.fin (257 * (k : ℚ))] := by
  have e : (k : ℚ) / Spec.fullScale (some (.str "8i")) * Spec.fullScale (some (.str "16i")) = ((257 * k : ℕ) : ℚ) := by
    norm_num [Spec.fullScale, Spec.bits]
    ring
  obtain ⟨r, h1, h2⟩ := C126_convert (K := ℚ) ⟨[("inBitDepth", .str "8i"), ("outBitDepth", .str "16i")], [], [], []⟩
    (.str "8i") (.str "16i") (by constructor <;> rfl) [(k : ℚ)] (by
      simp only [List.mem_singleton, forall_eq]
      refine ⟨pixelNumber_code 8 k _ (by simp) h, ?_⟩
      rw [e]
      exact pixelNumber_code 16 (257 * k) _ (by simp) (by omega))
  refine ⟨r, h1, ?_⟩
  rw [h2, List.map_singleton, e]
  push_cast
  rfl

end CLF
