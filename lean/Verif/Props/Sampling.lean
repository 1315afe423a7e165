import Verif.Lemmas.Sampling
import Verif.Lemmas.Log
import Verif.Props.Range
import Verif.Props.Nodes

/-! # Properties C58–C60: sampling and shapers -/

set_option linter.unusedSectionVars false

namespace CLF

variable {K : Type} [Field K] [LinearOrder K] [IsStrictOrderedRing K] [FloorRing K]

/-! ### C58 -/

/-- C58: the sample points are equally spaced from `a` to `b`. -/
theorem C58_grid (m : ℕ) (a b : K) :
    Spec.grid (m + 1) a b 0 = a ∧ Spec.grid (m + 1) a b (m + 1) = b ∧
    ∀ k, Spec.grid (m + 1) a b (k + 1) - Spec.grid (m + 1) a b k = (b - a) / (m + 1 : ℕ) := by
  have hne : ((m + 1 : ℕ) : K) ≠ 0 := Nat.cast_ne_zero.mpr (by omega)
  refine ⟨by simp [Spec.grid], ?_, fun k => ?_⟩
  · unfold Spec.grid
    rw [mul_div_cancel₀ _ hne]; ring
  · unfold Spec.grid; push_cast; ring

/-- C58: one-dimensional sampling succeeds exactly when the list can be evaluated at
every grid point, and then returns these values in order. -/
theorem C58_1d (A : Arith K) (compat : ℕ) (ns : List (Node K)) (m : ℕ) (a b : K)
    (s : List (Flt K)) :
    sample1D A compat ns (m + 2) (.fin a) (.fin b) = .ok s ↔
      ∃ F : ℕ → List (Flt K),
        (∀ k < m + 2, processList A compat ns
          (List.replicate 3 (.fin (Spec.grid (m + 1) a b k))) 0 = .ok (F k)) ∧
        s = ((List.range (m + 2)).map F).flatten := by
  unfold sample1D
  rw [sampleLoop_fin]
  constructor
  · intro h
    obtain ⟨rows, h1, h2⟩ := py_bind_eq_ok.mp h
    cases h2
    have h3 := py_mapM_eq_ok.mp h1
    have hl : rows.length = m + 2 := by rw [← h3.length_eq]; simp
    have hk : ∀ k (hk : k < m + 2), processList A compat ns
        (List.replicate 3 (.fin (Spec.grid (m + 1) a b k))) 0 = .ok (rows[k]'(by omega)) := by
      intro k hk
      have := (List.forall₂_iff_get.mp h3).2 k (by simpa using hk) (by omega)
      simpa using this
    refine ⟨fun k => rows.getD k [], fun k hk' => ?_, ?_⟩
    · rw [hk k hk']; simp [List.getD, hl, hk']
    · congr 1
      apply List.ext_getElem (by simp [hl])
      intro i h1 h2
      simp [h1]
  · rintro ⟨F, hF, rfl⟩
    rw [py_mapM_ok _ F _ (fun k hk => hF k (by simpa using hk))]
    rfl

/-- C58: three-dimensional sampling with equal first and last resolutions returns, at
`[r][g][b]`, the list's value at the lattice point.  Missing: unequal first and last
resolutions, which fail (`C58_3d_false`). -/
theorem C58_3d_partial (A : Arith K) (compat : ℕ) (ns : List (Node K)) (m m1 : ℕ) (a b : K)
    (V : ℕ → ℕ → ℕ → List (Flt K))
    (hV : ∀ r < m + 2, ∀ g < m1 + 2, ∀ bl < m + 2, processList A compat ns
      [.fin (Spec.grid (m + 1) a b r), .fin (Spec.grid (m1 + 1) a b g),
        .fin (Spec.grid (m + 1) a b bl)] 0 = .ok (V r g bl)) :
    sample3D A compat ns (m + 2, m1 + 2, m + 2) (.fin a) (.fin b)
      = .ok (Spec.cubeOf (m + 2) (m1 + 2) (m + 2) V) := by
  unfold sample3D
  rw [cubeLoop_fin m m1 m a b _ V hV, if_pos rfl]

/-- C58 is false for unequal first and last resolutions: whatever the list, sampling
raises an `IndexError`. -/
theorem C58_3d_false (A : Arith K) (compat : ℕ) (ns : List (Node K)) (m0 m1 m2 : ℕ)
    (hne : m0 ≠ m2) (a b : K) (V : ℕ → ℕ → ℕ → List (Flt K))
    (hV : ∀ r < m0 + 2, ∀ g < m1 + 2, ∀ bl < m2 + 2, processList A compat ns
      [.fin (Spec.grid (m0 + 1) a b r), .fin (Spec.grid (m1 + 1) a b g),
        .fin (Spec.grid (m2 + 1) a b bl)] 0 = .ok (V r g bl)) :
    sample3D A compat ns (m0 + 2, m1 + 2, m2 + 2) (.fin a) (.fin b) = .error .indexError := by
  unfold sample3D
  rw [cubeLoop_fin m0 m1 m2 a b _ V hV, if_neg hne]

/-! ### Shapers -/

theorem boundedRange_out (A : Arith K) (hA : A.Exact) (compat stride : ℕ) (id : String)
    {a b c d : K} (h : a ≠ b) (xs : List K) :
    (boundedRange id (.fin a) (.fin b) (.fin c) (.fin d)).outOf A compat stride (xs.map .fin)
      = .ok (xs.map fun x => .fin (min d (max c (Spec.affine a b c d x)))) := by
  unfold boundedRange
  rw [outOf_leaf]
  have hb : ∀ bs : Base K, bs = { (newBase float16 float16 (.str id) (.str id) : Base K) with
      values := [("minInValue", .fin a), ("maxInValue", .fin b), ("minOutValue", .fin c),
        ("maxOutValue", .fin d)] } → FullRange bs float16 float16 a b c d ∧ Clamps bs := by
    rintro _ rfl
    exact ⟨⟨rfl, rfl, rfl, rfl, rfl, rfl⟩, .inl rfl⟩
  obtain ⟨h1, h2⟩ := hb _ rfl
  obtain ⟨r, hr, ho⟩ := C07_affine_clamped A hA _ float16 float16 a b c d h1 h2 h xs
  simp only [leafProcess, hr, py_ok_bind, ho]

theorem map_exact {A : Arith K} (hA : A.Exact) (v : List (Flt K)) : v.map A.f32 = v := by
  conv_rhs => rw [← List.map_id v]
  exact List.map_congr_left fun x _ => hA x

theorem py_bind_ok {α : Type} (x : Py α) : (do let a ← x; Except.ok a) = x := by
  cases x <;> rfl

/-- Two plain nodes one after the other. -/
theorem processList_two (A : Arith K) (hA : A.Exact) (compat stride : ℕ) (n1 n2 : Node K)
    (h1 : n1.attr "bypass" = none) (h2 : n2.attr "bypass" = none) (v : List (Flt K)) :
    processList A compat [n1, n2] v stride
      = (do let w ← n1.outOf A compat stride v; n2.outOf A compat stride w) := by
  rw [processList_eq, map_exact hA, runOut_plain _ _ _ _ _ (by simp [h1, h2])]
  simp [py_bind_ok]

theorem processList_one (A : Arith K) (hA : A.Exact) (compat stride : ℕ) (n1 : Node K)
    (h1 : n1.attr "bypass" = none) (v : List (Flt K)) :
    processList A compat [n1] v stride = n1.outOf A compat stride v := by
  rw [processList_eq, map_exact hA, runOut_plain _ _ _ _ _ (by simp [h1])]
  simp [py_bind_ok]

/-- The values of three-channel pixels. -/
def pixelValues (pixels : List (Fin 3 → K)) : List (Flt K) := pixels.flatMap Spec.fins

theorem pixelValues_map (pixels : List (Fin 3 → K)) :
    pixelValues pixels = (pixels.flatMap fun p => List.ofFn p).map .fin := by
  unfold pixelValues Spec.fins
  rw [List.map_flatMap]
  simp only [List.map_ofFn]; rfl

theorem pixelValues_image (pixels : List (Fin 3 → K)) :
    pixelValues pixels = Spec.image (pixels.map fun p => (p, [])) := by
  unfold pixelValues Spec.image
  rw [List.map_map, List.flatMap_def]
  simp [Function.comp_def]

theorem map_pixelValues (f : K → K) (pixels : List (Fin 3 → K)) :
    (pixels.flatMap fun p => List.ofFn p).map (fun x => Flt.fin (f x))
      = pixelValues (pixels.map fun p i => f (p i)) := by
  unfold pixelValues Spec.fins
  rw [List.map_flatMap, List.flatMap_map]
  simp only [List.map_ofFn]; rfl

theorem boundedRange_pixels (A : Arith K) (hA : A.Exact) (compat stride : ℕ) (id : String)
    {a b c d : K} (h : a ≠ b) (pixels : List (Fin 3 → K)) :
    (boundedRange id (.fin a) (.fin b) (.fin c) (.fin d)).outOf A compat stride (pixelValues pixels)
      = .ok (pixelValues (pixels.map fun p i => min d (max c (Spec.affine a b c d (p i))))) := by
  rw [pixelValues_map, boundedRange_out A hA compat stride id h, map_pixelValues]

theorem log_pixels (A : Arith ℝ) (hA : A.Exact) (compat : ℕ) (st : String)
    (f : LogParam ℝ → Flt ℝ → Py (Flt ℝ)) (hf : logStyle A (.str st) = some f) (G : ℝ → ℝ)
    (pixels : List (Fin 3 → ℝ))
    (hG : ∀ p ∈ pixels, ∀ i q, f q (.fin (p i)) = .ok (.fin (G (p i)))) :
    (styledLog st).outOf A compat 3 (pixelValues pixels)
      = .ok (pixelValues (pixels.map fun p i => G (p i))) := by
  have hfs : (Spec.fullScale (some float16) : ℝ) = 1 := rfl
  unfold styledLog
  rw [outOf_leaf]
  have := logProcess_image A hA [] (by intro p hp; simp at hp)
    ((newBase float16 float16 (.str "") (.str "")).setAttribute "style" (.str st)) float16 float16
    (.str st) ⟨rfl, rfl, rfl⟩ f hf 3 le_rfl (pixels.map fun p => (p, [])) (by
      intro p hp
      obtain ⟨q, _, rfl⟩ := List.mem_map.mp hp
      rfl) (fun _ => G) (by
      intro p hp i
      obtain ⟨q, hq, rfl⟩ := List.mem_map.mp hp
      rw [hfs, div_one]
      exact hG q hq i _)
  simp only [leafProcess]
  rw [pixelValues_image, this, pixelValues_image]
  simp [hfs, Function.comp_def]

/-! ### C59 -/

theorem affine_unit {lo hi x : K} : Spec.affine lo hi 0 1 x = (x - lo) / (hi - lo) := by
  unfold Spec.affine; ring

theorem affine_back {lo hi x : K} (h : lo < hi) :
    Spec.affine 0 1 lo hi ((x - lo) / (hi - lo)) = x := by
  have : hi - lo ≠ 0 := (sub_pos.mpr h).ne'
  unfold Spec.affine; field_simp; ring

theorem affine_unit_mem {lo hi x : K} (h : lo < hi) (h1 : lo ≤ x) (h2 : x ≤ hi) :
    0 ≤ (x - lo) / (hi - lo) ∧ (x - lo) / (hi - lo) ≤ 1 := by
  have hp : 0 < hi - lo := sub_pos.mpr h
  exact ⟨div_nonneg (sub_nonneg.mpr h1) hp.le, (div_le_one hp).mpr (by linarith)⟩

open Spec (ShaperKind)

theorem createShaper_kind (A : Arith ℝ) (hA : Spec.RealArith A) (kind : ShaperKind) (lo hi : ℝ) :
    ∃ s, createShaper A (some kind.name) (.fin lo) (.fin hi) = .ok s ∧
      s.lo = .fin (kind.unscale lo) ∧ s.hi = .fin (kind.unscale hi) ∧
      s.forward = (match kind with | .linear => [] | .log2 => [styledLog "log2"]) ++
        [boundedRange "" (.fin lo) (.fin hi) (.fin 0) (.fin 1)] ∧
      s.inverse = boundedRange "" (.fin 0) (.fin 1) (.fin lo) (.fin hi) ::
        (match kind with | .linear => [] | .log2 => [styledLog "antiLog2"]) := by
  have hp : ∀ e : ℝ, pyPow A (.fin 2) (.fin e) = .ok (.fin ((2 : ℝ) ^ e)) := by
    intro e
    unfold pyPow
    simp only [OfNat.ofNat_ne_zero, false_and, if_false]
    rw [if_neg (by rintro ⟨h, _⟩; norm_num at h), hA.pow _ _ (.inl (by norm_num))]
  cases kind with
  | linear => exact ⟨_, by simp [createShaper, ShaperKind.name]; rfl, rfl, rfl, rfl, rfl⟩
  | log2 =>
    refine ⟨⟨_, _, .fin (2 ^ lo), .fin (2 ^ hi)⟩, ?_, rfl, rfl, rfl, rfl⟩
    simp only [createShaper, ShaperKind.name, hp, if_true, py_ok_bind]
    rfl

/-- The value the forward shaper works on: `log2` raises values to the smallest normal
float. -/
noncomputable def raised : ShaperKind → ℝ → ℝ
  | .linear, x => x
  | .log2, x => max x Spec.floor32

/-- Forward shaper on pixels. -/
theorem shaper_forward (A : Arith ℝ) (hA : Spec.RealArith A) (compat : ℕ) (kind : ShaperKind)
    (lo hi : ℝ) (h : lo < hi) (s : Shaper ℝ)
    (hs : createShaper A (some kind.name) (.fin lo) (.fin hi) = .ok s) (pixels : List (Fin 3 → ℝ)) :
    processList A compat s.forward (pixelValues pixels) 3 = .ok (pixelValues (pixels.map fun p i =>
      min 1 (max 0 ((kind.scale (raised kind (p i)) - lo) / (hi - lo))))) := by
  obtain ⟨s', h1, _, _, h2, _⟩ := createShaper_kind A hA kind lo hi
  rw [h1] at hs; cases hs
  rw [h2]
  cases kind with
  | linear =>
    rw [List.nil_append, processList_one A hA.exact _ _ _ rfl,
      boundedRange_pixels A hA.exact _ _ _ h.ne]
    simp only [affine_unit, ShaperKind.scale, raised]
  | log2 =>
    show processList A compat [_, _] _ _ = _
    rw [processList_two A hA.exact _ _ _ _ rfl rfl, log_pixels A hA.exact compat "log2" _ rfl
      (fun x => Real.logb 2 (max x Spec.floor32)), py_ok_bind,
      boundedRange_pixels A hA.exact _ _ _ h.ne, List.map_map]
    · simp only [affine_unit, ShaperKind.scale, Function.comp_def, raised]
    · intro p hp i q
      have hpos : 0 < max (p i) Spec.floor32 := lt_max_of_lt_right floor32_pos
      have h2 : Real.logb 10 2 ≠ 0 := (Real.logb_pos (by norm_num) (by norm_num)).ne'
      simp only [floatMin_eq, Flt.pmax_fin, hA.log10 _ hpos,
        hA.log10 2 (by norm_num), Flt.fin_div h2, py_pure]
      congr 2
      have h10 : Real.log 10 ≠ 0 := (Real.log_pos (by norm_num)).ne'
      simp only [Real.logb]
      rw [div_div_div_cancel_right₀ h10]

/-- Inverse shaper on pixels. -/
theorem shaper_inverse (A : Arith ℝ) (hA : Spec.RealArith A) (compat : ℕ) (kind : ShaperKind)
    (lo hi : ℝ) (s : Shaper ℝ)
    (hs : createShaper A (some kind.name) (.fin lo) (.fin hi) = .ok s) (pixels : List (Fin 3 → ℝ)) :
    processList A compat s.inverse (pixelValues pixels) 3 = .ok (pixelValues (pixels.map fun p i =>
      kind.unscale (min hi (max lo (Spec.affine 0 1 lo hi (p i)))))) := by
  obtain ⟨s', h1, _, _, _, h2⟩ := createShaper_kind A hA kind lo hi
  rw [h1] at hs; cases hs
  rw [h2]
  cases kind with
  | linear =>
    show processList A compat [_] _ _ = _
    rw [processList_one A hA.exact _ _ _ rfl, boundedRange_pixels A hA.exact _ _ _ zero_ne_one]
    rfl
  | log2 =>
    show processList A compat [_, _] _ _ = _
    rw [processList_two A hA.exact _ _ _ _ rfl rfl, boundedRange_pixels A hA.exact _ _ _ zero_ne_one,
      py_ok_bind, log_pixels A hA.exact compat "antiLog2" _ rfl (fun x => (2 : ℝ) ^ x), List.map_map]
    · rfl
    · intro p hp i q
      simp only [hA.pow _ _ (.inl (by norm_num : (0 : ℝ) < 2)), py_pure]

theorem raised_eq (kind : ShaperKind) {x : ℝ} (h : kind = .log2 → Spec.floor32 ≤ x) :
    raised kind x = x := by
  cases kind with
  | linear => rfl
  | log2 => exact max_eq_left (h rfl)

theorem unscale_scale (kind : ShaperKind) {x lo : ℝ} (h : kind.unscale lo ≤ x) :
    kind.unscale (kind.scale x) = x := by
  cases kind with
  | linear => rfl
  | log2 =>
    have : 0 < x := (Real.rpow_pos_of_pos (by norm_num : (0 : ℝ) < 2) lo).trans_le h
    exact Real.rpow_logb (by norm_num) (by norm_num) this

theorem scale_unscale (kind : ShaperKind) (x : ℝ) : kind.scale (kind.unscale x) = x := by
  cases kind with
  | linear => rfl
  | log2 => exact Real.logb_rpow (by norm_num) (by norm_num)

theorem scale_mem (kind : ShaperKind) {lo hi x : ℝ} (h1 : kind.unscale lo ≤ x)
    (h2 : x ≤ kind.unscale hi) : lo ≤ kind.scale x ∧ kind.scale x ≤ hi := by
  cases kind with
  | linear => exact ⟨h1, h2⟩
  | log2 =>
    have : 0 < x := (Real.rpow_pos_of_pos (by norm_num : (0 : ℝ) < 2) lo).trans_le h1
    exact ⟨(Real.le_logb_iff_rpow_le (by norm_num) this).mpr h1,
      (Real.logb_le_iff_le_rpow (by norm_num) this).mpr h2⟩

/-- C59: the shaper's input range is `[unscale lo, unscale hi]`; on it (and, for `log2`,
not below the smallest normal float) the shaper is the scale made to run from 0 to 1, and
the inverse shaper returns the values.  Missing: values below the smallest normal float. -/
theorem C59_inverse_forward_partial (A : Arith ℝ) (hA : Spec.RealArith A) (compat : ℕ)
    (kind : ShaperKind) (lo hi : ℝ) (h : lo < hi) (pixels : List (Fin 3 → ℝ))
    (hp : ∀ p ∈ pixels, ∀ i, kind.unscale lo ≤ p i ∧ p i ≤ kind.unscale hi)
    (hfl : kind = .log2 → ∀ p ∈ pixels, ∀ i, Spec.floor32 ≤ p i) :
    ∃ s w, createShaper A (some kind.name) (.fin lo) (.fin hi) = .ok s ∧
      s.lo = .fin (kind.unscale lo) ∧ s.hi = .fin (kind.unscale hi) ∧
      processList A compat s.forward (pixelValues pixels) 3 = .ok w ∧
      w = pixelValues (pixels.map fun p i => (kind.scale (p i) - lo) / (hi - lo)) ∧
      processList A compat s.inverse w 3 = .ok (pixelValues pixels) := by
  obtain ⟨s, hs, h1, h2, _⟩ := createShaper_kind A hA kind lo hi
  have hw : pixels.map (fun p i => min 1 (max 0 ((kind.scale (raised kind (p i)) - lo) / (hi - lo))))
      = pixels.map fun p i => (kind.scale (p i) - lo) / (hi - lo) := by
    apply List.map_congr_left
    intro p hp'
    funext i
    rw [raised_eq kind fun hk => hfl hk p hp' i]
    obtain ⟨h3, h4⟩ := scale_mem kind (hp p hp' i).1 (hp p hp' i).2
    obtain ⟨h5, h6⟩ := affine_unit_mem h h3 h4
    rw [max_eq_right h5, min_eq_right h6]
  refine ⟨s, _, hs, h1, h2, shaper_forward A hA compat kind lo hi h s hs pixels, by rw [hw], ?_⟩
  rw [hw, shaper_inverse A hA compat kind lo hi s hs, List.map_map]
  congr 2
  conv_rhs => rw [← List.map_id pixels]
  apply List.map_congr_left
  intro p hp'
  funext i
  obtain ⟨h3, h4⟩ := scale_mem kind (hp p hp' i).1 (hp p hp' i).2
  simp only [Function.comp_apply, affine_back h, max_eq_right h3, min_eq_right h4, id_eq]
  exact unscale_scale kind (hp p hp' i).1

/-- C59, the other way round: the shaper returns every value of [0, 1] that the inverse
shaper was applied to (for `log2`, if the decoded value is not below the smallest normal
float). -/
theorem C59_forward_inverse_partial (A : Arith ℝ) (hA : Spec.RealArith A) (compat : ℕ)
    (kind : ShaperKind) (lo hi : ℝ) (h : lo < hi) (pixels : List (Fin 3 → ℝ))
    (hp : ∀ p ∈ pixels, ∀ i, 0 ≤ p i ∧ p i ≤ 1)
    (hfl : kind = .log2 → ∀ p ∈ pixels, ∀ i, Spec.floor32 ≤ 2 ^ (lo + p i * (hi - lo))) :
    ∃ s w, createShaper A (some kind.name) (.fin lo) (.fin hi) = .ok s ∧
      processList A compat s.inverse (pixelValues pixels) 3 = .ok w ∧
      w = pixelValues (pixels.map fun p i => kind.unscale (lo + p i * (hi - lo))) ∧
      processList A compat s.forward w 3 = .ok (pixelValues pixels) := by
  obtain ⟨s, hs, _⟩ := createShaper_kind A hA kind lo hi
  have hd : 0 < hi - lo := sub_pos.mpr h
  have hw : pixels.map (fun p i => kind.unscale (min hi (max lo (Spec.affine 0 1 lo hi (p i)))))
      = pixels.map fun p i => kind.unscale (lo + p i * (hi - lo)) := by
    apply List.map_congr_left
    intro p hp'
    funext i
    obtain ⟨h3, h4⟩ := hp p hp' i
    have e : Spec.affine 0 1 lo hi (p i) = lo + p i * (hi - lo) := by unfold Spec.affine; ring
    have h5 : p i * (hi - lo) ≤ 1 * (hi - lo) := mul_le_mul_of_nonneg_right h4 hd.le
    have h6 : 0 ≤ p i * (hi - lo) := mul_nonneg h3 hd.le
    rw [e, max_eq_right (by linarith), min_eq_right (by linarith)]
  refine ⟨s, _, hs, shaper_inverse A hA compat kind lo hi s hs pixels, by rw [hw], ?_⟩
  rw [hw, shaper_forward A hA compat kind lo hi h s hs, List.map_map]
  · congr 2
    conv_rhs => rw [← List.map_id pixels]
    apply List.map_congr_left
    intro p hp'
    funext i
    have hr : raised kind (kind.unscale (lo + p i * (hi - lo))) = kind.unscale (lo + p i * (hi - lo)) :=
      raised_eq kind fun hk => by subst hk; exact hfl rfl p hp' i
    obtain ⟨h3, h4⟩ := hp p hp' i
    have e : (lo + p i * (hi - lo) - lo) / (hi - lo) = p i := by
      rw [add_sub_cancel_left, mul_div_cancel_right₀ _ hd.ne']
    simp only [Function.comp_apply, hr, scale_unscale, e, max_eq_right h3, min_eq_right h4, id_eq]

/-- C59: a value of the range of a `log2` shaper below the smallest normal float comes
back as the smallest normal float. -/
theorem C59_below (A : Arith ℝ) (hA : Spec.RealArith A) (compat : ℕ) (lo hi x : ℝ) (h : lo < hi)
    (hlo : 2 ^ lo ≤ Spec.floor32) (hhi : Spec.floor32 ≤ 2 ^ hi) (hx : x ≤ Spec.floor32) :
    ∃ s w, createShaper A (some "log2") (.fin lo) (.fin hi) = .ok s ∧
      processList A compat s.forward (List.replicate 3 (.fin x)) 3 = .ok w ∧
      processList A compat s.inverse w 3 = .ok (List.replicate 3 (.fin Spec.floor32)) := by
  obtain ⟨s, hs, _⟩ := createShaper_kind A hA .log2 lo hi
  have h1 := shaper_forward A hA compat .log2 lo hi h s hs [fun _ => x]
  have h2 := shaper_inverse A hA compat .log2 lo hi s hs [fun _ =>
    min 1 (max 0 ((ShaperKind.log2.scale (raised .log2 x) - lo) / (hi - lo)))]
  refine ⟨s, _, hs, h1, ?_⟩
  refine h2.trans ?_
  have hr : raised .log2 x = Spec.floor32 := max_eq_right hx
  have h34 := scale_mem .log2 (lo := lo) (hi := hi) (x := Spec.floor32) hlo hhi
  obtain ⟨h3, h4⟩ := h34
  obtain ⟨h5, h6⟩ := affine_unit_mem h h3 h4
  rw [hr, max_eq_right h5, min_eq_right h6, List.map_singleton]
  simp only [affine_back h, max_eq_right h3, min_eq_right h4]
  rw [unscale_scale .log2 (lo := lo) hlo]
  rfl

theorem floor32_between : (2 : ℝ) ^ (-200 : ℝ) ≤ Spec.floor32 ∧ (2 : ℝ) ^ (-150 : ℝ) < Spec.floor32 ∧
    Spec.floor32 ≤ (2 : ℝ) ^ (0 : ℝ) := by
  have h1 : (2 : ℝ) ^ (-200 : ℝ) = (2 ^ 200)⁻¹ := by
    rw [show (-200 : ℝ) = -((200 : ℕ) : ℝ) by norm_num, Real.rpow_neg (by norm_num), Real.rpow_natCast]
  have h2 : (2 : ℝ) ^ (-150 : ℝ) = (2 ^ 150)⁻¹ := by
    rw [show (-150 : ℝ) = -((150 : ℕ) : ℝ) by norm_num, Real.rpow_neg (by norm_num), Real.rpow_natCast]
  rw [h1, h2, Real.rpow_zero]
  unfold Spec.floor32
  refine ⟨by norm_num, by norm_num, by norm_num⟩

/-- C59 is false: the `log2` shaper from -200 to 0 does not give 2⁻¹⁵⁰ back. -/
theorem C59_false (A : Arith ℝ) (hA : Spec.RealArith A) (compat : ℕ) :
    ∃ (x : ℝ) (s : Shaper ℝ) (w : List (Flt ℝ)), (2 : ℝ) ^ (-200 : ℝ) ≤ x ∧ x ≤ 2 ^ (0 : ℝ) ∧
      createShaper A (some "log2") (.fin (-200)) (.fin 0) = .ok s ∧
      processList A compat s.forward (List.replicate 3 (.fin x)) 3 = .ok w ∧
      processList A compat s.inverse w 3 ≠ .ok (List.replicate 3 (.fin x)) := by
  obtain ⟨h1, h2, h3⟩ := floor32_between
  obtain ⟨s, w, hs, hw, hv⟩ := C59_below A hA compat (-200) 0 (2 ^ (-150 : ℝ)) (by norm_num) h1 h3 h2.le
  refine ⟨2 ^ (-150 : ℝ), s, w, ?_, ?_, hs, hw, ?_⟩
  · exact Real.rpow_le_rpow_of_exponent_le (by norm_num) (by norm_num)
  · exact Real.rpow_le_rpow_of_exponent_le (by norm_num) (by norm_num)
  · rw [hv]
    intro h
    have h' := Option.some.inj (congrArg List.head? (Except.ok.inj h))
    exact h2.ne (Flt.fin.inj h').symm

/-! ### C60 -/

theorem drop_take_rows {α : Type} (n : ℕ) (F : ℕ → List α) (hF : ∀ k < n, (F k).length = 3)
    (k : ℕ) (hk : k < n) :
    ((((List.range n).map F).flatten).drop (3 * k)).take 3 = F k := by
  induction n with
  | zero => omega
  | succ n ih =>
    have hl : (((List.range n).map F).flatten).length = 3 * n := by
      rw [List.length_flatten, List.map_map]
      have : (List.range n).map (List.length ∘ F) = (List.range n).map fun _ => 3 := by
        apply List.map_congr_left
        intro j hj
        exact hF j (by have := List.mem_range.mp hj; omega)
      rw [this]; simp; omega
    rw [List.range_succ, List.map_append, List.flatten_append, List.map_singleton,
      List.flatten_singleton]
    rcases Nat.lt_or_ge k n with h | h
    · rw [List.drop_append_of_le_length (by rw [hl]; omega),
        List.take_append_of_le_length (by rw [List.length_drop, hl]; omega)]
      exact ih (fun j hj => hF j (by omega)) h
    · have : k = n := by omega
      subst this
      rw [← hl, List.drop_left, List.take_of_length_le (by rw [hF k hk])]

/-- A successful sampling, taken apart at its output samples. -/
theorem sample1D3D1D_out {A : Arith K} {compat : ℕ} {ns : List (Node K)} {nIn : ℕ}
    {res : ℕ × ℕ × ℕ} {m : ℕ} {shIn : ShaperSpec K} {ty : String} {lo hi : Flt K} {r : Sampled K}
    (h : sample1D3D1D A compat ns nIn res (m + 2) shIn (some ty, lo, hi) = .ok r) :
    ∃ sIn out, createShaper A shIn.1 shIn.2.1 shIn.2.2 = .ok sIn ∧ r.samplesOut = some out ∧
      sampleLoop (m + 2) (.fin 0) (.fin 1) (fun v => processList A compat sIn.inverse v 0) = .ok out := by
  unfold sample1D3D1D at h
  obtain ⟨sIn, h1, h⟩ := py_bind_eq_ok.mp h
  obtain ⟨sOut, _, h⟩ := py_bind_eq_ok.mp h
  obtain ⟨_, _, h⟩ := py_bind_eq_ok.mp h
  obtain ⟨_, _, h⟩ := py_bind_eq_ok.mp h
  obtain ⟨so, h2, h⟩ := py_bind_eq_ok.mp h
  cases h
  obtain ⟨out, h3, h4⟩ := py_bind_eq_ok.mp h2
  cases h4
  exact ⟨sIn, out, h1, rfl, h3⟩

theorem createShaper_leaves {A : Arith K} {ty : Option String} {lo hi : Flt K} {s : Shaper K}
    (h : createShaper A ty lo hi = .ok s) :
    (∀ n ∈ s.forward, n.attr "bypass" = none ∧ ∃ k b, n = .leaf k b) ∧
    (∀ n ∈ s.inverse, n.attr "bypass" = none ∧ ∃ k b, n = .leaf k b) := by
  unfold createShaper at h
  split_ifs at h
  · obtain ⟨_, _, h⟩ := py_bind_eq_ok.mp h
    obtain ⟨_, _, h⟩ := py_bind_eq_ok.mp h
    cases h
    constructor <;> simp [styledLog, boundedRange, Node.attr, Node.base, newBase, Base.setAttribute,
      Dict.set, Dict.get?]
  · cases h
    constructor <;> simp [styledLog, boundedRange, Node.attr, Node.base, newBase, Base.setAttribute,
      Dict.set, Dict.get?]
  · cases h
    constructor <;> simp

/-- C60, what the output samples are: those of the inverse of the *input* shaper.
Missing: the output shaper has no influence on them. -/
theorem C60_actual_partial (A : Arith ℝ) (hA : Spec.RealArith A) (compat : ℕ) (ns : List (Node ℝ))
    (nIn : ℕ) (res : ℕ × ℕ × ℕ) (m : ℕ) (kind : ShaperKind) (lo hi : ℝ) (h : lo < hi) (ty : String)
    (olo ohi : Flt ℝ) (r : Sampled ℝ)
    (hr : sample1D3D1D A compat ns nIn res (m + 2) (some kind.name, .fin lo, .fin hi)
      (some ty, olo, ohi) = .ok r) :
    r.samplesOut = some ((List.range (m + 2)).map fun k => List.replicate 3
      (Flt.fin (kind.unscale (Spec.grid (m + 1) lo hi k)))).flatten := by
  obtain ⟨sIn, out, h1, h2, h3⟩ := sample1D3D1D_out hr
  rw [sampleLoop_fin] at h3
  rw [h2]
  have hinv : ∀ k ∈ List.range (m + 2), processList A compat sIn.inverse
      (List.replicate 3 (.fin (Spec.grid (m + 1) 0 1 k))) 0
      = .ok (List.replicate 3 (.fin (kind.unscale (Spec.grid (m + 1) lo hi k)))) := by
    intro k hk
    have hk' : k < m + 2 := by simpa using hk
    rw [processList_zero A compat _ (createShaper_leaves h1).2]
    have hinv := shaper_inverse A hA compat kind lo hi sIn h1 [fun _ => Spec.grid (m + 1) 0 1 k]
    have hd : 0 < hi - lo := sub_pos.mpr h
    have hm : (0 : ℝ) < (m + 1 : ℕ) := by exact_mod_cast Nat.succ_pos m
    have hkm : (k : ℝ) ≤ (m + 1 : ℕ) := by exact_mod_cast (by omega : k ≤ m + 1)
    have e : Spec.affine 0 1 lo hi (Spec.grid (m + 1) 0 1 k) = Spec.grid (m + 1) lo hi k := by
      unfold Spec.affine Spec.grid; field_simp; ring
    have h4 : lo ≤ Spec.grid (m + 1) lo hi k := by
      unfold Spec.grid
      have : 0 ≤ (k : ℝ) * ((hi - lo) / (m + 1 : ℕ)) :=
        mul_nonneg (Nat.cast_nonneg k) (div_nonneg hd.le hm.le)
      linarith
    have h5 : Spec.grid (m + 1) lo hi k ≤ hi := by
      unfold Spec.grid
      have : (k : ℝ) * ((hi - lo) / (m + 1 : ℕ)) ≤ (m + 1 : ℕ) * ((hi - lo) / (m + 1 : ℕ)) :=
        mul_le_mul_of_nonneg_right hkm (div_nonneg hd.le hm.le)
      rw [mul_div_cancel₀ _ hm.ne'] at this
      linarith
    simp only [List.map_singleton, e, max_eq_right h4, min_eq_right h5] at hinv
    exact hinv
  rw [py_mapM_ok _ _ _ hinv] at h3
  cases h3
  rfl

/-- C60 for equal input and output shapers: the output samples decode what the output
shaper encoded (`log2`: if the range is not below the smallest normal float).  Missing:
different shapers, for which it fails (`C60_false`). -/
theorem C60_same_partial (A : Arith ℝ) (hA : Spec.RealArith A) (compat : ℕ) (ns : List (Node ℝ))
    (nIn : ℕ) (res : ℕ × ℕ × ℕ) (m : ℕ) (kind : ShaperKind) (lo hi : ℝ) (h : lo < hi)
    (hfl : kind = .log2 → Spec.floor32 ≤ 2 ^ lo) (r : Sampled ℝ)
    (hr : sample1D3D1D A compat ns nIn res (m + 2) (some kind.name, .fin lo, .fin hi)
      (some kind.name, .fin lo, .fin hi) = .ok r) :
    ∃ s out, createShaper A (some kind.name) (.fin lo) (.fin hi) = .ok s ∧ r.samplesOut = some out ∧
      Spec.Decodes (fun v => processList A compat s.forward v 0) m out := by
  obtain ⟨s, hs, _⟩ := createShaper_kind A hA kind lo hi
  refine ⟨s, _, hs, C60_actual_partial A hA compat ns nIn res m kind lo hi h _ _ _ r hr, ?_⟩
  intro k hk
  simp only
  rw [drop_take_rows _ _ (by simp) k hk, processList_zero A compat _ (createShaper_leaves hs).1]
  have hd : 0 < hi - lo := sub_pos.mpr h
  have hm : (0 : ℝ) < (m + 1 : ℕ) := by exact_mod_cast Nat.succ_pos m
  have hkm : (k : ℝ) ≤ (m + 1 : ℕ) := by exact_mod_cast (by omega : k ≤ m + 1)
  have hg : Spec.grid (m + 1) lo hi k = lo + (Spec.grid (m + 1) 0 1 k) * (hi - lo) := by
    unfold Spec.grid; ring
  have h0 : 0 ≤ (Spec.grid (m + 1) 0 1 k : ℝ) := by
    unfold Spec.grid; positivity
  have h1 : (Spec.grid (m + 1) 0 1 k : ℝ) ≤ 1 := by
    unfold Spec.grid
    rw [sub_zero, mul_one_div, zero_add]
    exact (div_le_one hm).mpr hkm
  have hlo : lo ≤ lo + (Spec.grid (m + 1) 0 1 k) * (hi - lo) :=
    le_add_of_nonneg_right (mul_nonneg h0 hd.le)
  have hf := shaper_forward A hA compat kind lo hi h s hs
    [fun _ => kind.unscale (Spec.grid (m + 1) lo hi k)]
  have hra : raised kind (kind.unscale (Spec.grid (m + 1) lo hi k))
      = kind.unscale (Spec.grid (m + 1) lo hi k) := raised_eq kind fun hk => by
    subst hk
    refine (hfl rfl).trans ?_
    rw [hg]
    exact Real.rpow_le_rpow_of_exponent_le (by norm_num) hlo
  simp only [List.map_singleton, hra, scale_unscale] at hf
  rw [hg, add_sub_cancel_left, mul_div_cancel_right₀ _ hd.ne', max_eq_right h0, min_eq_right h1] at hf
  rw [hg]
  exact hf

/-- C60 is false: sampling the empty list with a linear input shaper on [0, 2] and a
linear output shaper on [0, 4] succeeds, and encoding the last output sample gives 1/2
instead of 1. -/
theorem C60_false : ∃ (r : Sampled ℚ) (s : Shaper ℚ) (out : List (Flt ℚ)),
    sample1D3D1D ratArith 0 [] 2 (2, 2, 2) (0 + 2) (some "linear", .fin 0, .fin 2)
      (some "linear", .fin 0, .fin 4) = .ok r ∧
    createShaper ratArith (some "linear") (.fin 0) (.fin 4) = .ok s ∧ r.samplesOut = some out ∧
    ¬ Spec.Decodes (fun v => processList ratArith 0 s.forward v 0) 0 out := by
  have hk : (do
      let r ← sample1D3D1D ratArith 0 [] 2 (2, 2, 2) (0 + 2) (some "linear", .fin 0, .fin 2)
        (some "linear", .fin 0, .fin 4)
      Except.ok r.samplesOut) = .ok (some ([0, 0, 0, 2, 2, 2].map .fin)) := by decide +kernel
  obtain ⟨r, hr, ho⟩ := py_bind_eq_ok.mp hk
  refine ⟨r, _, _, hr, rfl, Except.ok.inj ho, fun h => ?_⟩
  have := h 1 (by omega)
  revert this
  decide +kernel

/-! ### C79 -/

/-- C79: a 1D-3D-1D sampling with input shaper and equal first and last resolutions holds
at `[r][g][b]` the list's value at the decoded lattice point, encoded by the output
shaper. -/
theorem C79_cube (A : Arith K) (compat : ℕ) (ns : List (Node K)) (nIn m m1 nOut : ℕ)
    (tyIn tyOut : String) (lo hi olo ohi : Flt K) (sIn sOut : Shaper K)
    (hIn : createShaper A (some tyIn) lo hi = .ok sIn)
    (hOut : createShaper A (some tyOut) olo ohi = .ok sOut) (r : Sampled K)
    (hr : sample1D3D1D A compat ns nIn (m + 2, m1 + 2, m + 2) nOut (some tyIn, lo, hi)
      (some tyOut, olo, ohi) = .ok r)
    (D P V : ℕ → ℕ → ℕ → List (Flt K))
    (hD : ∀ i < m + 2, ∀ j < m1 + 2, ∀ k < m + 2, processList A compat sIn.inverse
      [.fin (Spec.grid (m + 1) 0 1 i), .fin (Spec.grid (m1 + 1) 0 1 j),
        .fin (Spec.grid (m + 1) 0 1 k)] 0 = .ok (D i j k))
    (hP : ∀ i < m + 2, ∀ j < m1 + 2, ∀ k < m + 2, processList A compat ns (D i j k) 0 = .ok (P i j k))
    (hV : ∀ i < m + 2, ∀ j < m1 + 2, ∀ k < m + 2,
      processList A compat sOut.forward (P i j k) 0 = .ok (V i j k)) :
    r.cube = Spec.cubeOf (m + 2) (m1 + 2) (m + 2) V ∧ r.inLo = sIn.lo ∧ r.inHi = sIn.hi ∧
      r.outLo = sOut.lo ∧ r.outHi = sOut.hi := by
  unfold sample1D3D1D at hr
  simp only [hIn, hOut, py_ok_bind] at hr
  obtain ⟨_, _, hr⟩ := py_bind_eq_ok.mp hr
  rw [cubeLoop_fin m m1 m 0 1 _ V, if_pos rfl, py_ok_bind] at hr
  · obtain ⟨_, _, hr⟩ := py_bind_eq_ok.mp hr
    cases hr
    exact ⟨rfl, rfl, rfl, rfl, rfl⟩
  · intro i hi j hj k hk
    simp only [viaShaper, hD i hi j hj k hk, hP i hi j hj k hk, hV i hi j hj k hk, py_ok_bind]

/-- C79: without shapers the cube holds the list's values at the lattice points, and there
are no samples. -/
theorem C79_unshaped (A : Arith K) (compat : ℕ) (ns : List (Node K)) (nIn m m1 nOut : ℕ)
    (lo hi olo ohi : Flt K) (V : ℕ → ℕ → ℕ → List (Flt K))
    (hV : ∀ i < m + 2, ∀ j < m1 + 2, ∀ k < m + 2, processList A compat ns
      [.fin (Spec.grid (m + 1) 0 1 i), .fin (Spec.grid (m1 + 1) 0 1 j),
        .fin (Spec.grid (m + 1) 0 1 k)] 0 = .ok (V i j k)) :
    sample1D3D1D A compat ns nIn (m + 2, m1 + 2, m + 2) nOut (none, lo, hi) (none, olo, ohi)
      = .ok ⟨none, .fin 0, .fin 1, Spec.cubeOf (m + 2) (m1 + 2) (m + 2) V, none, .fin 0, .fin 1⟩ := by
  unfold sample1D3D1D
  simp only [createShaper, shaperSamples, viaShaper, py_ok_bind, py_pure, reduceCtorEq, if_false]
  rw [cubeLoop_fin m m1 m 0 1 _ V, if_pos rfl, py_ok_bind]
  intro i hi j hj k hk
  simp only [hV i hi j hj k hk, py_ok_bind]

/-- C79: the input samples are the input shaper's values at the grid on its range. -/
theorem C79_input (A : Arith ℝ) (hA : Spec.RealArith A) (compat : ℕ) (ns : List (Node ℝ))
    (res : ℕ × ℕ × ℕ) (m nOut : ℕ) (kind : ShaperKind) (lo hi : ℝ) (h : lo < hi)
    (hfl : kind = .log2 → Spec.floor32 ≤ 2 ^ lo) (shOut : ShaperSpec ℝ) (r : Sampled ℝ)
    (hr : sample1D3D1D A compat ns (m + 2) res nOut (some kind.name, .fin lo, .fin hi) shOut = .ok r) :
    r.samplesIn = some ((List.range (m + 2)).map fun k => List.replicate 3 (Flt.fin
      ((kind.scale (Spec.grid (m + 1) (kind.unscale lo) (kind.unscale hi) k) - lo) / (hi - lo)))).flatten := by
  obtain ⟨s, hs, hlo, hhi, _⟩ := createShaper_kind A hA kind lo hi
  unfold sample1D3D1D at hr
  simp only [hs, py_ok_bind, shaperSamples] at hr
  obtain ⟨_, _, hr⟩ := py_bind_eq_ok.mp hr
  obtain ⟨si, h1, hr⟩ := py_bind_eq_ok.mp hr
  obtain ⟨_, _, hr⟩ := py_bind_eq_ok.mp hr
  obtain ⟨_, _, hr⟩ := py_bind_eq_ok.mp hr
  cases hr
  simp only
  have hmono : kind.unscale lo < kind.unscale hi := by
    cases kind with
    | linear => exact h
    | log2 => exact Real.rpow_lt_rpow_of_exponent_lt (by norm_num) h
  have hm : (0 : ℝ) < (m + 1 : ℕ) := by exact_mod_cast Nat.succ_pos m
  rw [hlo, hhi, sampleLoop_fin] at h1
  have hfwd : ∀ k ∈ List.range (m + 2), processList A compat s.forward
      (List.replicate 3 (.fin (Spec.grid (m + 1) (kind.unscale lo) (kind.unscale hi) k))) 0
      = .ok (List.replicate 3 (Flt.fin
      ((kind.scale (Spec.grid (m + 1) (kind.unscale lo) (kind.unscale hi) k) - lo) / (hi - lo)))) := by
    intro k hk
    have hk' : k < m + 2 := by simpa using hk
    have hkm : (k : ℝ) ≤ (m + 1 : ℕ) := by exact_mod_cast (by omega : k ≤ m + 1)
    have hd : 0 ≤ (kind.unscale hi - kind.unscale lo) / (m + 1 : ℕ) :=
      div_nonneg (sub_pos.mpr hmono).le hm.le
    have h4 : kind.unscale lo ≤ Spec.grid (m + 1) (kind.unscale lo) (kind.unscale hi) k :=
      le_add_of_nonneg_right (mul_nonneg (Nat.cast_nonneg k) hd)
    have h5 : Spec.grid (m + 1) (kind.unscale lo) (kind.unscale hi) k ≤ kind.unscale hi := by
      unfold Spec.grid
      have := mul_le_mul_of_nonneg_right hkm hd
      rw [mul_div_cancel₀ _ hm.ne'] at this
      linarith
    obtain ⟨s', w, hs', _, _, hw, hwe, _⟩ := C59_inverse_forward_partial A hA compat kind lo hi h
      [fun _ => Spec.grid (m + 1) (kind.unscale lo) (kind.unscale hi) k] (by
        intro p hp i
        rw [List.mem_singleton.mp hp]
        exact ⟨h4, h5⟩) (by
        intro hk p hp i
        rw [List.mem_singleton.mp hp]
        refine le_trans ?_ h4
        subst hk
        exact hfl rfl)
    rw [hs] at hs'
    cases hs'
    rw [processList_zero A compat _ (createShaper_leaves hs).1]
    rw [hwe] at hw
    exact hw
  rw [py_mapM_ok _ _ _ hfwd] at h1
  cases h1
  rfl

/-! ### Instances -/

/-- A list that doubles, sampled at three points of [0, 1]. -/
example : sample1D ratArith 0 [boundedRange "" (.fin 0) (.fin 1) (.fin 0) (.fin 2)] (1 + 2) (.fin 0) (.fin 1)
    = .ok ([0, 0, 0, 1, 1, 1, 2, 2, 2].map .fin) := by decide +kernel

example : Spec.grid (K := ℚ) 4 1 3 2 = 2 := by decide +kernel

/-- A pixel in the range of a linear and of a `log2` shaper from 0 to 3. -/
example : ∀ p ∈ [fun _ : Fin 3 => (2 : ℝ)], ∀ i, ShaperKind.linear.unscale 0 ≤ p i ∧
    p i ≤ ShaperKind.linear.unscale 3 := by
  intro p hp i
  simp only [List.mem_singleton] at hp
  subst hp
  simp only [ShaperKind.unscale]
  norm_num

example : ∀ p ∈ [fun _ : Fin 3 => (2 : ℝ)], ∀ i, (ShaperKind.log2.unscale 0 ≤ p i ∧
    p i ≤ ShaperKind.log2.unscale 3) ∧ Spec.floor32 ≤ p i := by
  intro p hp i
  simp only [List.mem_singleton] at hp
  subst hp
  simp only [ShaperKind.unscale, Spec.floor32]
  norm_num

end CLF
