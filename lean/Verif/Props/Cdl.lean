import Verif.Lemmas.Cdl

/-! # Properties C26–C29, C71: ASC CDL -/

set_option linter.unusedSectionVars false

namespace CLF

variable {K : Type} [Field K] [LinearOrder K] [IsStrictOrderedRing K] [FloorRing K]

/-! ### C26: the clamping style stays in range -/

/-- C26: an ASC CDL node of style `Fwd` (or `v1.2_Fwd`), whatever its parameters and
the input values (also NaN and infinities): if processing succeeds, every colour
channel is a finite code value between 0 and full scale, and further channels are
unchanged.  Rounding may be anything that keeps [0, 1] and [0, full scale]. -/
theorem C26_range (A : Arith K) (compat : ℕ) (v : CdlValues K) (b : Base K) (din dout st : AVal)
    (h : StyledNode b din dout st) (hst : st = .str "Fwd" ∨ st = .str "v1.2_Fwd")
    (hA1 : Spec.Keeps A 1) (hA2 : Spec.Keeps A (Spec.fullScale (some dout)))
    (stride : ℕ) (hs : 3 ≤ stride) (pixels : List (Spec.Pixel K))
    (hp : ∀ p ∈ pixels, p.toList.length = stride) (r : Res K)
    (hr : cdlProcess A compat v b (pixels.map Spec.Pixel.toList).flatten stride = .ok r) :
    ∃ outs : List (Spec.Pixel K), r.out = (outs.map Spec.Pixel.toList).flatten ∧
      List.Forall₂ (fun p q => q.extra = p.extra ∧ Spec.InScale (some dout) q.r ∧
        Spec.InScale (some dout) q.g ∧ Spec.InScale (some dout) q.b) pixels outs := by
  have hgate : hasFeature compat autodesk = true ∨ cdlVendorStyles.contains st = false := by
    by_contra hc
    push Not at hc
    obtain ⟨e1, e2, e3⟩ := h.attrs
    have hc1 : hasFeature compat autodesk = false := by simpa using hc.1
    have hc2 : cdlVendorStyles.contains st = true := by simpa using hc.2
    unfold cdlProcess at hr
    rw [List.contains_iff_mem] at hc2
    simp [show ¬ stride = 0 by omega, show ¬ stride < 3 by omega, e1, e2, e3, hc1, hc2] at hr
  rw [cdlProcess_chunks A compat v b din dout st h hgate stride hs _ (by
    intro c hc
    obtain ⟨p, hp', rfl⟩ := List.mem_map.mp hc
    exact hp p hp')] at hr
  obtain ⟨ps, hps, hr2⟩ := py_bind_eq_ok.mp hr
  have hr3 : r.out = ps.flatten := by rw [← Except.ok.inj hr2]
  rw [hr3]
  clear hp hr hr2 hr3
  rw [py_mapM_map] at hps
  have key : ∀ (p : Spec.Pixel K) o,
      cdlPixel A st v.resolve (some din) (some dout) p.toList = .ok o →
      ∃ q : Spec.Pixel K, o = q.toList ∧ q.extra = p.extra ∧ Spec.InScale (some dout) q.r ∧
        Spec.InScale (some dout) q.g ∧ Spec.InScale (some dout) q.b := by
    intro p o ho
    unfold cdlPixel at ho
    rw [if_pos hst] at ho
    unfold cdlFwd at ho
    obtain ⟨px, h1, ho⟩ := py_bind_eq_ok.mp ho
    obtain ⟨l, h2, ho⟩ := py_bind_eq_ok.mp ho
    rw [Spec.Pixel.toList, chanLoop3] at h1
    obtain ⟨x, _, h1⟩ := py_bind_eq_ok.mp h1
    obtain ⟨y, _, h1⟩ := py_bind_eq_ok.mp h1
    obtain ⟨z, _, h1⟩ := py_bind_eq_ok.mp h1
    cases h1
    rw [chanLoop3] at ho
    simp only [py_pure, py_ok_bind, Except.ok.injEq] at ho
    exact ⟨⟨_, _, _, p.extra⟩, ho.symm, rfl, fwd_chan hA1 hA2 _, fwd_chan hA1 hA2 _,
      fwd_chan hA1 hA2 _⟩
  induction pixels generalizing ps with
  | nil => cases hps; exact ⟨[], rfl, .nil⟩
  | cons p pixels ih =>
    rw [py_mapM_cons] at hps
    obtain ⟨o, ho, hps⟩ := py_bind_eq_ok.mp hps
    obtain ⟨os, hos, hps⟩ := py_bind_eq_ok.mp hps
    cases hps
    obtain ⟨outs, e, hf⟩ := ih os hos
    obtain ⟨q, hq, hq'⟩ := key p o ho
    refine ⟨q :: outs, ?_, .cons hq' hf⟩
    simp only [List.flatten_cons, List.map_cons] at e ⊢
    rw [e, hq]

/-- C26: with three slopes, offsets and powers, no power negative, the clamping style
never fails, whatever the input values. -/
theorem C26_succeeds (A : Arith K) (compat : ℕ) (v : CdlValues K) (b : Base K) (din dout st : AVal)
    (h : StyledNode b din dout st) (hst : st = .str "Fwd" ∨ st = .str "v1.2_Fwd")
    (hgate : hasFeature compat autodesk = true ∨ st = .str "Fwd")
    (hsl : ∀ l, v.slope = some l → 3 ≤ l.length) (hof : ∀ l, v.offset = some l → 3 ≤ l.length)
    (hpo : ∀ l, v.power = some l → 3 ≤ l.length ∧ ∀ e : K, .fin e ∈ l → 0 ≤ e)
    (stride : ℕ) (hs : 3 ≤ stride) (pixels : List (Spec.Pixel K))
    (hp : ∀ p ∈ pixels, p.toList.length = stride) :
    ∃ r, cdlProcess A compat v b (pixels.map Spec.Pixel.toList).flatten stride = .ok r := by
  have hgate' : hasFeature compat autodesk = true ∨ cdlVendorStyles.contains st = false := by
    rcases hgate with h | rfl
    · exact .inl h
    · exact .inr (by decide)
  rw [cdlProcess_chunks A compat v b din dout st h hgate' stride hs _ (by
    intro c hc
    obtain ⟨p, hp', rfl⟩ := List.mem_map.mp hc
    exact hp p hp')]
  have lens : 3 ≤ v.resolve.slope.length ∧ 3 ≤ v.resolve.offset.length ∧
      3 ≤ v.resolve.power.length ∧ ∀ e : K, .fin e ∈ v.resolve.power → 0 ≤ e := by
    simp only [CdlValues.resolve]
    refine ⟨?_, ?_, ?_⟩
    · cases hv : v.slope with
      | none => simp
      | some l => exact hsl l hv
    · cases hv : v.offset with
      | none => simp
      | some l => exact hof l hv
    · cases hv : v.power with
      | none => simp
      | some l => exact hpo l hv
  generalize v.resolve = c at lens
  obtain ⟨l1, l2, l3, l4⟩ := lens
  have key : ∀ p : Spec.Pixel K, ∃ o, cdlPixel A st c (some din) (some dout) p.toList = .ok o := by
    intro p
    unfold cdlPixel
    rw [if_pos hst]
    unfold cdlFwd
    have first : ∀ (i : ℕ) (x : Flt K), i < 3 → ∃ y, (do
        let s ← pyGet c.slope i
        let o ← pyGet c.offset i
        let p ← pyGet c.power i
        let y ← pyPow A (clamp01 (x * s + o)) p
        pure (A.f32 y) : Py (Flt K)) = .ok y := by
      intro i x hi
      rw [pyGet_of_lt (by omega : i < c.slope.length), pyGet_of_lt (by omega : i < c.offset.length),
        pyGet_of_lt (by omega : i < c.power.length)]
      simp only [py_ok_bind]
      obtain ⟨y, hy, h0, h1⟩ := clamp01_mem (x * c.slope[i] + c.offset[i])
      rw [hy]
      cases he : c.power[i] with
      | fin e =>
        have : 0 ≤ e := l4 e (he ▸ List.getElem_mem _)
        have hn : ¬ (y = 0 ∧ e < 0) := fun h => absurd h.2 (not_lt.mpr this)
        have hn' : ¬ (y < 0 ∧ (⌊e⌋ : K) ≠ e) := fun h => absurd h.1 (not_lt.mpr h0)
        exact ⟨_, by simp only [pyPow, if_neg hn, if_neg hn', py_ok_bind, py_pure]; rfl⟩
      | inf s => exact ⟨_, rfl⟩
      | nan => exact ⟨_, rfl⟩
    obtain ⟨x, hx⟩ := first 0 (A.f32 (bitDepthToNormalized p.r (some din))) (by omega)
    obtain ⟨y, hy⟩ := first 1 (A.f32 (bitDepthToNormalized p.g (some din))) (by omega)
    obtain ⟨z, hz⟩ := first 2 (A.f32 (bitDepthToNormalized p.b (some din))) (by omega)
    rw [Spec.Pixel.toList, chanLoop3, hx, hy, hz]
    simp only [py_ok_bind, luma, pyGet_zero, pyGet_succ, py_pure, chanLoop3]
    exact ⟨_, rfl⟩
  choose F hF using key
  rw [py_mapM_map, py_mapM_ok _ F pixels (fun p _ => hF p)]
  exact ⟨_, rfl⟩

/-! ### C27: neutral parameters -/

/-- C27: a neutral `FwdNoClamp` only converts the bit depth, on all finite pixels;
`Fwd` and `Rev` confine to the legal range and convert; `RevNoClamp` converts values
of the legal range. -/
theorem C27_neutral (A : Arith K) (P : K → K → K) (hA : Spec.Powers A P)
    (hP : ∀ x, 0 ≤ x → P x 1 = x) (compat : ℕ)
    (v : CdlValues K) (hv : NeutralCdl v) (b : Base K) (din dout st : AVal)
    (h : StyledNode b din dout st) (stride : ℕ) (hs : 3 ≤ stride)
    (pixels : List ((Fin 3 → K) × List (Flt K))) (hp : ∀ p ∈ pixels, p.2.length + 3 = stride) :
    (st = .str "FwdNoClamp" → ∃ r, cdlProcess A compat v b (Spec.image pixels) stride = .ok r ∧
      r.out = Spec.image (pixels.map fun p => (fun i =>
        p.1 i / Spec.fullScale (some din) * Spec.fullScale (some dout), p.2))) ∧
    (st = .str "Fwd" ∨ st = .str "Rev" →
      ∃ r, cdlProcess A compat v b (Spec.image pixels) stride = .ok r ∧
      r.out = Spec.image (pixels.map fun p => (fun i =>
        Spec.clip (p.1 i / Spec.fullScale (some din)) * Spec.fullScale (some dout), p.2))) ∧
    (st = .str "RevNoClamp" → (∀ p ∈ pixels, ∀ i, 0 ≤ p.1 i ∧ p.1 i ≤ Spec.fullScale (some din)) →
      ∃ r, cdlProcess A compat v b (Spec.image pixels) stride = .ok r ∧
      r.out = Spec.image (pixels.map fun p => (fun i =>
        p.1 i / Spec.fullScale (some din) * Spec.fullScale (some dout), p.2))) := by
  have one_pos : ∀ i : Fin 3, (0 : K) < (fun _ => 1) i := fun _ => zero_lt_one
  have sat : ∀ l w : K, l + 1 * (w - l) = w := by intro l w; ring
  have sat' : ∀ l w : K, l + 1 / 1 * (w - l) = w := by intro l w; ring
  refine ⟨?_, ?_, ?_⟩
  · rintro rfl
    refine cdlProcess_image A compat v b din dout _ h (.inr (by decide)) stride pixels hp hs
      (fun x i => x i / Spec.fullScale (some din) * Spec.fullScale (some dout)) ?_
    intro p _
    unfold cdlPixel
    rw [if_neg (by decide), if_pos (by decide), hv.resolve,
      cdlFwdNoClamp_pixel hA _ _ _ _ one_pos _ _ p.1 p.2
        (fun i => p.1 i / Spec.fullScale (some din))]
    · simp only [sat]
    · intro i
      simp only [mul_one, add_zero]
      split_ifs with hc
      · rfl
      · rw [hP _ (not_lt.mp hc)]
  · intro hst
    refine cdlProcess_image A compat v b din dout _ h (.inr (by
      rcases hst with rfl | rfl <;> decide)) stride pixels hp hs
      (fun x i => Spec.clip (x i / Spec.fullScale (some din)) * Spec.fullScale (some dout)) ?_
    intro p _
    unfold cdlPixel
    have clip2 : ∀ x : K, Spec.clip (Spec.clip x) = Spec.clip x := fun x =>
      clip_of_mem (clip_mem x).1 (clip_mem x).2
    rcases hst with rfl | rfl
    · rw [if_pos (by decide), hv.resolve, cdlFwd_pixel hA _ _ _ _ one_pos _ _ p.1 p.2
        (fun i => Spec.clip (p.1 i / Spec.fullScale (some din)))]
      · simp only [sat, clip2]
      · intro i
        simp only [mul_one, add_zero]
        rw [hP _ (clip_mem _).1]
    · rw [if_neg (by decide), if_neg (by decide), if_pos (by decide), hv.resolve,
        cdlRev_pixel hA _ _ _ _ one_pos (fun _ => one_ne_zero) one_ne_zero _ _ p.1 p.2
        (fun i => Spec.clip (p.1 i / Spec.fullScale (some din))) (fun i => rfl)]
      refine congrArg (fun z => Except.ok (Spec.fins z ++ p.2)) (funext fun i => ?_)
      simp only [sat', div_one, sub_zero]
      rw [sat, clip2, hP _ (clip_mem _).1, clip2]
  · rintro rfl hin
    refine cdlProcess_image A compat v b din dout _ h (.inr (by decide)) stride pixels hp hs
      (fun x i => x i / Spec.fullScale (some din) * Spec.fullScale (some dout)) ?_
    intro p hp'
    have hfs : (0 : K) < Spec.fullScale (some din) := fullScale_pos _
    have h01 : ∀ i, 0 ≤ p.1 i / Spec.fullScale (some din) ∧ p.1 i / Spec.fullScale (some din) ≤ 1 :=
      fun i => ⟨div_nonneg (hin p hp' i).1 hfs.le, (div_le_one hfs).mpr (hin p hp' i).2⟩
    unfold cdlPixel
    rw [if_neg (by decide), if_neg (by decide), if_neg (by decide), if_pos (by decide), hv.resolve,
      cdlRevNoClamp_pixel hA _ _ _ _ one_pos (fun _ => one_ne_zero) one_ne_zero _ _ p.1 p.2
        (fun i => p.1 i / Spec.fullScale (some din)) (fun i => p.1 i / Spec.fullScale (some din))
        (fun i => rfl) (fun i => (sat' _ _).symm)]
    refine congrArg (fun z => Except.ok (Spec.fins z ++ p.2)) (funext fun i => ?_)
    rw [if_neg (not_lt.mpr (h01 i).1), clip_of_mem (h01 i).1 (h01 i).2, div_one,
      div_one, hP _ (h01 i).1, sub_zero]

/-! ### C28, C29: inverses -/

/-- C28: with positive slopes and powers and non-zero saturation, `Rev` returns every
legal colour that `Fwd` did not clip, at either stage. -/
theorem C28_inverse (A : Arith ℝ) (hA : Spec.RealArith A) (compat : ℕ) (v : CdlValues ℝ)
    (s o p : Fin 3 → ℝ) (σ : ℝ) (hv : CdlIs v s o p σ) (hs0 : ∀ i, 0 < s i) (hp0 : ∀ i, 0 < p i)
    (hσ : σ ≠ 0) (bf br : Base ℝ) (d1 d2 : AVal) (hf : StyledNode bf d1 d2 (.str "Fwd"))
    (hr : StyledNode br d2 d1 (.str "Rev")) (stride : ℕ) (hs : 3 ≤ stride)
    (pixels : List ((Fin 3 → ℝ) × List (Flt ℝ))) (hp : ∀ q ∈ pixels, q.2.length + 3 = stride)
    (legal : ∀ q ∈ pixels, ∀ i, 0 ≤ q.1 i ∧ q.1 i ≤ Spec.fullScale (some d1))
    (noClip : ∀ q ∈ pixels, ∀ i, 0 ≤ q.1 i / Spec.fullScale (some d1) * s i + o i ∧
      q.1 i / Spec.fullScale (some d1) * s i + o i ≤ 1)
    (noClipSat : ∀ q ∈ pixels, ∀ (w : Fin 3 → ℝ),
      (∀ i, w i = (q.1 i / Spec.fullScale (some d1) * s i + o i) ^ p i) →
      ∀ i, 0 ≤ Spec.luma w + σ * (w i - Spec.luma w) ∧ Spec.luma w + σ * (w i - Spec.luma w) ≤ 1) :
    ∃ r r', cdlProcess A compat v bf (Spec.image pixels) stride = .ok r ∧
      cdlProcess A compat v br r.out stride = .ok r' ∧ r'.out = Spec.image pixels := by
  let w : (Fin 3 → ℝ) → Fin 3 → ℝ := fun x i => (x i / Spec.fullScale (some d1) * s i + o i) ^ p i
  obtain ⟨r, hr1, hr2⟩ := cdlProcess_image A compat v bf d1 d2 _ hf (.inr (by decide)) stride pixels
    hp hs (fun x i => (Spec.luma (w x) + σ * (w x i - Spec.luma (w x))) * Spec.fullScale (some d2)) (by
      intro q hq
      unfold cdlPixel
      rw [if_pos (by decide), hv.resolve, cdlFwd_pixel hA.powers s o p σ hp0 _ _ q.1 q.2 (w q.1)]
      · refine congrArg (fun z => Except.ok (Spec.fins z ++ q.2)) (funext fun i => ?_)
        obtain ⟨h0, h1⟩ := noClipSat q hq (w q.1) (fun i => rfl) i
        rw [clip_of_mem h0 h1]
      · intro i
        obtain ⟨h0, h1⟩ := noClip q hq i
        rw [clip_of_mem h0 h1])
  have hfs1 : (0 : ℝ) < Spec.fullScale (some d1) := fullScale_pos _
  have hfs2 : (Spec.fullScale (some d2) : ℝ) ≠ 0 := fullScale_ne _
  have back : ∀ q ∈ pixels, cdlPixel A (.str "Rev") v.resolve (some d2) (some d1)
      (Spec.fins (fun i => (Spec.luma (w q.1) + σ * (w q.1 i - Spec.luma (w q.1)))
        * Spec.fullScale (some d2)) ++ q.2) = .ok (Spec.fins q.1 ++ q.2) := by
    intro q hq
    unfold cdlPixel
    rw [if_neg (by decide), if_neg (by decide), if_pos (by decide), hv.resolve,
      cdlRev_pixel hA.powers s o p σ hp0 (fun i => (hs0 i).ne') hσ _ _ _ q.2
        (fun i => Spec.luma (w q.1) + σ * (w q.1 i - Spec.luma (w q.1)))]
    · refine congrArg (fun z => Except.ok (Spec.fins z ++ q.2)) (funext fun i => ?_)
      obtain ⟨h0, h1⟩ := noClip q hq i
      obtain ⟨g0, g1⟩ := legal q hq i
      have hw0 : 0 ≤ w q.1 i := Real.rpow_nonneg h0 _
      have hw1 : w q.1 i ≤ 1 := Real.rpow_le_one h0 h1 (hp0 i).le
      rw [luma_sat, unsat hσ, clip_of_mem hw0 hw1, one_div]
      have : ((w q.1 i) ^ (p i)⁻¹ - o i) / s i = q.1 i / Spec.fullScale (some d1) := by
        simp only [w]
        rw [Real.rpow_rpow_inv h0 (hp0 i).ne', add_sub_cancel_right, mul_div_cancel_right₀ _ (hs0 i).ne']
      rw [this, clip_of_mem (div_nonneg g0 hfs1.le) ((div_le_one hfs1).mpr g1),
        div_mul_cancel₀ _ hfs1.ne']
    · intro i
      obtain ⟨h0, h1⟩ := noClipSat q hq (w q.1) (fun i => rfl) i
      rw [mul_div_cancel_right₀ _ hfs2, clip_of_mem h0 h1]
  -- the second node sees the first node's pixels
  obtain ⟨e1, e2, e3⟩ := hr.attrs
  have step := cdlProcess_chunks A compat v br d2 d1 _ hr (.inr (by decide)) stride hs
    (pixels.map fun q => Spec.fins (fun i => (Spec.luma (w q.1) + σ * (w q.1 i - Spec.luma (w q.1)))
        * Spec.fullScale (some d2)) ++ q.2) (by
      intro c hc
      obtain ⟨q, hq, rfl⟩ := List.mem_map.mp hc
      have := hp q hq
      simp [Spec.fins]; omega)
  rw [py_mapM_map, py_mapM_ok _ (fun q => Spec.fins q.1 ++ q.2) pixels back, py_ok_bind] at step
  have step' := (show (List.map _ pixels).flatten = r.out by rw [hr2, image_eq, List.map_map]) ▸ step
  refine ⟨r, _, hr1, step', ?out⟩
  case out => rfl

/-- C29 is false: whatever the parameters, some colour does not come back. -/
theorem C29_false (A : Arith ℝ) (hA : Spec.RealArith A) (compat : ℕ) (v : CdlValues ℝ)
    (s o p : Fin 3 → ℝ) (σ : ℝ) (hv : CdlIs v s o p σ) (hs0 : ∀ i, s i ≠ 0) (hp0 : ∀ i, 0 < p i)
    (hσ : σ ≠ 0) (bf br : Base ℝ) (d1 d2 : AVal) (hf : StyledNode bf d1 d2 (.str "FwdNoClamp"))
    (hr : StyledNode br d2 d1 (.str "RevNoClamp")) :
    ∃ (colour : Fin 3 → ℝ) (r r' : Res ℝ),
      cdlProcess A compat v bf (Spec.fins colour) 3 = .ok r ∧
      cdlProcess A compat v br r.out 3 = .ok r' ∧ r'.out ≠ Spec.fins colour := by
  -- the colour that slope and offset send to 2
  let colour : Fin 3 → ℝ := fun i => (2 - o i) / s i * Spec.fullScale (some d1)
  obtain ⟨r, r', h1, h2, h3⟩ := noClamp_roundtrip A hA compat v s o p σ hv hs0 hp0 hσ bf br d1 d2 hf
    hr 3 le_rfl [(colour, [])] (by simp)
  have e : Spec.image [(colour, [])] = Spec.fins colour := by simp [Spec.image]
  rw [e] at h1
  refine ⟨colour, r, r', h1, h2, ?_⟩
  rw [h3]
  have hfs : (Spec.fullScale (some d1) : ℝ) ≠ 0 := fullScale_ne _
  simp only [List.map_cons, List.map_nil, Spec.image, List.flatten_cons, List.flatten_nil,
    List.append_nil, fins3]
  intro h
  have h0 := (List.cons.inj h).1
  have h0' := Flt.fin.inj h0
  have e2 : colour 0 / Spec.fullScale (some d1) * s 0 + o 0 = 2 := by
    simp only [colour]
    rw [mul_div_cancel_right₀ _ hfs, div_mul_cancel₀ _ (hs0 0)]; ring
  have e3 : Spec.clip (2 : ℝ) = 1 := by rw [Spec.clip]; norm_num
  rw [e2, e3] at h0'
  simp only [colour] at h0'
  have h4 := mul_right_cancel₀ hfs h0'
  rw [div_left_inj' (hs0 0)] at h4
  linarith

/-- C29, the case that holds: `RevNoClamp` after `FwdNoClamp` returns exactly the
colours whose value after slope and offset is in [0, 1]; in general that value comes
back confined to [0, 1].  Missing: the other colours. -/
theorem C29_inrange_partial (A : Arith ℝ) (hA : Spec.RealArith A) (compat : ℕ) (v : CdlValues ℝ)
    (s o p : Fin 3 → ℝ) (σ : ℝ) (hv : CdlIs v s o p σ) (hs0 : ∀ i, s i ≠ 0) (hp0 : ∀ i, 0 < p i)
    (hσ : σ ≠ 0) (bf br : Base ℝ) (d1 d2 : AVal) (hf : StyledNode bf d1 d2 (.str "FwdNoClamp"))
    (hr : StyledNode br d2 d1 (.str "RevNoClamp")) (stride : ℕ) (hs : 3 ≤ stride)
    (pixels : List ((Fin 3 → ℝ) × List (Flt ℝ))) (hp : ∀ q ∈ pixels, q.2.length + 3 = stride)
    (inRange : ∀ q ∈ pixels, ∀ i, 0 ≤ q.1 i / Spec.fullScale (some d1) * s i + o i ∧
      q.1 i / Spec.fullScale (some d1) * s i + o i ≤ 1) :
    ∃ r r', cdlProcess A compat v bf (Spec.image pixels) stride = .ok r ∧
      cdlProcess A compat v br r.out stride = .ok r' ∧ r'.out = Spec.image pixels := by
  obtain ⟨r, r', h1, h2, h3⟩ := noClamp_roundtrip A hA compat v s o p σ hv hs0 hp0 hσ bf br d1 d2 hf
    hr stride hs pixels hp
  refine ⟨r, r', h1, h2, ?_⟩
  rw [h3]
  have hfs : (Spec.fullScale (some d1) : ℝ) ≠ 0 := fullScale_ne _
  refine congrArg Spec.image ?_
  conv_rhs => rw [← List.map_id pixels]
  apply List.map_congr_left
  intro q hq
  ext i
  · obtain ⟨h0, h1⟩ := inRange q hq i
    simp only [id_eq]
    rw [clip_of_mem h0 h1, add_sub_cancel_right, mul_div_cancel_right₀ _ (hs0 i),
      div_mul_cancel₀ _ hfs]
  · rfl

/-! ### C71: vendor styles -/

/-- C71: with the Autodesk feature off, three or more channels and an Autodesk style
keyword, processing raises `UnsupportedExtensionError`, whatever the values. -/
theorem C71_rejected (A : Arith K) (compat : ℕ) (v : CdlValues K) (b : Base K) (din dout st : AVal)
    (h : StyledNode b din dout st) (hoff : hasFeature compat autodesk = false)
    (hst : st ∈ ([.str "v1.2_Fwd", .str "noClampFwd", .str "v1.2_Rev", .str "noClampRev"] : List AVal))
    (values : List (Flt K)) (stride : ℕ) (hs : 3 ≤ if stride = 0 then values.length else stride) :
    cdlProcess A compat v b values stride = .error .unsupportedExtension := by
  obtain ⟨e1, e2, e3⟩ := h.attrs
  have : cdlVendorStyles.contains st = true := by
    rw [List.contains_iff_mem]; exact hst
  unfold cdlProcess
  simp only [if_neg (not_lt.mpr hs), e1, e2, e3, py_ok_bind, hoff, this]
  rfl

/-- C71: every other style gives the same result under every feature mask. -/
theorem C71_unaffected (A : Arith K) (compat compat' : ℕ) (v : CdlValues K) (b : Base K)
    (hst : b.styleOf "style" ∉
      ([.str "v1.2_Fwd", .str "noClampFwd", .str "v1.2_Rev", .str "noClampRev"] : List AVal))
    (values : List (Flt K)) (stride : ℕ) :
    cdlProcess A compat v b values stride = cdlProcess A compat' v b values stride := by
  have : cdlVendorStyles.contains (b.styleOf "style") = false := by
    rw [← Bool.not_eq_true, List.contains_iff_mem]; exact hst
  unfold cdlProcess
  simp only [this, Bool.and_false, Bool.false_eq_true, if_false]

/-! ### Instances -/

/-- A CDL node with non-trivial parameters. -/
def exampleCdl : CdlValues ℚ where
  slope := some [.fin (11 / 10), .fin (9 / 10), .fin 1]
  power := some [.fin 2, .fin 1, .fin (1 / 2)]
  saturation := some (.fin (8 / 10))

example : CdlIs exampleCdl ![11 / 10, 9 / 10, 1] (fun _ => 0) ![2, 1, 1 / 2] (8 / 10) :=
  ⟨.inl (by simp [exampleCdl, fins3]), .inr ⟨rfl, rfl⟩, .inl (by simp [exampleCdl, fins3]), .inl rfl⟩

example : StyledNode (K := ℚ) ⟨[("inBitDepth", .str "10i"), ("outBitDepth", .str "16f"),
    ("style", .str "Fwd")], [], [], []⟩ (.str "10i") (.str "16f") (.str "Fwd") := ⟨rfl, rfl, rfl⟩

/-- A rounding that keeps [0, 1] and [0, 1023]: truncation to hundredths. -/
example : Spec.Keeps (K := ℚ) ⟨fun v => match v with | .fin x => .fin (⌊x * 100⌋ / 100) | v => v,
    fun a _ => a, id⟩ 1023 := by
  intro x h0 h1
  refine ⟨_, rfl, ?_, ?_⟩
  · have : (0 : ℤ) ≤ ⌊x * 100⌋ := Int.floor_nonneg.mpr (by positivity)
    have : (0 : ℚ) ≤ ⌊x * 100⌋ := by exact_mod_cast this
    positivity
  · have := Int.floor_le (x * 100)
    linarith

/-- Parameters and a colour meeting the hypotheses of `C28_inverse`. -/
example : ∃ (s o p : Fin 3 → ℝ) (σ : ℝ) (x : Fin 3 → ℝ), (∀ i, 0 < s i) ∧ (∀ i, 0 < p i) ∧ σ ≠ 0 ∧
    (∀ i, 0 ≤ x i * s i + o i ∧ x i * s i + o i ≤ 1) ∧
    ∀ w : Fin 3 → ℝ, (∀ i, w i = (x i * s i + o i) ^ p i) →
      ∀ i, 0 ≤ Spec.luma w + σ * (w i - Spec.luma w) ∧ Spec.luma w + σ * (w i - Spec.luma w) ≤ 1 := by
  refine ⟨fun _ => 1 / 2, fun _ => 1 / 4, fun _ => 2, 1 / 2, ![1 / 2, 1, 0], fun _ => by norm_num,
    fun _ => by norm_num, by norm_num, ?_, ?_⟩
  · intro i; fin_cases i <;> norm_num
  · intro w hw i
    have h0 : w 0 = 1 / 4 := by rw [hw]; norm_num
    have h1 : w 1 = 9 / 16 := by rw [hw]; norm_num
    have h2 : w 2 = 1 / 16 := by rw [hw]; simp; norm_num
    fin_cases i <;> simp [Spec.luma, h0, h1, h2] <;> norm_num

end CLF
