import Verif.Props.Numbers
import Mathlib.Tactic.FieldSimp
import Mathlib.Tactic.Linarith

/-! # Properties C06–C09: the Range node -/

set_option linter.unusedSectionVars false

namespace CLF

variable {K : Type} [Field K] [LinearOrder K] [IsStrictOrderedRing K] [FloorRing K]

/-- `b` is the state of a Range node with bit depths `din`, `dout` and all four
bounds set to finite values (in code values). -/
structure FullRange (b : Base K) (din dout : AVal) (minIn maxIn minOut maxOut : K) : Prop where
  inDepth : b.attrs.get? "inBitDepth" = some din
  outDepth : b.attrs.get? "outBitDepth" = some dout
  minIn : b.values.get? "minInValue" = some (.fin minIn)
  maxIn : b.values.get? "maxInValue" = some (.fin maxIn)
  minOut : b.values.get? "minOutValue" = some (.fin minOut)
  maxOut : b.values.get? "maxOutValue" = some (.fin maxOut)

/-- The node clamps: its style is absent or `clamp`. -/
def Clamps (b : Base K) : Prop :=
  b.attrs.get? "style" = none ∨ b.attrs.get? "style" = some (.str "clamp")

/-- The node has some other style, e.g. `noClamp`. -/
def NoClamp (b : Base K) : Prop :=
  ∃ s, b.attrs.get? "style" = some s ∧ s ≠ .str "clamp"

theorem rangeProcess_full (A : Arith K) {b : Base K} {din dout : AVal} {mi ma mo mx : K}
    (h : FullRange b din dout mi ma mo mx) (cl : Bool)
    (hcl : (cl = true ∧ Clamps b) ∨ (cl = false ∧ NoClamp b)) (values : List (Flt K)) :
    rangeProcess A b values = (do
      let out ← values.mapM (rangeStep A (some din) (some dout) cl
        (some (.fin (mi / Spec.fullScale (some din)))) (some (.fin (ma / Spec.fullScale (some din))))
        (some (.fin (mo / Spec.fullScale (some dout)))) (some (.fin (mx / Spec.fullScale (some dout)))))
      .ok ⟨out, out, true⟩) := by
  have hb (key : String) (d : Depth) (x : K) (hk : b.values.get? key = some (.fin x)) :
      rangeBound b key d = some (.fin (x / Spec.fullScale d)) := by
    simp [rangeBound, hk, Flt.fin_div (fullScale_ne (K := K) d), bitDepthSize_eq_fullScale]
  apply rangeProcess_eq A b din dout values h.inDepth h.outDepth
  · rcases hcl with ⟨rfl, hc | hc⟩ | ⟨rfl, s, hs, hne⟩
    · simp [hc]
    · simp [hc]
    · simp [hs, hne]
  · simp [hb _ _ _ h.minIn]
  · simp [hb _ _ _ h.maxIn]
  · simp [hb _ _ _ h.minOut]
  · simp [hb _ _ _ h.maxOut]

/-- One value through an exact four-bound Range, not clamping. -/
theorem rangeStep_full (A : Arith K) (hA : A.Exact) (din dout : Depth) {mi ma mo mx : K}
    (hne : mi ≠ ma) (cl : Bool) (x : K) :
    rangeStep A din dout cl (some (.fin (mi / Spec.fullScale din)))
      (some (.fin (ma / Spec.fullScale din))) (some (.fin (mo / Spec.fullScale dout)))
      (some (.fin (mx / Spec.fullScale dout))) (.fin x)
    = .ok (.fin (if cl then min mx (max mo (Spec.affine mi ma mo mx x))
        else Spec.affine mi ma mo mx x)) := by
  have hi : (Spec.fullScale din : K) ≠ 0 := fullScale_ne din
  have ho : (Spec.fullScale dout : K) ≠ 0 := fullScale_ne dout
  have hop : 0 < (Spec.fullScale dout : K) := fullScale_pos dout
  have hd : ma / Spec.fullScale din - mi / Spec.fullScale din ≠ (0 : K) := by
    rw [← sub_div]; exact div_ne_zero (sub_ne_zero.mpr hne.symm) hi
  have hm : ma - mi ≠ 0 := sub_ne_zero.mpr hne.symm
  have key : x / Spec.fullScale din * ((mx / Spec.fullScale dout - mo / Spec.fullScale dout) /
        (ma / Spec.fullScale din - mi / Spec.fullScale din)) + mo / Spec.fullScale dout -
      mi / Spec.fullScale din * ((mx / Spec.fullScale dout - mo / Spec.fullScale dout) /
        (ma / Spec.fullScale din - mi / Spec.fullScale din))
      = Spec.affine mi ma mo mx x / Spec.fullScale dout := by
    unfold Spec.affine
    rw [← sub_div, ← sub_div]
    field_simp
    ring
  simp only [rangeStep, hA _, toNormalized_fin, bitDepthSize_eq_fullScale]
  simp only [Flt.fin_sub, pyDivF_fin hd, py_ok_bind, Flt.fin_mul, Flt.fin_add, key]
  cases cl with
  | false =>
    simp only [Bool.false_eq_true, if_false, py_pure, py_ok_bind, toDepth_fin,
      bitDepthSize_eq_fullScale, div_mul_cancel₀ _ ho]
  | true =>
    simp only [if_true, py_pure, py_ok_bind, Flt.pmax_fin, Flt.pmin_fin, toDepth_fin,
      bitDepthSize_eq_fullScale]
    rw [max_div_div_right hop.le, min_div_div_right hop.le, div_mul_cancel₀ _ ho]

/-- C06: a clamping Range with four bounds never fails and every output is finite
and within the output bounds, whatever the inputs. -/
theorem C06_range_clamps (A : Arith K) (hA : A.Exact) (b : Base K) (din dout : AVal)
    (minIn maxIn minOut maxOut : K) (h : FullRange b din dout minIn maxIn minOut maxOut)
    (hcl : Clamps b) (hne : minIn ≠ maxIn) (hle : minOut ≤ maxOut) (values : List (Flt K)) :
    ∃ r, rangeProcess A b values = .ok r ∧ r.out.length = values.length ∧
      ∀ y ∈ r.out, ∃ z, y = .fin z ∧ minOut ≤ z ∧ z ≤ maxOut := by
  have hi : (Spec.fullScale (some din) : K) ≠ 0 := fullScale_ne _
  have ho : (Spec.fullScale (some dout) : K) ≠ 0 := fullScale_ne _
  have hop : 0 < (Spec.fullScale (some dout) : K) := fullScale_pos _
  have hd : maxIn / Spec.fullScale (some din) - minIn / Spec.fullScale (some din) ≠ (0 : K) := by
    rw [← sub_div]; exact div_ne_zero (sub_ne_zero.mpr hne.symm) hi
  rw [rangeProcess_full A h true (.inl ⟨rfl, hcl⟩)]
  have hstep : ∀ v : Flt K, ∃ z, rangeStep A (some din) (some dout) true
      (some (.fin (minIn / Spec.fullScale (some din)))) (some (.fin (maxIn / Spec.fullScale (some din))))
      (some (.fin (minOut / Spec.fullScale (some dout))))
      (some (.fin (maxOut / Spec.fullScale (some dout)))) v = .ok (.fin z) ∧
      minOut ≤ z ∧ z ≤ maxOut := by
    intro v
    simp only [rangeStep, hA _, Flt.fin_sub, pyDivF_fin hd, py_ok_bind, if_true, py_pure]
    obtain ⟨y, hy, h1, h2⟩ := clamp_mem (bitDepthToNormalized v (some din) *
      .fin ((maxOut / Spec.fullScale (some dout) - minOut / Spec.fullScale (some dout)) /
        (maxIn / Spec.fullScale (some din) - minIn / Spec.fullScale (some din))) +
      .fin (minOut / Spec.fullScale (some dout)) -
      .fin (minIn / Spec.fullScale (some din)) *
      .fin ((maxOut / Spec.fullScale (some dout) - minOut / Spec.fullScale (some dout)) /
        (maxIn / Spec.fullScale (some din) - minIn / Spec.fullScale (some din))))
      (div_le_div_of_nonneg_right hle hop.le)
    unfold clamp at hy
    rw [hy]
    refine ⟨y * Spec.fullScale (some dout), ?_, ?_, ?_⟩
    · rw [toDepth_fin, bitDepthSize_eq_fullScale]
    · rwa [div_le_iff₀ hop] at h1
    · rwa [le_div_iff₀ hop] at h2
  choose f hf using hstep
  rw [py_mapM_ok _ (fun v => .fin (f v)) values (fun v _ => (hf v).1)]
  refine ⟨_, rfl, by simp, ?_⟩
  intro y hy
  simp only [List.mem_map] at hy
  obtain ⟨v, _, rfl⟩ := hy
  exact ⟨f v, rfl, (hf v).2⟩

/-- C07: not clamping, every finite value goes to the affine map of the bounds
(in code values, whatever the depths). -/
theorem C07_affine (A : Arith K) (hA : A.Exact) (b : Base K) (din dout : AVal)
    (minIn maxIn minOut maxOut : K) (h : FullRange b din dout minIn maxIn minOut maxOut)
    (hcl : NoClamp b) (hne : minIn ≠ maxIn) (xs : List K) :
    ∃ r, rangeProcess A b (xs.map .fin) = .ok r ∧
      r.out = xs.map fun x => .fin (Spec.affine minIn maxIn minOut maxOut x) := by
  rw [rangeProcess_full A h false (.inr ⟨rfl, hcl⟩)]
  rw [py_mapM_ok _ (fun v => match v with
    | .fin x => .fin (Spec.affine minIn maxIn minOut maxOut x) | v => v)]
  · exact ⟨_, rfl, by simp [Function.comp_def]⟩
  · intro v hv
    simp only [List.mem_map] at hv
    obtain ⟨x, _, rfl⟩ := hv
    rw [rangeStep_full A hA _ _ hne]; rfl

/-- C07: clamping, every finite value goes to the clamped affine map. -/
theorem C07_affine_clamped (A : Arith K) (hA : A.Exact) (b : Base K) (din dout : AVal)
    (minIn maxIn minOut maxOut : K) (h : FullRange b din dout minIn maxIn minOut maxOut)
    (hcl : Clamps b) (hne : minIn ≠ maxIn) (xs : List K) :
    ∃ r, rangeProcess A b (xs.map .fin) = .ok r ∧
      r.out = xs.map fun x =>
        .fin (min maxOut (max minOut (Spec.affine minIn maxIn minOut maxOut x))) := by
  rw [rangeProcess_full A h true (.inl ⟨rfl, hcl⟩)]
  rw [py_mapM_ok _ (fun v => match v with
    | .fin x => .fin (min maxOut (max minOut (Spec.affine minIn maxIn minOut maxOut x)))
    | v => v)]
  · exact ⟨_, rfl, by simp [Function.comp_def]⟩
  · intro v hv
    simp only [List.mem_map] at hv
    obtain ⟨x, _, rfl⟩ := hv
    rw [rangeStep_full A hA _ _ hne]; rfl

/-- C07: the affine map sends the bounds to the bounds, the interval into the
interval, and preserves order. -/
theorem C07_map {a b c d : K} (hab : a < b) (hcd : c ≤ d) :
    Spec.affine a b c d a = c ∧ Spec.affine a b c d b = d ∧
    (∀ x y, x ≤ y → Spec.affine a b c d x ≤ Spec.affine a b c d y) ∧
    (∀ x, a ≤ x → x ≤ b → c ≤ Spec.affine a b c d x ∧ Spec.affine a b c d x ≤ d) := by
  have hp : 0 < b - a := sub_pos.mpr hab
  have hs : 0 ≤ (d - c) / (b - a) := div_nonneg (sub_nonneg.mpr hcd) hp.le
  have e1 : Spec.affine a b c d a = c := by simp [Spec.affine]
  have e2 : Spec.affine a b c d b = d := by
    unfold Spec.affine; rw [mul_div_cancel₀ _ hp.ne']; ring
  have hm : ∀ x y, x ≤ y → Spec.affine a b c d x ≤ Spec.affine a b c d y := by
    intro x y hxy
    unfold Spec.affine
    have := mul_le_mul_of_nonneg_right (sub_le_sub_right hxy a) hs
    linarith
  exact ⟨e1, e2, hm, fun x h1 h2 => ⟨e1.symm.trans_le (hm _ _ h1), (hm _ _ h2).trans_eq e2⟩⟩

/-- C07: so on the input interval a clamping Range and a non-clamping one agree. -/
theorem C07_clamp_inactive {a b c d : K} (hab : a < b) (hcd : c ≤ d) (x : K) (h1 : a ≤ x)
    (h2 : x ≤ b) : min d (max c (Spec.affine a b c d x)) = Spec.affine a b c d x := by
  obtain ⟨h3, h4⟩ := (C07_map hab hcd).2.2.2 x h1 h2
  rw [max_eq_right h3, min_eq_right h4]

/-- A Range node's state without any bounds and without `defaultRange`. -/
structure FreeRange (b : Base K) (din dout : AVal) : Prop where
  inDepth : b.attrs.get? "inBitDepth" = some din
  outDepth : b.attrs.get? "outBitDepth" = some dout
  minIn : b.values.get? "minInValue" = none
  maxIn : b.values.get? "maxInValue" = none
  minOut : b.values.get? "minOutValue" = none
  maxOut : b.values.get? "maxOutValue" = none
  noDefault : b.attrs.get? "defaultRange" = none

/-- C08: whatever its style, a Range without bounds rescales code values between
its depths, on every float. -/
theorem C08_free_range (A : Arith K) (hA : A.Exact) (b : Base K) (din dout : AVal)
    (h : FreeRange b din dout) (values : List (Flt K)) :
    rangeProcess A b values = .ok ⟨values.map (Spec.convert (some din) (some dout)),
      values.map (Spec.convert (some din) (some dout)), true⟩ := by
  rw [rangeProcess_eq A b din dout values h.inDepth h.outDepth _ rfl none none none none
    (by simp [rangeBound, h.minIn, h.noDefault]) (by simp [rangeBound, h.maxIn, h.noDefault])
    (by simp [rangeBound, h.minOut, h.noDefault]) (by simp [rangeBound, h.maxOut, h.noDefault])]
  rw [py_mapM_ok _ (Spec.convert (some din) (some dout))]
  · rfl
  · intro v _
    simp only [rangeStep, hA _, py_pure, py_ok_bind]
    cases v <;> simp [Spec.convert, bitDepthSize_eq_fullScale]

/-- C08: converting there and back is the identity on every float. -/
theorem C08_roundtrip (d1 d2 : Depth) (v : Flt K) :
    Spec.convert d2 d1 (Spec.convert d1 d2 v) = v := by
  have h1 := fullScale_ne (K := K) d1
  have h2 := fullScale_ne (K := K) d2
  cases v with
  | fin x => simp only [Spec.convert, Flt.fin.injEq]; field_simp
  | inf s => rfl
  | nan => rfl

/-- C09: the non-clamping Range with everything exchanged undoes the Range on
every finite array. -/
theorem C09_swap_inverts (A : Arith K) (hA : A.Exact) (b b' : Base K) (din dout : AVal)
    (minIn maxIn minOut maxOut : K) (h : FullRange b din dout minIn maxIn minOut maxOut)
    (h' : FullRange b' dout din minOut maxOut minIn maxIn) (hc : NoClamp b) (hc' : NoClamp b')
    (hi : minIn ≠ maxIn) (ho : minOut ≠ maxOut) (xs : List K) :
    ∃ r r', rangeProcess A b (xs.map .fin) = .ok r ∧ rangeProcess A b' r.out = .ok r' ∧
      r'.out = xs.map .fin := by
  obtain ⟨r, hr, hro⟩ := C07_affine A hA b din dout _ _ _ _ h hc hi xs
  obtain ⟨r', hr', hro'⟩ := C07_affine A hA b' dout din _ _ _ _ h' hc' ho
    (xs.map (Spec.affine minIn maxIn minOut maxOut))
  refine ⟨r, r', hr, ?_, ?_⟩
  · rw [hro]; rw [List.map_map] at hr'; exact hr'
  · rw [hro', List.map_map]
    apply List.map_congr_left
    intro x _
    have e1 : maxIn - minIn ≠ 0 := sub_ne_zero.mpr hi.symm
    have e2 : maxOut - minOut ≠ 0 := sub_ne_zero.mpr ho.symm
    simp only [Function.comp, Flt.fin.injEq, Spec.affine]
    field_simp
    ring

/-- C09: the clamping Range with everything exchanged undoes the Range on arrays
of values of the input interval. -/
theorem C09_swap_inverts_clamped (A : Arith K) (hA : A.Exact) (b b' : Base K) (din dout : AVal)
    (minIn maxIn minOut maxOut : K) (h : FullRange b din dout minIn maxIn minOut maxOut)
    (h' : FullRange b' dout din minOut maxOut minIn maxIn) (hc : Clamps b) (hc' : Clamps b')
    (hi : minIn < maxIn) (ho : minOut < maxOut) (xs : List K)
    (hxs : ∀ x ∈ xs, minIn ≤ x ∧ x ≤ maxIn) :
    ∃ r r', rangeProcess A b (xs.map .fin) = .ok r ∧ rangeProcess A b' r.out = .ok r' ∧
      r'.out = xs.map .fin := by
  obtain ⟨r, hr, hro⟩ := C07_affine_clamped A hA b din dout _ _ _ _ h hc hi.ne xs
  obtain ⟨r', hr', hro'⟩ := C07_affine_clamped A hA b' dout din _ _ _ _ h' hc' ho.ne
    (xs.map fun x => min maxOut (max minOut (Spec.affine minIn maxIn minOut maxOut x)))
  refine ⟨r, r', hr, ?_, ?_⟩
  · rw [hro]; rw [List.map_map] at hr'; exact hr'
  · rw [hro', List.map_map]
    apply List.map_congr_left
    intro x hx
    obtain ⟨h1, h2⟩ := hxs x hx
    obtain ⟨h3, h4⟩ := (C07_map hi ho.le).2.2.2 x h1 h2
    have e1 : maxIn - minIn ≠ 0 := sub_ne_zero.mpr hi.ne'
    have e2 : maxOut - minOut ≠ 0 := sub_ne_zero.mpr ho.ne'
    simp only [Function.comp, Flt.fin.injEq]
    rw [C07_clamp_inactive hi ho.le x h1 h2, C07_clamp_inactive ho hi.le _ h3 h4]
    simp only [Spec.affine]
    field_simp
    ring

/-! ### C77 -/

/-- The state of a Range node that sets the lower bounds and not both of the upper
ones. -/
structure LowerRange (b : Base K) (din dout : AVal) (minIn minOut : K) : Prop where
  inDepth : b.attrs.get? "inBitDepth" = some din
  outDepth : b.attrs.get? "outBitDepth" = some dout
  minIn : b.values.get? "minInValue" = some (.fin minIn)
  minOut : b.values.get? "minOutValue" = some (.fin minOut)
  max : b.values.get? "maxInValue" = none ∨ b.values.get? "maxOutValue" = none
  noDefault : b.attrs.get? "defaultRange" = none

/-- The state of a Range node that sets the upper bounds and not both of the lower
ones. -/
structure UpperRange (b : Base K) (din dout : AVal) (maxIn maxOut : K) : Prop where
  inDepth : b.attrs.get? "inBitDepth" = some din
  outDepth : b.attrs.get? "outBitDepth" = some dout
  maxIn : b.values.get? "maxInValue" = some (.fin maxIn)
  maxOut : b.values.get? "maxOutValue" = some (.fin maxOut)
  min : b.values.get? "minInValue" = none ∨ b.values.get? "minOutValue" = none
  noDefault : b.attrs.get? "defaultRange" = none

theorem rangeStep_lower (A : Arith K) (hA : A.Exact) (din dout : Depth) (mi mo : K) (ma mx : Option (Flt K))
    (h : ma = none ∨ mx = none) (cl : Bool) (x : K) :
    rangeStep A din dout cl (some (.fin (mi / Spec.fullScale din))) ma
      (some (.fin (mo / Spec.fullScale dout))) mx (.fin x)
    = .ok (.fin (if cl then max mo (Spec.shift din dout mi mo x) else Spec.shift din dout mi mo x)) := by
  have hi : (Spec.fullScale din : K) ≠ 0 := fullScale_ne din
  have ho : (Spec.fullScale dout : K) ≠ 0 := fullScale_ne dout
  have hop : 0 < (Spec.fullScale dout : K) := fullScale_pos dout
  have key : x / Spec.fullScale din + mo / Spec.fullScale dout - mi / Spec.fullScale din
      = Spec.shift din dout mi mo x / Spec.fullScale dout := by
    unfold Spec.shift; field_simp; ring
  have : rangeStep A din dout cl (some (.fin (mi / Spec.fullScale din))) ma
      (some (.fin (mo / Spec.fullScale dout))) mx (.fin x) =
      rangeStep A din dout cl (some (.fin (mi / Spec.fullScale din))) none
      (some (.fin (mo / Spec.fullScale dout))) none (.fin x) := by
    rcases h with rfl | rfl
    · cases mx <;> rfl
    · cases ma <;> rfl
  rw [this]
  simp only [rangeStep, hA _, toNormalized_fin, bitDepthSize_eq_fullScale, Flt.fin_add, Flt.fin_sub, key]
  cases cl with
  | false =>
    simp only [Bool.false_eq_true, if_false, py_pure, py_ok_bind, toDepth_fin,
      bitDepthSize_eq_fullScale, div_mul_cancel₀ _ ho]
  | true =>
    simp only [if_true, py_pure, py_ok_bind, Flt.pmax_fin, toDepth_fin,
      bitDepthSize_eq_fullScale]
    rw [max_div_div_right hop.le, div_mul_cancel₀ _ ho]

theorem rangeStep_upper (A : Arith K) (hA : A.Exact) (din dout : Depth) (ma mx : K) (mi mo : Option (Flt K))
    (h : mi = none ∨ mo = none) (cl : Bool) (x : K) :
    rangeStep A din dout cl mi (some (.fin (ma / Spec.fullScale din))) mo
      (some (.fin (mx / Spec.fullScale dout))) (.fin x)
    = .ok (.fin (if cl then min mx (Spec.shift din dout ma mx x) else Spec.shift din dout ma mx x)) := by
  have hi : (Spec.fullScale din : K) ≠ 0 := fullScale_ne din
  have ho : (Spec.fullScale dout : K) ≠ 0 := fullScale_ne dout
  have hop : 0 < (Spec.fullScale dout : K) := fullScale_pos dout
  have key : x / Spec.fullScale din + mx / Spec.fullScale dout - ma / Spec.fullScale din
      = Spec.shift din dout ma mx x / Spec.fullScale dout := by
    unfold Spec.shift; field_simp; ring
  have : rangeStep A din dout cl mi (some (.fin (ma / Spec.fullScale din))) mo
      (some (.fin (mx / Spec.fullScale dout))) (.fin x) =
      rangeStep A din dout cl none (some (.fin (ma / Spec.fullScale din))) none
      (some (.fin (mx / Spec.fullScale dout))) (.fin x) := by
    rcases h with rfl | rfl
    · cases mo <;> rfl
    · cases mi <;> rfl
  rw [this]
  simp only [rangeStep, hA _, toNormalized_fin, bitDepthSize_eq_fullScale, Flt.fin_add, Flt.fin_sub, key]
  cases cl with
  | false =>
    simp only [Bool.false_eq_true, if_false, py_pure, py_ok_bind, toDepth_fin,
      bitDepthSize_eq_fullScale, div_mul_cancel₀ _ ho]
  | true =>
    simp only [if_true, py_pure, py_ok_bind, Flt.pmin_fin, toDepth_fin,
      bitDepthSize_eq_fullScale]
    rw [min_div_div_right hop.le, div_mul_cancel₀ _ ho]

theorem rangeProcess_fins (A : Arith K) {b : Base K} {din dout : AVal}
    (h1 : b.attrs.get? "inBitDepth" = some din) (h2 : b.attrs.get? "outBitDepth" = some dout)
    (hd : b.attrs.get? "defaultRange" = none) (cl : Bool)
    (hcl : (cl = true ∧ Clamps b) ∨ (cl = false ∧ NoClamp b)) (f : K → K)
    (hf : ∀ x, rangeStep A (some din) (some dout) cl (rangeBound b "minInValue" (some din))
      (rangeBound b "maxInValue" (some din)) (rangeBound b "minOutValue" (some dout))
      (rangeBound b "maxOutValue" (some dout)) (.fin x) = .ok (.fin (f x))) (xs : List K) :
    ∃ r, rangeProcess A b (xs.map .fin) = .ok r ∧ r.out = xs.map fun x => .fin (f x) := by
  rw [rangeProcess_eq A b din dout (xs.map .fin) h1 h2 cl ?_
    (rangeBound b "minInValue" (some din)) (rangeBound b "maxInValue" (some din))
    (rangeBound b "minOutValue" (some dout)) (rangeBound b "maxOutValue" (some dout))
    (by simp [hd]) (by simp [hd]) (by simp [hd]) (by simp [hd])]
  · rw [py_mapM_ok _ (fun v => match v with | .fin x => .fin (f x) | v => v)]
    · exact ⟨_, rfl, by simp [Function.comp_def]⟩
    · intro v hv
      obtain ⟨x, _, rfl⟩ := List.mem_map.mp hv
      exact hf x
  · rcases hcl with ⟨rfl, hc | hc⟩ | ⟨rfl, s, hs, hne⟩
    · simp [hc]
    · simp [hc]
    · simp [hs, hne]

theorem rangeBound_fin (b : Base K) (key : String) (d : Depth) (x : K)
    (hk : b.values.get? key = some (.fin x)) : rangeBound b key d = some (.fin (x / Spec.fullScale d)) := by
  simp [rangeBound, hk, Flt.fin_div (fullScale_ne (K := K) d), bitDepthSize_eq_fullScale]

/-- C77: a Range with lower bounds only shifts `minIn` to `minOut`; if it clamps, it clamps
below and only there. -/
theorem C77_lower (A : Arith K) (hA : A.Exact) (b : Base K) (din dout : AVal) (minIn minOut : K)
    (h : LowerRange b din dout minIn minOut) (xs : List K) :
    (NoClamp b → ∃ r, rangeProcess A b (xs.map .fin) = .ok r ∧
      r.out = xs.map fun x => .fin (Spec.shift (some din) (some dout) minIn minOut x)) ∧
    (Clamps b → ∃ r, rangeProcess A b (xs.map .fin) = .ok r ∧
      r.out = xs.map fun x => .fin (max minOut (Spec.shift (some din) (some dout) minIn minOut x))) := by
  have hm : rangeBound b "maxInValue" (some din) = none ∨ rangeBound b "maxOutValue" (some dout) = none :=
    h.max.imp (fun h => by simp [rangeBound, h]) fun h => by simp [rangeBound, h]
  constructor
  · intro hc
    refine rangeProcess_fins A h.inDepth h.outDepth h.noDefault false (.inr ⟨rfl, hc⟩) _ (fun x => ?_) xs
    rw [rangeBound_fin _ _ _ _ h.minIn, rangeBound_fin _ _ _ _ h.minOut, rangeStep_lower A hA _ _ _ _ _ _ hm]
    rfl
  · intro hc
    refine rangeProcess_fins A h.inDepth h.outDepth h.noDefault true (.inl ⟨rfl, hc⟩) _ (fun x => ?_) xs
    rw [rangeBound_fin _ _ _ _ h.minIn, rangeBound_fin _ _ _ _ h.minOut, rangeStep_lower A hA _ _ _ _ _ _ hm]
    rfl

/-- C77: a Range with upper bounds only shifts `maxIn` to `maxOut`; if it clamps, it clamps
above and only there. -/
theorem C77_upper (A : Arith K) (hA : A.Exact) (b : Base K) (din dout : AVal) (maxIn maxOut : K)
    (h : UpperRange b din dout maxIn maxOut) (xs : List K) :
    (NoClamp b → ∃ r, rangeProcess A b (xs.map .fin) = .ok r ∧
      r.out = xs.map fun x => .fin (Spec.shift (some din) (some dout) maxIn maxOut x)) ∧
    (Clamps b → ∃ r, rangeProcess A b (xs.map .fin) = .ok r ∧
      r.out = xs.map fun x => .fin (min maxOut (Spec.shift (some din) (some dout) maxIn maxOut x))) := by
  have hm : rangeBound b "minInValue" (some din) = none ∨ rangeBound b "minOutValue" (some dout) = none :=
    h.min.imp (fun h => by simp [rangeBound, h]) fun h => by simp [rangeBound, h]
  constructor
  · intro hc
    refine rangeProcess_fins A h.inDepth h.outDepth h.noDefault false (.inr ⟨rfl, hc⟩) _ (fun x => ?_) xs
    rw [rangeBound_fin _ _ _ _ h.maxIn, rangeBound_fin _ _ _ _ h.maxOut, rangeStep_upper A hA _ _ _ _ _ _ hm]
    rfl
  · intro hc
    refine rangeProcess_fins A h.inDepth h.outDepth h.noDefault true (.inl ⟨rfl, hc⟩) _ (fun x => ?_) xs
    rw [rangeBound_fin _ _ _ _ h.maxIn, rangeBound_fin _ _ _ _ h.maxOut, rangeStep_upper A hA _ _ _ _ _ _ hm]
    rfl

/-- C77: `defaultRange` stands for the bounds 0 and full scale that are missing. -/
theorem C77_default (A : Arith K) (b : Base K) (din dout : AVal)
    (h1 : b.attrs.get? "inBitDepth" = some din) (h2 : b.attrs.get? "outBitDepth" = some dout)
    (hd : (b.attrs.get? "defaultRange").isSome) (hv : b.values = []) (b' : Base K)
    (hb : FullRange b' din dout 0 (Spec.fullScale (some din)) 0 (Spec.fullScale (some dout)))
    (hs : b'.attrs.get? "style" = b.attrs.get? "style") (values : List (Flt K)) :
    rangeProcess A b values = rangeProcess A b' values := by
  have e1 : (Spec.fullScale (some din) : K) / Spec.fullScale (some din) = 1 := div_self (fullScale_ne _)
  have e2 : (Spec.fullScale (some dout) : K) / Spec.fullScale (some dout) = 1 := div_self (fullScale_ne _)
  rw [rangeProcess_eq A b din dout values h1 h2 _ rfl (some (.fin 0)) (some (.fin 1)) (some (.fin 0))
    (some (.fin 1)) (by simp [rangeBound, hv, hd, Dict.get?]) (by simp [rangeBound, hv, hd, Dict.get?])
    (by simp [rangeBound, hv, hd, Dict.get?]) (by simp [rangeBound, hv, hd, Dict.get?])]
  rw [rangeProcess_eq A b' din dout values hb.inDepth hb.outDepth _ rfl (some (.fin 0)) (some (.fin 1))
    (some (.fin 0)) (some (.fin 1)) (by simp [rangeBound_fin _ _ _ _ hb.minIn])
    (by simp [rangeBound_fin _ _ _ _ hb.maxIn, e1]) (by simp [rangeBound_fin _ _ _ _ hb.minOut])
    (by simp [rangeBound_fin _ _ _ _ hb.maxOut, e2]), hs]

/-! ### Instances -/

example : LowerRange (K := ℚ) ⟨[("inBitDepth", .str "10i"), ("outBitDepth", .str "8i")],
    [("minInValue", .fin 64), ("minOutValue", .fin 16), ("maxInValue", .fin 940)], [], []⟩
    (.str "10i") (.str "8i") 64 16 := by
  constructor <;> first | rfl | exact .inr rfl
example : UpperRange (K := ℚ) ⟨[("inBitDepth", .str "10i"), ("outBitDepth", .str "8i"), ("style", .str "noClamp")],
    [("maxInValue", .fin 940), ("maxOutValue", .fin 235)], [], []⟩ (.str "10i") (.str "8i") 940 235 := by
  constructor <;> first | rfl | exact .inr rfl
example : FullRange (K := ℚ) ⟨[("inBitDepth", .str "8i"), ("outBitDepth", .str "10i")],
    [("minInValue", .fin 0), ("maxInValue", .fin 255), ("minOutValue", .fin 0), ("maxOutValue", .fin 1023)], [], []⟩
    (.str "8i") (.str "10i") 0 (Spec.fullScale (some (.str "8i"))) 0 (Spec.fullScale (some (.str "10i"))) := by
  constructor <;> decide +kernel

/-- A 10-bit video-legal to 8-bit full-range node. -/
def exampleRange (style : String) : Base ℚ where
  attrs := [("inBitDepth", .str "10i"), ("outBitDepth", .str "8i"), ("style", .str style)]
  values := [("minInValue", .fin 64), ("maxInValue", .fin 940), ("minOutValue", .fin 0),
    ("maxOutValue", .fin 255)]

/-- Its inverse. -/
def exampleRangeInv (style : String) : Base ℚ where
  attrs := [("inBitDepth", .str "8i"), ("outBitDepth", .str "10i"), ("style", .str style)]
  values := [("minInValue", .fin 0), ("maxInValue", .fin 255), ("minOutValue", .fin 64),
    ("maxOutValue", .fin 940)]

example (s : String) : FullRange (exampleRange s) (.str "10i") (.str "8i") 64 940 0 255 := by
  constructor <;> rfl
example (s : String) : FullRange (exampleRangeInv s) (.str "8i") (.str "10i") 0 255 64 940 := by
  constructor <;> rfl
example : Clamps (exampleRange "clamp") := .inr rfl
example : NoClamp (exampleRange "noClamp") := ⟨_, rfl, by decide⟩
example : Spec.affine (64 : ℚ) 940 0 255 502 = 255 / 2 := by norm_num [Spec.affine]
example : FreeRange (K := ℚ) ⟨[("inBitDepth", .str "10i"), ("outBitDepth", .str "16f")], [], [], []⟩
    (.str "10i") (.str "16f") := by constructor <;> rfl

end CLF
