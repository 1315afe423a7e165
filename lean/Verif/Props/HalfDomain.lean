import Verif.Lemmas.HalfDomain

/-! # Properties C18–C20: half-domain one-dimensional LUTs -/

set_option linter.unusedSectionVars false

namespace CLF

variable {K : Type} [Field K] [LinearOrder K] [IsStrictOrderedRing K] [FloorRing K]

/-- C18: an input that is the value of a finite half pattern reads the row of that
pattern.  (The pattern of minus zero is left out: the model does not tell minus zero
from zero, which reads row 0.) -/
theorem C18_exact {c : ℕ} (a : Arr K) (T : Fin 65536 → Fin (c + 1) → Flt K)
    (V : ℕ → Fin (c + 1) → K) (h : HalfTable a T V) (n : ℕ) (hn : Spec.halfFinite n)
    (h0 : n ≠ 32768) (ch : ℕ) :
    a.lookup1DHalfDomain (.fin (Spec.halfValue n)) ch = .ok (.fin (V n (Spec.column c ch))) := by
  have he := half_encode_exact (K := K) n hn h0
  have habs : |(Spec.halfValue n : K)| < 65520 := by
    by_contra hc
    have hov := half_overflow (Spec.halfValue n : K) (le_of_not_gt hc)
    rw [he] at hov
    rw [halfFinite_iff] at hn
    split_ifs at hov <;> omega
  obtain ⟨i, j, w, _, hi, _, _, _, hw, hl, _⟩ := halfLookup_core h _ habs
  rw [he] at hi
  subst hi
  rw [hl ch, hw rfl]
  simp

/-- C18: infinities and NaN, and values that overflow half precision, read their own
rows, whatever the rows hold. -/
theorem C18_nonfinite {c : ℕ} (a : Arr K) (T : Fin 65536 → Fin (c + 1) → Flt K)
    (V : ℕ → Fin (c + 1) → K) (h : HalfTable a T V) (ch : ℕ) :
    a.lookup1DHalfDomain (.inf false) ch = .ok (T 31744 (Spec.column c ch)) ∧
    a.lookup1DHalfDomain (.inf true) ch = .ok (T 64512 (Spec.column c ch)) ∧
    a.lookup1DHalfDomain .nan ch = .ok (T 31745 (Spec.column c ch)) ∧
    (∀ x : K, 65520 ≤ x → a.lookup1DHalfDomain (.fin x) ch = .ok (T 31744 (Spec.column c ch))) ∧
    (∀ x : K, x ≤ -65520 → a.lookup1DHalfDomain (.fin x) ch = .ok (T 64512 (Spec.column c ch))) := by
  have l1 := h.lookup 31744 (by omega) ch
  have l2 := h.lookup 64512 (by omega) ch
  have l3 := h.lookup 31745 (by omega) ch
  have d1 := half_decode_inf (K := K) false
  have d2 := half_decode_inf (K := K) true
  simp only [Bool.false_eq_true, if_false, if_true] at d1 d2
  simp only [Arr.lookup1DHalfDomain, if_true, Arr.lookup1DHalfDomainInterpolated]
  refine ⟨?_, ?_, ?_, ?_, ?_⟩
  · have e : half.encode (.inf false : Flt K) = 31744 := rfl
    rw [e, d1]
    simpa [Flt.lt_inf_fin] using l1
  · have e : half.encode (.inf true : Flt K) = 64512 := rfl
    rw [e, d2]
    simpa [Flt.lt_inf_fin] using l2
  · rw [half_decode_nan]; exact l3
  · intro x hx
    have hx0 : ¬ x < 0 := by intro h; linarith
    rw [half_overflow x (by rw [abs_of_nonneg (not_lt.mp hx0)]; exact hx), if_neg hx0, d1]
    simp only [Flt.lt_fin, decide_eq_true_eq, hx0, if_false]
    exact l1
  · intro x hx
    have hx0 : x < 0 := by linarith
    rw [half_overflow x (by rw [abs_of_neg hx0]; linarith), if_pos hx0, d2]
    simp only [Flt.lt_fin, decide_eq_true_eq, hx0, if_true]
    exact l2

/-- C19: a finite input below the overflow threshold gives a blend of the rows of two
neighbouring patterns on its own side of zero, the same blend in every channel, that
reproduces the input from the values of the two patterns. -/
theorem C19_adjacent {c : ℕ} (a : Arr K) (T : Fin 65536 → Fin (c + 1) → Flt K)
    (V : ℕ → Fin (c + 1) → K) (h : HalfTable a T V) (x : K) (hx : |x| < 65520) :
    ∃ (i j : ℕ) (w : K), Spec.halfNeighbours i j ∧ (i < 32768 ↔ 0 ≤ x) ∧ 0 ≤ w ∧ w ≤ 1 ∧
      (∀ ch, a.lookup1DHalfDomain (.fin x) ch
        = .ok (.fin ((1 - w) * V i (Spec.column c ch) + w * V j (Spec.column c ch)))) ∧
      (|x| ≤ 65504 → x = (1 - w) * Spec.halfValue i + w * Spec.halfValue j) := by
  obtain ⟨i, j, w, hn, _, h0, h1, hs, _, hl, hv, _⟩ := halfLookup_core h x hx
  exact ⟨i, j, w, hn, hs, h0, by linarith, hl, hv⟩

/-- C19: hence between the smallest and the largest finite row. -/
theorem C19_bounded {c : ℕ} (a : Arr K) (T : Fin 65536 → Fin (c + 1) → Flt K)
    (V : ℕ → Fin (c + 1) → K) (h : HalfTable a T V) (lo hi : K) (ch : ℕ)
    (hV : ∀ n, Spec.halfFinite n → lo ≤ V n (Spec.column c ch) ∧ V n (Spec.column c ch) ≤ hi)
    (x : K) (hx : |x| < 65520) :
    ∃ y, a.lookup1DHalfDomain (.fin x) ch = .ok (.fin y) ∧ lo ≤ y ∧ y ≤ hi := by
  obtain ⟨i, j, w, hn, _, h0, h1, hl, _⟩ := C19_adjacent a T V h x hx
  obtain ⟨a1, a2⟩ := hV i hn.1
  obtain ⟨b1, b2⟩ := hV j hn.2.1
  refine ⟨_, hl ch, ?_, ?_⟩ <;> nlinarith

/-- `b` is a half-domain LUT1D node without index map or cubic interpolation. -/
structure HalfLut (b : Base K) (din : AVal) (a : Arr K) : Prop where
  inDepth : b.attrs.get? "inBitDepth" = some din
  outDepth : (b.attrs.get? "outBitDepth").isSome
  linear : b.styleOf "interpolation" ≠ .str "cubic"
  halfDomain : b.flag "halfDomain" = true
  noMaps : b.indexMaps = []
  array : b.array = .ok a

/-- C19: the node looks each colour channel of each pixel up, after scaling by the
input depth; other channels are returned as they are. -/
theorem C19_node (A : Arith K) (hA : A.Exact) (b : Base K) (din : AVal) (a : Arr K)
    (h : HalfLut b din a) (F : ℕ → Flt K → Flt K) (stride : ℕ) (hs : 0 < stride)
    (pixels : List (List (Flt K))) (hp : ∀ p ∈ pixels, p.length = stride)
    (hF : ∀ p ∈ pixels, ∀ i (hi : i < p.length), i < 3 →
      a.lookup1DHalfDomain (Spec.convert (some din) none p[i]) i
        = .ok (F i (Spec.convert (some din) none p[i]))) :
    ∃ r, lut1dProcess A b pixels.flatten stride = .ok r ∧
      r.out = (pixels.map (Spec.mapColour fun i x => F i (Spec.convert (some din) none x))).flatten := by
  obtain ⟨v2, e2⟩ : ∃ v, b.attrE "outBitDepth" = .ok v := by
    obtain ⟨v, hv⟩ := Option.isSome_iff_exists.mp h.outDepth
    exact ⟨some v, by simp [Base.attrE, Dict.getE, hv]⟩
  have e1 : b.attrE "inBitDepth" = .ok (some din) := by
    simp [Base.attrE, Dict.getE, h.inDepth]
  have hconv : ∀ x : Flt K, bitDepthToNormalized x (some din) = Spec.convert (some din) none x := by
    intro x
    cases x <;> simp [Spec.convert, bitDepthSize_eq_fullScale, Spec.fullScale, Spec.bits]
  unfold lut1dProcess
  simp only [e1, e2, h.array, py_ok_bind, if_neg h.linear, h.halfDomain, h.noMaps, if_true]
  rw [viewLoop_pixels stride hs _ (Spec.mapColour fun i x => F i (Spec.convert (some din) none x))
    pixels hp]
  · exact ⟨_, rfl, rfl⟩
  · intro p hp'
    rw [chanLoop_ok _ _ (fun i x => F i (Spec.convert (some din) none x)) p (by omega)]
    · unfold Spec.mapColour
      congr 1
      apply List.ext_getElem (by simp)
      intro i h1 h2
      have : i < p.length := by simpa using h2
      simp [this]
    · intro i hi hi'
      simp only [lutNormalize, List.length_nil, Nat.not_lt_zero, if_false, py_pure, py_ok_bind, hA _,
        hconv]
      rw [hF p hp' i (by omega) (by omega)]
      rfl
  · intro p hp'
    simp [Spec.mapColour, hp p hp']

/-- The identity half-domain LUT node, and its table. -/
theorem halfIdentity_table (id tid inD outD rawHalfs : AVal) (c : ℕ) (hc : c = 0 ∨ c = 2) :
    ∃ b a, simpleSampledLUTHalfDomain id tid (c + 1) (fun x : Flt K => .ok x) rawHalfs inD outD
        = .ok b ∧ HalfLut b inD a ∧
      HalfTable a (fun n (_ : Fin (c + 1)) => half.decode (n : ℕ)) (fun n _ => Spec.halfValue n) := by
  have hrow : ∀ N : ℕ, (List.range N).mapM (fun (i : ℕ) => do
      let v ← (fun x : Flt K => (.ok x : Py (Flt K))) (half.decode i)
      pure (List.replicate (c + 1) v))
      = .ok (List.ofFn fun k : Fin N => List.ofFn fun _ : Fin (c + 1) =>
          (half.decode (k : ℕ) : Flt K)) := by
    intro N
    apply range_mapM_ofFn N
    intro i
    simp only [py_ok_bind, py_pure, List.ofFn_const]
  have hlen : ∀ N : ℕ, (List.ofFn fun k : Fin N => List.ofFn fun _ : Fin (c + 1) =>
          (half.decode (k : ℕ) : Flt K)).flatten.length = N * (c + 1) := by
    intro N
    rw [List.length_flatten, List.map_ofFn]
    simp [Function.comp_def]
  have hdiv : ∀ N : ℕ, pyDivNat (N * (c + 1)) (c + 1) = .ok N := by
    intro N
    simp [pyDivNat]
  have h1 := hrow 65536
  have h2 := hlen 65536
  obtain ⟨R, hR⟩ : ∃ R, (List.ofFn fun k : Fin 65536 => List.ofFn fun _ : Fin (c + 1) =>
          (half.decode (k : ℕ) : Flt K)) = R := ⟨_, rfl⟩
  rw [hR] at h1 h2
  unfold simpleSampledLUTHalfDomain
  rw [h1]
  simp only [py_ok_bind, lut1dSetArray, h2]
  rw [hdiv]
  simp only [py_ok_bind, py_pure]
  have hfacts : ∃ b0 : Base K, newLut1d inD outD id tid (.str "linear") rawHalfs (.bool true) = b0 ∧
      b0.elements = [] ∧ b0.attrs.get? "inBitDepth" = some inD ∧
      (b0.attrs.get? "outBitDepth").isSome ∧ b0.attrs.get? "interpolation" = some (.str "linear") ∧
      b0.attrs.get? "halfDomain" = some (.bool true) := by
    refine ⟨_, rfl, ?_⟩
    by_cases hr : rawHalfs = .str ""
    · subst hr; exact ⟨rfl, rfl, rfl, rfl, rfl⟩
    · simp [newLut1d, Base.setUnlessEmpty, Base.setAttribute, newBase, Dict.set, Dict.get?, hr]
  obtain ⟨b0, hb0, he, hin, hout, hi, hh⟩ := hfacts
  rw [hb0]
  refine ⟨_, ⟨[65536, c + 1], R.flatten, bitDepthIsInteger (b0.attrs.get? "outBitDepth"),
    b0.flag "rawHalfs", "string"⟩, rfl, ⟨hin, hout, ?_, ?_, ?_, ?_⟩, ⟨[], rfl⟩,
    (?_ : R.flatten = _), hc, ?_⟩
  · simp [Base.styleOf, Base.addElement, hi]
  · simp [Base.flag, Base.addElement, hh]
  · simp [Base.indexMaps, Base.addElement, he]
  · simp only [Base.array, arraysOf, Base.addElement, he, List.nil_append,
      List.filterMap_cons, List.filterMap_nil, List.getLast?_singleton]
  · rw [← hR]; unfold Spec.rowMajor; rfl
  · intro n hn j
    exact half_decode n hn

/-- C20: the half-domain LUT sampled from the identity returns every pixel whose
scaled colour values are within ±65504 as it is (scaled by the input depth), and
saturates at ±65504 below the overflow threshold. -/
theorem C20_identity (A : Arith K) (hA : A.Exact) (id tid inD outD rawHalfs : AVal) (c : ℕ)
    (hc : c = 0 ∨ c = 2) :
    ∃ b, simpleSampledLUTHalfDomain id tid (c + 1) (fun x : Flt K => .ok x) rawHalfs inD outD = .ok b ∧
      ∀ (stride : ℕ), 0 < stride → ∀ pixels : List (List K), (∀ p ∈ pixels, p.length = stride) →
        (∀ p ∈ pixels, ∀ x ∈ p, |x / Spec.fullScale (some inD)| < 65520) →
        ∃ r, lut1dProcess A b (pixels.map fun p => p.map Flt.fin).flatten stride = .ok r ∧
          r.out = (pixels.map fun p => (Spec.mapColour
            (fun _ x => min 65504 (max (-65504) (x / Spec.fullScale (some inD)))) p).map
              Flt.fin).flatten := by
  obtain ⟨b, a, hb, hl, ht⟩ := halfIdentity_table (K := K) id tid inD outD rawHalfs c hc
  refine ⟨b, hb, fun stride hs pixels hp hx => ?_⟩
  have key : ∀ (x : K) (ch : ℕ), |x| < 65520 → a.lookup1DHalfDomain (.fin x) ch
      = .ok (.fin (min 65504 (max (-65504) x))) := by
    intro x ch hx
    obtain ⟨i, j, w, hnb, _, h0, h1, hs, _, hl, hv, hbig⟩ := halfLookup_core ht x hx
    rw [hl ch]
    refine congrArg (fun z => Except.ok (Flt.fin z)) ?_
    rcases le_or_gt |x| 65504 with h | h
    · rw [← hv h]
      obtain ⟨h2, h3⟩ := abs_le.mp h
      rw [max_eq_right h2, min_eq_right h3]
    · obtain ⟨h2, h3⟩ := hbig h.le
      rw [h3]
      simp only [sub_zero, one_mul, zero_mul, add_zero]
      -- the sign of the row is that of `x`
      rcases le_or_gt 0 x with hp | hn
      · have hi := hs.mpr hp
        have hnn : (0 : K) ≤ Spec.halfValue i := by
          have := (halfFinite_iff i).mp hnb.1
          rw [← half_magVal i (by omega)]; exact Fmt.magVal_nonneg _ _
        rw [abs_of_nonneg hnn] at h2
        rw [abs_of_nonneg hp] at h
        rw [h2, max_eq_right (by linarith), min_eq_left h.le]
      · have hi : ¬ i < 32768 := fun h' => absurd (hs.mp h') (not_le.mpr hn)
        have hnn : (Spec.halfValue i : K) ≤ 0 := by
          have := (halfFinite_iff i).mp hnb.1
          obtain ⟨q, rfl⟩ := Nat.exists_eq_add_of_le (not_lt.mp hi)
          rw [halfValue_neg q (by omega), ← half_magVal q (by omega)]
          have := Fmt.magVal_nonneg (K := K) half q
          linarith
        rw [abs_of_nonpos hnn] at h2
        rw [abs_of_neg hn] at h
        rw [max_eq_left (by linarith), min_eq_right (by norm_num)]
        linarith
  have hfs : (Spec.fullScale none : K) = 1 := rfl
  obtain ⟨r, hr, ho⟩ := C19_node A hA b inD a hl
    (fun _ y => match y with
      | .fin x => .fin (min 65504 (max (-65504) x))
      | y => y) stride hs
    (pixels.map fun p => p.map Flt.fin) (by
      intro p hp'
      obtain ⟨q, hq, rfl⟩ := List.mem_map.mp hp'
      simpa using hp q hq) (by
      intro p hp' i hi hi3
      obtain ⟨q, hq, rfl⟩ := List.mem_map.mp hp'
      have hi' : i < q.length := by simpa using hi
      simp only [List.getElem_map, convert_fin, hfs, mul_one]
      exact key _ i (hx q hq _ (List.getElem_mem hi')))
  refine ⟨r, hr, ?_⟩
  rw [ho, List.map_map]
  refine congrArg List.flatten (List.map_congr_left ?_)
  intro p hp'
  apply List.ext_getElem (by simp [Spec.mapColour])
  intro i h1 h2
  simp only [Function.comp, Spec.mapColour, List.getElem_mapIdx, List.getElem_map, convert_fin,
    hfs, mul_one]
  split_ifs with hi <;> rfl

/-! ### Instances -/

/-- The hypotheses of C18 and C19 are met by the table of the identity LUT, and by
inputs between halves. -/
example : ∃ a : Arr ℚ, HalfTable a (fun n (_ : Fin 1) => half.decode (n : ℕ))
    (fun n _ => Spec.halfValue n) := by
  obtain ⟨_, a, _, _, h⟩ := halfIdentity_table (K := ℚ) (.str "") (.str "") (.str "16f") (.str "16f")
    (.str "") 0 (.inl rfl)
  exact ⟨a, h⟩

example : Spec.halfFinite 15360 ∧ (Spec.halfValue 15360 : ℚ) = 1 ∧
    (Spec.halfValue 15361 : ℚ) = 1 + 1 / 1024 ∧ (Spec.halfValue 32769 : ℚ) = -1 / 2 ^ 24 := by
  refine ⟨by unfold Spec.halfFinite; omega, ?_, ?_, ?_⟩ <;> norm_num [Spec.halfValue]

end CLF
