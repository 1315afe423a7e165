import Verif.Lemmas.RoundedHalf
import Verif.Props.HalfDomain
import Verif.Props.RoundedLut1d

set_option linter.unusedSectionVars false

/-! # Property C130: half-domain LUTs in IEEE arithmetic -/

namespace CLF

variable {K : Type} [Field K] [LinearOrder K] [IsStrictOrderedRing K] [FloorRing K]

/-- The lookup at infinities and NaN and at what overflows to them. -/
theorem halfR_special (R : Rounding K) (t : Fmt) {c : ℕ} {a : Arr K} {T : Fin 65536 → Fin (c + 1) → Flt K}
    {V : ℕ → Fin (c + 1) → K} (h : HalfTable a T V) (ch : ℕ) :
    a.lookup1DHalfDomainInterpolatedR R t (.inf false) ch = .ok (T 31744 (Spec.column c ch)) ∧
    a.lookup1DHalfDomainInterpolatedR R t (.inf true) ch = .ok (T 64512 (Spec.column c ch)) ∧
    a.lookup1DHalfDomainInterpolatedR R t .nan ch = .ok (T 31745 (Spec.column c ch)) ∧
    (∀ x : K, 65520 ≤ x → a.lookup1DHalfDomainInterpolatedR R t (.fin x) ch = .ok (T 31744 (Spec.column c ch))) ∧
    (∀ x : K, x ≤ -65520 → a.lookup1DHalfDomainInterpolatedR R t (.fin x) ch = .ok (T 64512 (Spec.column c ch))) := by
  have d1 := half_decode_inf (K := K) false
  have d2 := half_decode_inf (K := K) true
  simp only [Bool.false_eq_true, if_false, if_true] at d1 d2
  have l1 := h.lookup 31744 (by norm_num) ch
  have l2 := h.lookup 64512 (by norm_num) ch
  have l3 := h.lookup 31745 (by norm_num) ch
  have e1 : half.encode (Flt.inf false : Flt K) = 31744 := rfl
  have e2 : half.encode (Flt.inf true : Flt K) = 64512 := rfl
  unfold Arr.lookup1DHalfDomainInterpolatedR
  refine ⟨?_, ?_, ?_, ?_, ?_⟩
  · simp only [e1, d1]
    exact l1
  · simp only [e2, d2]
    exact l2
  · simp only [half_decode_nan]
    exact l3
  · intro x hx
    have hx0 : ¬ x < 0 := by linarith
    simp only [half_overflow x (by rw [abs_of_nonneg (by linarith)]; exact hx), if_neg hx0, d1, Flt.lt_fin, decide_eq_true_eq]
    exact l1
  · intro x hx
    have hx0 : x < 0 := by linarith
    simp only [half_overflow x (by rw [abs_of_neg hx0]; linarith), if_pos hx0, d2, Flt.lt_fin, decide_eq_true_eq]
    exact l2

/-- The node, for any rounding, in terms of what a lookup gives. -/
theorem halfR_node (R : Rounding K) (t : Fmt) (b : Base K) (din : AVal) (a : Arr K) (h : HalfLut b din a)
    (F : ℕ → Flt K → Flt K) (stride : ℕ) (hs : 0 < stride)
    (pixels : List (List (Flt K))) (hp : ∀ p ∈ pixels, p.length = stride)
    (hF : ∀ p ∈ pixels, ∀ x ∈ p, ∀ i, a.lookup1DHalfDomainInterpolatedR R t (R single (toUnitR R x (some din))) i
      = .ok (F i (R single (toUnitR R x (some din))))) :
    ∃ r, lut1dProcessR R t b pixels.flatten stride = .ok r ∧
      r.out = (pixels.map (Spec.mapColour fun i x => R single (F i (R single (toUnitR R x (some din)))))).flatten := by
  obtain ⟨v2, e2⟩ : ∃ v, b.attrE "outBitDepth" = .ok v := by
    obtain ⟨v, hv⟩ := Option.isSome_iff_exists.mp h.outDepth
    exact ⟨some v, by simp [Base.attrE, Dict.getE, hv]⟩
  have e1 : b.attrE "inBitDepth" = .ok (some din) := by
    simp [Base.attrE, Dict.getE, h.inDepth]
  unfold lut1dProcessR
  simp only [e1, e2, h.array, py_ok_bind, if_neg h.linear, h.halfDomain, h.noMaps, if_true]
  rw [viewLoop_pixels stride hs _ (Spec.mapColour fun i x => R single (F i (R single (toUnitR R x (some din)))))
    pixels hp]
  · exact ⟨_, rfl, rfl⟩
  · intro p hp'
    rw [chanLoop_ok _ _ (fun i x => R single (F i (R single (toUnitR R x (some din))))) p (by omega)]
    · unfold Spec.mapColour
      congr 1
      apply List.ext_getElem (by simp)
      intro i h1 h2
      have : i < p.length := by simpa using h2
      simp [this]
    · intro i hi _
      simp only [lutNormalizeR, List.length_nil, Nat.not_lt_zero, if_false, py_pure, py_ok_bind]
      rw [hF p hp' _ (List.getElem_mem _) i]
      rfl
  · intro p hp'
    simp [Spec.mapColour, hp p hp']

/-- C130: a half-domain 1D LUT of `float32` entries in IEEE arithmetic.  The node maps each colour channel of
each pixel.  A finite value of `float32` is divided by full scale, giving `p`, which is the value itself for
floating-point depths.  If `p` is within the range of halves the result is a value of `float32`
that is exactly the entry of a half if `p` is that half (the sign of zero aside), and otherwise is within
`max(|v1|, |v2|) / 2^23 + 2^-148` of the exact interpolation between the entries `v1` and `v2` of the two
halves around `p`; it lies between them if they are 0 or at least `2^-124` in size.  Infinities, NaN and
what is beyond the range of halves pick their own entries. -/
theorem C130_half (t : Fmt) (ht : t = half ∨ t = single ∨ t = double) (b : Base K) (din : AVal) (a : Arr K)
    (h : HalfLut b din a) {c : ℕ} (T : Fin 65536 → Fin (c + 1) → Flt K) (V : ℕ → Fin (c + 1) → K) (hT : HalfTable a T V)
    (hV : ∀ n, Spec.halfFinite n → ∀ j, Spec.IsSingle (V n j)) (stride : ℕ) (hs : 0 < stride)
    (pixels : List (List (Flt K))) (hp : ∀ p ∈ pixels, p.length = stride) (hx : ∀ p ∈ pixels, ∀ x, .fin x ∈ p → Spec.IsSingle x) :
    ∃ (r : Res K) (F : ℕ → Flt K → Flt K), lut1dProcessR ieee t b pixels.flatten stride = .ok r ∧
      r.out = (pixels.map (Spec.mapColour F)).flatten ∧
      (∀ ch, F ch (.inf false) = ieee single (T 31744 (Spec.column c ch)) ∧
        F ch (.inf true) = ieee single (T 64512 (Spec.column c ch)) ∧ F ch .nan = ieee single (T 31745 (Spec.column c ch))) ∧
      ∀ x, Spec.IsSingle x → ∃ p, Spec.IsSingle p ∧ ((Spec.fullScale (some din) : K) = 1 → p = x) ∧
        |p - x / Spec.fullScale (some din)| ≤ |x / Spec.fullScale (some din)| * (9 / 8 * (1 / 2 ^ 24)) + 2 ^ (-148 : ℤ) ∧
        (65520 ≤ p → ∀ ch, F ch (.fin x) = ieee single (T 31744 (Spec.column c ch))) ∧
        (p ≤ -65520 → ∀ ch, F ch (.fin x) = ieee single (T 64512 (Spec.column c ch))) ∧
        (|p| < 65520 → ∃ (i j : ℕ) (w : K), Spec.halfNeighbours i j ∧ (i < 32768 ↔ 0 ≤ p) ∧ 0 ≤ w ∧ w ≤ 1 / 2 ∧
          (|p| ≤ 65504 → p = (1 - w) * Spec.halfValue i + w * Spec.halfValue j) ∧
          (65504 ≤ |p| → |(Spec.halfValue i : K)| = 65504 ∧ w = 0) ∧
          ∀ ch, ∃ y, F ch (.fin x) = .fin y ∧ Spec.IsSingle y ∧
            (∀ n, Spec.halfFinite n → n ≠ 32768 → p = Spec.halfValue n → y = V n (Spec.column c ch)) ∧
            |y - ((1 - w) * V i (Spec.column c ch) + w * V j (Spec.column c ch))|
              ≤ max |V i (Spec.column c ch)| |V j (Spec.column c ch)| / 2 ^ 23 + 2 ^ (-148 : ℤ) ∧
            ((∀ k, k = i ∨ k = j → V k (Spec.column c ch) = 0 ∨ 2 ^ (-124 : ℤ) ≤ |V k (Spec.column c ch)|) →
              min (V i (Spec.column c ch)) (V j (Spec.column c ch)) ≤ y ∧
              y ≤ max (V i (Spec.column c ch)) (V j (Spec.column c ch)))) := by
  have hfs : (0 : K) < Spec.fullScale (some din) := fullScale_pos _
  have hW := wider_single ht
  -- what a lookup gives
  obtain ⟨F, hF⟩ : ∃ F : ℕ → Flt K → Flt K, ∀ i q, a.lookup1DHalfDomainInterpolatedR ieee t q i = .ok (F i q) ∨
      ∃ x, q = .fin x ∧ ¬ Spec.IsSingle x := by
    have : ∀ i q, ∃ y, a.lookup1DHalfDomainInterpolatedR ieee t q i = .ok y ∨ ∃ x, q = .fin x ∧ ¬ Spec.IsSingle x := by
      intro i q
      obtain ⟨s1, s2, s3, s4, s5⟩ := halfR_special ieee t hT i
      match q with
      | .nan => exact ⟨_, .inl s3⟩
      | .inf false => exact ⟨_, .inl s1⟩
      | .inf true => exact ⟨_, .inl s2⟩
      | .fin x =>
        by_cases hx : Spec.IsSingle x
        · rcases le_or_gt 65520 x with h1 | h1
          · exact ⟨_, .inl (s4 x h1)⟩
          · rcases le_or_gt x (-65520) with h2 | h2
            · exact ⟨_, .inl (s5 x h2)⟩
            · obtain ⟨_, _, _, _, _, _, _, _, _, hl, _⟩ := halfR_core ht hT hV hx (abs_lt.mpr ⟨h2, h1⟩)
              exact ⟨_, .inl (hl i)⟩
        · exact ⟨.nan, .inr ⟨x, rfl, hx⟩⟩
    choose F hF using this
    exact ⟨F, hF⟩
  have hspec : ∀ v : Flt K, (∀ x, v ≠ .fin x) → ieee single (toUnitR ieee v (some din)) = v := by
    intro v hv
    cases v with
    | fin x => exact absurd rfl (hv x)
    | inf s =>
      have e1 : ieee single (Flt.inf s : Flt K) = .inf s := Fmt.round_inf single s
      have e2 : ieee double (Flt.inf s : Flt K) = .inf s := Fmt.round_inf double s
      rcases toUnitR_cases ieee (Flt.inf s : Flt K) (some din) with ⟨e, _⟩ | ⟨e, _⟩
      · rw [e, show (Flt.inf s : Flt K) / .fin (Spec.fullScale (some din)) = .inf s by
          show Flt.div _ _ = _
          simp [Flt.div, not_lt.mpr hfs.le], e2, e1]
      · rw [e, e1]
    | nan =>
      have e1 : ieee single (Flt.nan : Flt K) = .nan := Fmt.round_nan single (by decide)
      have e2 : ieee double (Flt.nan : Flt K) = .nan := Fmt.round_nan double (by decide)
      rcases toUnitR_cases ieee (Flt.nan : Flt K) (some din) with ⟨e, _⟩ | ⟨e, _⟩
      · rw [e, show (Flt.nan : Flt K) / .fin (Spec.fullScale (some din)) = .nan from rfl, e2, e1]
      · rw [e, e1]
  obtain ⟨r, hr, ho⟩ := halfR_node ieee t b din a h F stride hs pixels hp (by
    intro p hp' v hv i
    rcases hF i (ieee single (toUnitR ieee v (some din))) with h1 | ⟨x, hx1, hx2⟩
    · exact h1
    · exfalso
      cases v with
      | fin y =>
        obtain ⟨q, hq, hqs, _⟩ := unit_pos (some din) (hx p hp' y hv)
        have e := Flt.fin.inj (hq.symm.trans hx1)
        rw [e] at hqs
        exact hx2 hqs
      | inf s =>
        rw [hspec _ (by intro x hx; cases hx)] at hx1
        cases hx1
      | nan =>
        rw [hspec _ (by intro x hx; cases hx)] at hx1
        cases hx1)
  have hF' : ∀ i q y, (∀ x, q = .fin x → Spec.IsSingle x) → a.lookup1DHalfDomainInterpolatedR ieee t q i = .ok y → F i q = y := by
    intro i q y hq hy
    rcases hF i q with h1 | ⟨x, hx1, hx2⟩
    · exact Except.ok.inj (h1.symm.trans hy)
    · exact absurd (hq x hx1) hx2
  refine ⟨r, _, hr, ho, fun ch => ?_, fun x hxs => ?_⟩
  · obtain ⟨s1, s2, s3, _⟩ := halfR_special ieee t hT ch
    refine ⟨?_, ?_, ?_⟩
    · simp only [hspec (.inf false) (by intro x hx; cases hx)]
      rw [hF' ch _ _ (by intro x hx; cases hx) s1]
    · simp only [hspec (.inf true) (by intro x hx; cases hx)]
      rw [hF' ch _ _ (by intro x hx; cases hx) s2]
    · simp only [hspec .nan (by intro x hx; cases hx)]
      rw [hF' ch _ _ (by intro x hx; cases hx) s3]
  · obtain ⟨p, hpe, hps, _, _, _, _, herr⟩ := unit_pos (some din) hxs
    have hsg : ∀ x', (Flt.fin p : Flt K) = .fin x' → Spec.IsSingle x' := fun x' e => Flt.fin.inj e ▸ hps
    refine ⟨p, hps, fun h1 => ?_, herr, fun hbig ch => ?_, fun hbig ch => ?_, fun hlt => ?_⟩
    · rcases toUnitR_cases ieee (Flt.fin x) (some din) with ⟨_, h255⟩ | ⟨e, _⟩
      · rw [h1] at h255
        norm_num at h255
      · rw [e, show ieee single (Flt.fin x) = Flt.fin x from hxs] at hpe
        exact (Flt.fin.inj hpe).symm
    · simp only [hpe]
      rw [hF' ch _ _ hsg ((halfR_special ieee t hT ch).2.2.2.1 p hbig)]
    · simp only [hpe]
      rw [hF' ch _ _ hsg ((halfR_special ieee t hT ch).2.2.2.2 p hbig)]
    · obtain ⟨i, j, w, hn, he, h0, h1, hs', hz, hl, hv, hb⟩ := halfR_core ht hT hV hps hlt
      refine ⟨i, j, w, hn, hs', h0, h1, hv, hb, fun ch => ?_⟩
      have s1 := hV i hn.1 (Spec.column c ch)
      have s2 := hV j hn.2.1 (Spec.column c ch)
      have hy := halfF_stored hW h0 h1 s1 s2
      refine ⟨_, ?_, isSingle_near hy, fun n hn' hn0 hpn => ?_, halfF_err hW h0 h1 (le_max_left _ _) (le_max_right _ _), fun hbig => ?_⟩
      · simp only [hpe]
        rw [hF' ch _ _ hsg (hl ch)]
        exact hy
      · have hin : i = n := by rw [← he, hpn]; exact half_encode_exact n hn' hn0
        subst hin
        rw [hz hpn]
        exact halfF_zero _ s1 _
      · have b1 := hbig i (.inl rfl)
        have b2 := hbig j (.inr rfl)
        constructor
        · rcases min_choice (V i (Spec.column c ch)) (V j (Spec.column c ch)) with e | e <;> rw [e]
          · exact le_halfF hW h0 h1 s1 b1 le_rfl (e ▸ min_le_right _ _)
          · exact le_halfF hW h0 h1 s2 b2 (e ▸ min_le_left _ _) le_rfl
        · rcases max_choice (V i (Spec.column c ch)) (V j (Spec.column c ch)) with e | e <;> rw [e]
          · exact halfF_le hW h0 h1 s1 b1 le_rfl (e ▸ le_max_right _ _)
          · exact halfF_le hW h0 h1 s2 b2 (e ▸ le_max_left _ _) le_rfl

theorem half_le {n : ℕ} (h : Spec.halfFinite n) : |(Spec.halfValue n : K)| ≤ 65504 := by
  have key : ∀ c : ℕ, c < 31744 → |(Spec.halfValue c : K)| ≤ 65504 := by
    intro c hc
    rw [← half_magVal c hc, abs_of_nonneg (Fmt.magVal_nonneg half c), ← half_top]
    exact (Fmt.magVal_strictMono (K := K) half).monotone (by omega)
  rcases (halfFinite_iff n).mp h with h | h
  · exact key n h
  · obtain ⟨p, rfl⟩ : ∃ p, n = 32768 + p := ⟨n - 32768, by omega⟩
    rw [halfValue_neg p (by omega), abs_neg]
    exact key p (by omega)

/-- Halves are numbers of `float32`. -/
theorem isSingle_half {n : ℕ} (h : Spec.halfFinite n) : Spec.IsSingle (Spec.halfValue n : K) := by
  have key : ∀ c : ℕ, c < 31744 → Spec.IsSingle (Spec.halfValue c : K) := by
    intro c hc
    rw [← half_magVal c hc]
    obtain ⟨e, k, he, hk, hek⟩ := half.exists_split c
    have e1 := Fmt.magVal_split (K := K) half e k hk.le hek
    have hb : (half.magVal c : K) ≤ 2 ^ 125 := by
      have := (Fmt.magVal_strictMono (K := K) half).monotone (show c ≤ 31744 by omega)
      rw [half_over] at this
      exact this.trans (by norm_num)
    rw [show half.mant = 10 from rfl] at he hk hek e1
    rw [← he, show half.bias = 15 from rfl] at e1
    have hn : single.near (half.magVal c : K) = half.magVal c := by
      rw [e1]
      have := Fmt.near_multiple (K := K) single k ((e : ℤ) + 1 - 15 - (10 : ℕ)) (by
        rw [single_mant, Nat.abs_cast]
        have : k < 2 ^ 24 := lt_of_lt_of_le hk (by norm_num)
        exact_mod_cast this.le) (by rw [single_mant, single_bias]; push_cast; omega)
      exact_mod_cast this
    have := single_fin (K := K) (x := half.magVal c) (by rwa [abs_of_nonneg (Fmt.magVal_nonneg half c)])
    rw [hn] at this
    exact this
  rcases (halfFinite_iff n).mp h with h | h
  · exact key n h
  · obtain ⟨p, rfl⟩ : ∃ p, n = 32768 + p := ⟨n - 32768, by omega⟩
    rw [halfValue_neg p (by omega)]
    exact isSingle_neg (key p (by omega))

/-- C130: the identity half-domain LUT keeps every half of an image of halves, and changes any other value
of `float32` up to 65504 by no more than the larger of the two halves around it times `2^-23`. -/
theorem C130_identity (t : Fmt) (ht : t = half ∨ t = single ∨ t = double) (id tid outD rawHalfs : AVal) (c : ℕ)
    (hc : c = 0 ∨ c = 2) : ∃ b, simpleSampledLUTHalfDomain id tid (c + 1) (fun x : Flt K => .ok x) rawHalfs (.str "16f") outD = .ok b ∧
      ∀ (stride : ℕ), 0 < stride → ∀ pixels : List (List K), (∀ p ∈ pixels, p.length = stride) →
        (∀ p ∈ pixels, ∀ x ∈ p, Spec.IsSingle x ∧ |x| ≤ 65504) →
        ∃ (r : Res K) (F : ℕ → Flt K → Flt K), lut1dProcessR ieee t b (pixels.map fun p => p.map Flt.fin).flatten stride = .ok r ∧
          r.out = (pixels.map fun p => Spec.mapColour F (p.map Flt.fin)).flatten ∧
          (∀ ch n, Spec.halfFinite n → F ch (.fin (Spec.halfValue n)) = .fin (Spec.halfValue n)) ∧
          ∀ ch x, Spec.IsSingle x → |x| ≤ 65504 → ∃ y, F ch (.fin x) = .fin y ∧ Spec.IsSingle y ∧
            ∃ i j, Spec.halfNeighbours i j ∧ min (Spec.halfValue i) (Spec.halfValue j) ≤ x ∧ x ≤ max (Spec.halfValue i) (Spec.halfValue j) ∧
              min (Spec.halfValue i) (Spec.halfValue j) ≤ y ∧ y ≤ max (Spec.halfValue i) (Spec.halfValue j) ∧
              |y - x| ≤ max |Spec.halfValue i| |Spec.halfValue j| / 2 ^ 23 + 2 ^ (-148 : ℤ) := by
  obtain ⟨b, a, hb, hl, hT⟩ := halfIdentity_table (K := K) id tid (.str "16f") outD rawHalfs c hc
  refine ⟨b, hb, fun stride hs pixels hp hx => ?_⟩
  have hfs : (Spec.fullScale (some (.str "16f")) : K) = 1 := by simp [Spec.fullScale, Spec.bits]
  obtain ⟨r, F, h1, h2, _, h4⟩ := C130_half t ht b (.str "16f") a hl _ _ hT (fun n hn _ => isSingle_half hn) stride hs
    (pixels.map fun p => p.map Flt.fin) (by
      intro p hp'
      obtain ⟨q, hq, rfl⟩ := List.mem_map.mp hp'
      simpa using hp q hq) (by
      intro p hp' x hx'
      obtain ⟨q, hq, rfl⟩ := List.mem_map.mp hp'
      obtain ⟨y, hy, e⟩ := List.mem_map.mp hx'
      exact Flt.fin.inj e ▸ (hx q hq y hy).1)
  have hbig : ∀ k : ℕ, Spec.halfFinite k → (Spec.halfValue k : K) = 0 ∨ 2 ^ (-124 : ℤ) ≤ |(Spec.halfValue k : K)| := by
    have key : ∀ c : ℕ, c < 31744 → (Spec.halfValue c : K) = 0 ∨ 2 ^ (-124 : ℤ) ≤ |(Spec.halfValue c : K)| := by
      intro c hc
      rw [← half_magVal c hc]
      rcases Nat.eq_zero_or_pos c with rfl | h0
      · exact .inl (Fmt.magVal_zero _)
      · right
        have e1 := (Fmt.magVal_strictMono (K := K) half).monotone (show 1 ≤ c from h0)
        have e2 : (half.magVal 1 : K) = 2 ^ (-24 : ℤ) := by
          rw [half_magVal 1 (by norm_num)]
          norm_num [Spec.halfValue]
        rw [e2] at e1
        rw [abs_of_nonneg (Fmt.magVal_nonneg half c)]
        exact (zpow_le_zpow_right₀ one_le_two (by norm_num)).trans e1
    intro k hk
    rcases (halfFinite_iff k).mp hk with h | h
    · exact key k h
    · obtain ⟨p, rfl⟩ : ∃ p, k = 32768 + p := ⟨k - 32768, by omega⟩
      rw [halfValue_neg p (by omega), abs_neg, neg_eq_zero]
      exact key p (by omega)
  refine ⟨r, F, h1, by rw [h2, List.map_map]; rfl, fun ch n hn => ?_, fun ch x hxs hxb => ?_⟩
  · obtain ⟨p, _, p2, _, _, _, p6⟩ := h4 _ (isSingle_half (K := K) hn)
    rw [p2 hfs] at p6
    have hle : |(Spec.halfValue n : K)| ≤ 65504 := half_le hn
    obtain ⟨i, j, w, hn', hs', w0, w1, hv, hb', hF⟩ := p6 (lt_of_le_of_lt hle (by norm_num))
    obtain ⟨y, y1, _, y3, _⟩ := hF ch
    rw [y1]
    by_cases h0 : n = 32768
    · subst h0
      have e0 := halfValue_neg (K := K) 0 (by norm_num)
      have ez : (Spec.halfValue 0 : K) = 0 := by rw [← half_magVal 0 (by norm_num), Fmt.magVal_zero]
      rw [y3 0 ((halfFinite_iff 0).mpr (by norm_num)) (by norm_num) (by rw [show (32768 : ℕ) = 32768 + 0 from rfl, e0, ez, neg_zero]),
        show (32768 : ℕ) = 32768 + 0 from rfl, e0, ez, neg_zero]
    · rw [y3 n hn h0 rfl]
  · obtain ⟨p, _, p2, _, _, _, p6⟩ := h4 x hxs
    rw [p2 hfs] at p6
    obtain ⟨i, j, w, hn, _, w0, w1, hv, _, hF⟩ := p6 (lt_of_le_of_lt hxb (by norm_num))
    obtain ⟨y, y1, y2, _, y4, y5⟩ := hF ch
    obtain ⟨y6, y7⟩ := y5 (by
      rintro k (rfl | rfl)
      · exact hbig _ hn.1
      · exact hbig _ hn.2.1)
    have hxe := hv hxb
    refine ⟨y, y1, y2, i, j, hn, ?_, ?_, y6, y7, by rw [← hxe] at y4; exact y4⟩
    · have a1 := min_le_left (Spec.halfValue i : K) (Spec.halfValue j)
      have a2 := min_le_right (Spec.halfValue i : K) (Spec.halfValue j)
      have a3 := mul_le_mul_of_nonneg_left a1 (show 0 ≤ 1 - w by linarith)
      have a4 := mul_le_mul_of_nonneg_left a2 w0
      rw [hxe]
      linarith
    · have a1 := le_max_left (Spec.halfValue i : K) (Spec.halfValue j)
      have a2 := le_max_right (Spec.halfValue i : K) (Spec.halfValue j)
      have a3 := mul_le_mul_of_nonneg_left a1 (show 0 ≤ 1 - w by linarith)
      have a4 := mul_le_mul_of_nonneg_left a2 w0
      rw [hxe]
      linarith

/-- A table with one column. -/
def constHalf (T : Fin 65536 → Fin 1 → Flt K) : Arr K := { dims := [65536, 1], values := Spec.rowMajor T }

theorem constTable (v : K) (T : Fin 65536 → Fin 1 → Flt K) (hv : ∀ n j, T n j = .fin v) :
    HalfTable (c := 0) (constHalf T) T (fun _ _ => v) where
  dims := ⟨[], by simp only [constHalf]⟩
  values := by simp only [constHalf]
  columns := .inl rfl
  finite := fun n _ j => hv n j

theorem exists_const (v : K) : ∃ T : Fin 65536 → Fin 1 → Flt K, ∀ n j, T n j = .fin v := ⟨fun _ _ => .fin v, fun _ _ => rfl⟩

/-- C130: the bound from below on entries is needed.  A table all of whose entries are the subnormal
number `3 * 2^-149` gives `4 * 2^-149` half-way between 0 and the next half. -/
theorem C130_subnormal_false : ∃ (a : Arr ℚ) (T : Fin 65536 → Fin 1 → Flt ℚ) (v x y : ℚ), HalfTable (c := 0) a T (fun _ _ => v) ∧
    Spec.IsSingle v ∧ Spec.IsSingle x ∧ |x| ≤ 65504 ∧ a.lookup1DHalfDomainInterpolatedR ieee single (.fin x) 0 = .ok (.fin y) ∧
    ieee single (.fin y) = .fin (4 * 2 ^ (-149 : ℤ)) ∧ v = 3 * 2 ^ (-149 : ℤ) := by
  have hx : Spec.IsSingle (2 ^ (-25 : ℤ) : ℚ) := by unfold Spec.IsSingle; decide +kernel
  have hv : Spec.IsSingle (3 * 2 ^ (-149 : ℤ) : ℚ) := by unfold Spec.IsSingle; decide +kernel
  have hxb : |(2 ^ (-25 : ℤ) : ℚ)| < 65520 := by norm_num
  obtain ⟨T, hTv⟩ := exists_const (3 * 2 ^ (-149 : ℤ) : ℚ)
  have hT := constTable _ T hTv
  obtain ⟨i, j, w, hn, he, h0, h1, _, _, hl, hvx, _⟩ := halfR_core (.inr (.inl rfl)) hT (fun _ _ _ => hv) hx hxb
  have hi : i = 0 := by rw [← he]; decide +kernel
  subst hi
  have ez : (Spec.halfValue 0 : ℚ) = 0 := by rw [← half_magVal 0 (by norm_num), Fmt.magVal_zero]
  have eo : (Spec.halfValue 1 : ℚ) = 2 ^ (-24 : ℤ) := by norm_num [Spec.halfValue]
  have hxe := hvx (by norm_num)
  have hj : j = 1 := by
    rcases Nat.lt_or_ge j 1 with h | h
    · obtain rfl : j = 0 := by omega
      rw [ez] at hxe
      norm_num at hxe
    · have := hn.2.2.2.2
      omega
  subst hj
  have hw : w = 1 / 2 := by
    rw [ez, eo] at hxe
    norm_num at hxe
    linarith
  subst hw
  exact ⟨_, T, _, _, _, hT, hv, hx, by norm_num, hl 0, by decide +kernel, rfl⟩

/-- C130 on a table that is constantly 1/4. -/
example : ∃ (b : Base ℚ) (r : Res ℚ), lut1dProcessR ieee half b [.fin (1 / 4), .fin 70000, .fin (-(1 / 2)), .inf true] 2 = .ok r ∧
    r.out = [.fin (1 / 4), .fin (1 / 4), .fin (1 / 4), .fin (1 / 4)] := by
  have q : Spec.IsSingle (1 / 4 : ℚ) := by unfold Spec.IsSingle; decide +kernel
  obtain ⟨T, hTv⟩ := exists_const (1 / 4 : ℚ)
  have hT := constTable _ T hTv
  let b : Base ℚ := { attrs := [("inBitDepth", .str "16f"), ("outBitDepth", .str "16f"), ("interpolation", .str "linear"), ("halfDomain", .str "true")]
                      elements := [.array (constHalf T)] }
  have hb : HalfLut b (.str "16f") (constHalf T) :=
    ⟨rfl, rfl, by simp [b, Base.styleOf, Dict.get?], rfl, rfl, rfl⟩
  obtain ⟨r, F, h1, h2, h3, h4⟩ := C130_half half (.inl rfl) b _ _ hb T _ hT (fun _ _ _ => q) 2 (by norm_num)
    [[.fin (1 / 4), .fin 70000], [.fin (-(1 / 2)), .inf true]] (by simp) (by
      intro p hp x hx
      simp at hp
      rcases hp with rfl | rfl <;> simp at hx
      · rcases hx with rfl | rfl <;> unfold Spec.IsSingle <;> decide +kernel
      · subst hx
        unfold Spec.IsSingle
        decide +kernel)
  have hfs : (Spec.fullScale (some (.str "16f")) : ℚ) = 1 := by simp [Spec.fullScale, Spec.bits]
  have hsm : ∀ x ch, Spec.IsSingle x → |x| < 65520 → F ch (.fin x) = .fin (1 / 4) := by
    intro x ch hx hb
    obtain ⟨p, _, p2, _, _, _, p6⟩ := h4 x hx
    rw [p2 hfs] at p6
    obtain ⟨i, j, w, _, _, _, _, _, _, hF⟩ := p6 hb
    obtain ⟨y, y1, _, _, _, y5⟩ := hF ch
    obtain ⟨y6, y7⟩ := y5 (fun _ _ => .inr (by norm_num))
    rw [y1]
    rw [min_self] at y6
    rw [max_self] at y7
    rw [le_antisymm y7 y6]
  have e4 : ieee single (.fin (1 / 4) : Flt ℚ) = .fin (1 / 4) := q
  refine ⟨b, r, h1, ?_⟩
  rw [h2]
  have s1 : Spec.IsSingle (-(1 / 2) : ℚ) := by unfold Spec.IsSingle; decide +kernel
  have s2 : Spec.IsSingle (70000 : ℚ) := by unfold Spec.IsSingle; decide +kernel
  obtain ⟨p, _, p2, _, p4, _⟩ := h4 70000 s2
  rw [p2 hfs] at p4
  have a1 := hsm (1 / 4) 0 q (by norm_num)
  have a2 := hsm (-(1 / 2)) 0 s1 (by rw [abs_neg]; norm_num)
  have a3 := (p4 (by norm_num) 1).trans ((congrArg _ (hTv _ _)).trans e4)
  have a4 := (h3 1).2.1.trans ((congrArg _ (hTv _ _)).trans e4)
  show [F 0 (.fin (1 / 4)), F 1 (.fin 70000), F 0 (.fin (-(1 / 2))), F 1 (.inf true)] = _
  rw [a1, a2, a3, a4]

end CLF
