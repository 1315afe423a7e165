import Verif.Lemmas.RoundedIndexMap
import Verif.Props.RoundedLut1d
import Mathlib.Data.List.Sort

set_option linter.unusedSectionVars false

/-! # Property C127: index maps in IEEE arithmetic -/

namespace CLF

variable {K : Type} [Field K] [LinearOrder K] [IsStrictOrderedRing K] [FloorRing K]

/-- The knots of an index map: increasing inputs, and outputs that are not negative and do not
decrease. -/
structure Spec.IndexKnots (xs ys : List K) : Prop where
  nonempty : xs ≠ []
  length : xs.length = ys.length
  inputs : ∀ x ∈ xs, Spec.IsDouble x ∧ |x| ≤ 2 ^ 500
  outputs : ∀ y ∈ ys, Spec.IsSingle y ∧ 0 ≤ y
  increasing : xs.Pairwise (· < ·)
  monotone : ys.Pairwise (· ≤ ·)

namespace Spec.IndexKnots

variable {xs ys : List K}

theorem pos (h : Spec.IndexKnots xs ys) : 0 < xs.length := List.length_pos_iff.mpr h.nonempty

theorem xlt (h : Spec.IndexKnots xs ys) {i j : ℕ} (hj : j < xs.length) (hij : i < j) : xs[i] < xs[j] :=
  List.pairwise_iff_getElem.mp h.increasing i j (by omega) hj hij

theorem xle (h : Spec.IndexKnots xs ys) {i j : ℕ} (hj : j < xs.length) (hij : i ≤ j) : xs[i] ≤ xs[j] := by
  rcases Nat.eq_or_lt_of_le hij with e | e
  · subst e; exact le_rfl
  · exact (h.xlt hj e).le

theorem yle (h : Spec.IndexKnots xs ys) {i j : ℕ} (hj : j < ys.length) (hij : i ≤ j) : ys[i] ≤ ys[j] := by
  rcases Nat.eq_or_lt_of_le hij with e | e
  · subst e; exact le_rfl
  · exact List.pairwise_iff_getElem.mp h.monotone i j (by omega) hj e

theorem segment (h : Spec.IndexKnots xs ys) {k : ℕ} (hk : k + 1 < xs.length) (hl : k + 1 < ys.length) :
    Segment xs[k] xs[k + 1] ys[k] ys[k + 1] where
  left := (h.inputs _ (List.getElem_mem _)).1
  right := (h.inputs _ (List.getElem_mem _)).1
  size := ⟨(h.inputs _ (List.getElem_mem _)).2, (h.inputs _ (List.getElem_mem _)).2⟩
  lt := h.xlt hk (by omega)
  low := (h.outputs _ (List.getElem_mem _)).1
  high := (h.outputs _ (List.getElem_mem _)).1
  nonneg := (h.outputs _ (List.getElem_mem _)).2
  le := h.yle hl (by omega)

end Spec.IndexKnots

/-- What is stored of an index map. -/
def mapStored (R : Rounding K) (dim : ℕ) (xs ys : List K) (x : Flt K) : Py (Flt K) :=
  (IndexMap.processR R ⟨dim, xs.map .fin, ys.map .fin⟩ x).map (R single)

/-- The regimes of an index map in IEEE arithmetic. -/
theorem mapStored_cases (dim : ℕ) {xs ys : List K} (h : Spec.IndexKnots xs ys) {x : K} (hx : Spec.IsSingle x) :
    have h0 := h.pos
    have hl := h.length
    (x ≤ xs[0] ∧ mapStored ieee dim xs ys (.fin x) = .ok (.fin ys[0])) ∨
    (xs[0] < x ∧ xs[xs.length - 1] ≤ x ∧ mapStored ieee dim xs ys (.fin x) = .ok (.fin ys[ys.length - 1])) ∨
    (xs[0] < x ∧ x < xs[xs.length - 1] ∧ ∃ (j : ℕ) (hj : j + 1 < xs.length), xs[j] < x ∧ x ≤ xs[j + 1] ∧
      mapStored ieee dim xs ys (.fin x) = .ok (.fin (single.near (segF xs[j] xs[j + 1] ys[j] ys[j + 1] x)))) := by
  intro h0 hl
  have hs : ∀ y ∈ ys, ieee single (.fin y) = .fin y := fun y hy => (h.outputs y hy).1
  rcases processR_cases ieee dim xs ys h.nonempty hl x with ⟨h1, e⟩ | ⟨h1, h2, e⟩ | ⟨h1, h2, j, hj, h3, h4, e⟩
  · exact .inl ⟨h1, by rw [mapStored, e]; exact congrArg Except.ok (hs _ (List.getElem_mem _))⟩
  · exact .inr (.inl ⟨h1, h2, by rw [mapStored, e]; exact congrArg Except.ok (hs _ (List.getElem_mem _))⟩)
  · refine .inr (.inr ⟨h1, h2, j, hj, h3, h4, ?_⟩)
    have S := h.segment hj (by omega)
    rw [mapStored, e, S.fin hx h3.le h4]
    exact congrArg Except.ok (S.stored hx h3.le h4).1

/-- C127: an index map in IEEE arithmetic.  Inputs that increase and are numbers of `float64`, outputs
that are numbers of `float32`, not negative and not decreasing: every number of `float32` gives a number of `float32`,
which is the first output at or below the first input, the last output at or above the last input,
the output of an input that it equals, and between two
inputs lies between their outputs and is within `2^-23` of the larger of them, plus `2^-150`, of the
exact interpolation. -/
theorem C127_map (dim : ℕ) {xs ys : List K} (h : Spec.IndexKnots xs ys) {x : K} (hx : Spec.IsSingle x) :
    have h0 := h.pos
    have hl := h.length
    ∃ y, mapStored ieee dim xs ys (.fin x) = .ok (.fin y) ∧ Spec.IsSingle y ∧
      (x ≤ xs[0] → y = ys[0]) ∧ (xs[xs.length - 1] ≤ x → y = ys[ys.length - 1]) ∧
      (∀ (k : ℕ) (hk : k < xs.length), x = xs[k] → y = ys[k]) ∧
      ∀ (k : ℕ) (hk : k + 1 < xs.length), xs[k] ≤ x → x ≤ xs[k + 1] → ys[k] ≤ y ∧ y ≤ ys[k + 1] ∧
        |y - Spec.affine xs[k] xs[k + 1] ys[k] ys[k + 1] x| ≤ ys[k + 1] / 2 ^ 23 + 2 ^ (-150 : ℤ) := by
  intro h0 hl
  have hμ := (two_zpow_pos (K := K) (-150)).le
  have hy0 : ∀ y ∈ ys, (0 : K) ≤ y / 2 ^ 23 + 2 ^ (-150 : ℤ) := fun y hy =>
    add_nonneg (div_nonneg (h.outputs y hy).2 (by positivity)) hμ
  have hm0 : ∀ {k : ℕ} (hk : k < ys.length), ys[k] ∈ ys := fun _ => List.getElem_mem _
  rcases mapStored_cases dim h hx with ⟨h1, e⟩ | ⟨h1, h2, e⟩ | ⟨h1, h2, j, hj, h3, h4, e⟩
  · have key : ∀ (k : ℕ) (hk : k < xs.length), xs[k] ≤ x → k = 0 ∧ x = xs[0] := by
      intro k hk hkx
      rcases Nat.eq_zero_or_pos k with rfl | hkp
      · exact ⟨rfl, le_antisymm h1 hkx⟩
      · exact absurd (hkx.trans h1) (not_le.mpr (h.xlt hk hkp))
    refine ⟨_, e, (h.outputs _ (List.getElem_mem _)).1, fun _ => rfl, fun hx1 => ?_, fun k hk hxk => ?_, fun k hk a b => ?_⟩
    · have := (key _ _ hx1).1
      have e1 : ys.length - 1 = 0 := by omega
      simp only [e1]
    · obtain ⟨rfl, _⟩ := key k hk hxk.symm.le
      rfl
    · obtain ⟨rfl, ex⟩ := key k (by omega) a
      refine ⟨le_rfl, h.yle (by omega) (by omega), ?_⟩
      rw [ex, affine_left, sub_self, abs_zero]
      exact hy0 _ (List.getElem_mem _)
  · have key : ∀ (k : ℕ) (hk : k < xs.length), x ≤ xs[k] → k = xs.length - 1 ∧ x = xs[xs.length - 1] := by
      intro k hk hkx
      rcases Nat.lt_or_ge k (xs.length - 1) with hkp | hkp
      · exact absurd (h2.trans hkx) (not_le.mpr (h.xlt (by omega) hkp))
      · have : k = xs.length - 1 := by omega
        subst this
        exact ⟨rfl, le_antisymm hkx h2⟩
    refine ⟨_, e, (h.outputs _ (List.getElem_mem _)).1, fun hc => absurd hc (not_le.mpr h1), fun _ => rfl,
      fun k hk hxk => ?_, fun k hk a b => ?_⟩
    · obtain ⟨hk', _⟩ := key k hk hxk.le
      have e1 : ys.length - 1 = k := by omega
      simp only [e1]
    · obtain ⟨hk', ex⟩ := key (k + 1) hk b
      have e1 : ys.length - 1 = k + 1 := by omega
      have ex' : x = xs[k + 1] := by rw [ex]; congr 1; exact hk'.symm
      refine ⟨h.yle (by omega) (by omega), by simp only [e1]; exact le_rfl, ?_⟩
      rw [ex', affine_right (h.xlt hk (by omega)).ne]
      simp only [e1]
      rw [sub_self, abs_zero]
      exact hy0 _ (List.getElem_mem _)
  · have S := h.segment hj (show j + 1 < ys.length by omega)
    obtain ⟨s1, s2, s3, s4, s5, s6⟩ := S.stored hx h3.le h4
    -- an input that `x` reaches
    have hlow : ∀ (k : ℕ) (hk : k < xs.length), xs[k] ≤ x → k ≤ j ∨ k = j + 1 ∧ x = xs[j + 1] := by
      intro k hk hkx
      rcases Nat.lt_trichotomy k (j + 1) with g | g | g
      · exact .inl (by omega)
      · subst g
        exact .inr ⟨rfl, le_antisymm h4 hkx⟩
      · exact absurd (hkx.trans h4) (not_le.mpr (h.xlt hk g))
    have hhigh : ∀ (k : ℕ) (hk : k < xs.length), x ≤ xs[k] → j < k := by
      intro k hk hkx
      by_contra hc
      exact absurd (hkx.trans (h.xle (by omega) (by omega))) (not_le.mpr h3)
    refine ⟨_, e, isSingle_near s1, fun hc => absurd hc (not_le.mpr h1), fun hc => absurd hc (not_le.mpr h2),
      fun k hk hxk => ?_, fun k hk a b => ?_⟩
    · have g1 := hhigh k hk hxk.le
      rcases hlow k hk hxk.symm.le with g2 | ⟨rfl, g2⟩
      · omega
      · exact s5 g2
    · have g1 := hhigh (k + 1) hk b
      rcases hlow k (by omega) a with g2 | ⟨rfl, g2⟩
      · have : k = j := by omega
        subst this
        exact ⟨s2, s3, s6⟩
      · rw [s5 g2, g2, affine_left, sub_self, abs_zero]
        exact ⟨le_rfl, h.yle (by omega) (by omega), hy0 _ (List.getElem_mem _)⟩

/-- C127: the order of numbers is kept. -/
theorem C127_monotone (dim : ℕ) {xs ys : List K} (h : Spec.IndexKnots xs ys) {x x' : K} (hx : Spec.IsSingle x)
    (hx' : Spec.IsSingle x') (hxx : x ≤ x') :
    ∃ y y', mapStored ieee dim xs ys (.fin x) = .ok (.fin y) ∧ mapStored ieee dim xs ys (.fin x') = .ok (.fin y') ∧
      y ≤ y' := by
  have h0 := h.pos
  have hl := h.length
  rcases mapStored_cases dim h hx with ⟨ha, e⟩ | ⟨ha0, ha, e⟩ | ⟨_, _, j, hj, ha, hb, e⟩ <;>
  rcases mapStored_cases dim h hx' with ⟨ha', e'⟩ | ⟨ha0', ha', e'⟩ | ⟨hc', hd', j', hj', ha', hb', e'⟩ <;>
  refine ⟨_, _, e, e', ?_⟩
  · exact le_rfl
  · exact h.yle (by omega) (by omega)
  · obtain ⟨_, s2, _⟩ := (h.segment hj' (show j' + 1 < ys.length by omega)).stored hx' ha'.le hb'
    exact (h.yle (by omega) (by omega)).trans s2
  · exact absurd (hxx.trans ha') (not_le.mpr ha0)
  · exact le_rfl
  · exact absurd (ha.trans hxx) (not_le.mpr hd')
  · exact absurd ((hxx.trans ha').trans (h.xle (by omega) (by omega))) (not_le.mpr ha)
  · obtain ⟨_, _, s3, _⟩ := (h.segment hj (show j + 1 < ys.length by omega)).stored hx ha.le hb
    exact s3.trans (h.yle (by omega) (by omega))
  · have S := h.segment hj (show j + 1 < ys.length by omega)
    have S' := h.segment hj' (show j' + 1 < ys.length by omega)
    obtain ⟨_, s2, s3, _⟩ := S.stored hx ha.le hb
    obtain ⟨_, s2', s3', _⟩ := S'.stored hx' ha'.le hb'
    rcases lt_trichotomy j j' with g | g | g
    · exact s3.trans ((h.yle (by omega) (by omega)).trans s2')
    · subst g
      exact Fmt.near_mono _ (S.mono hxx)
    · exact absurd ((hxx.trans hb').trans (h.xle (by omega) (by omega))) (not_le.mpr ha)

/-- C127: NaN and infinities pass. -/
theorem C127_nonfinite (dim : ℕ) (xs ys : List K) : mapStored ieee dim xs ys .nan = .ok .nan ∧
    ∀ s, mapStored ieee dim xs ys (.inf s) = .ok (.inf s) :=
  ⟨congrArg Except.ok (Fmt.round_nan single (by decide)), fun s => congrArg Except.ok (Fmt.round_inf single s)⟩

/-! ## One-dimensional LUTs with index maps -/

/-- A LUT1D node with index maps that is linear and not of the half domain. -/
structure MappedLut (b : Base K) (maps : List (List K × List K)) (a : Arr K) : Prop where
  inDepth : (b.attrs.get? "inBitDepth").isSome
  outDepth : (b.attrs.get? "outBitDepth").isSome
  linear : b.styleOf "interpolation" ≠ .str "cubic"
  noHalf : b.flag "halfDomain" = false
  maps : ∃ dims : List ℕ, dims.length = maps.length ∧
    b.indexMaps = (dims.zip maps).map fun p => ⟨p.1, p.2.1.map .fin, p.2.2.map .fin⟩
  array : b.array = .ok a

/-- The map of a channel: the only one, or one per channel. -/
def Spec.mapOf (maps : List (List K × List K)) (h : 0 < maps.length) (i : ℕ) : List K × List K :=
  maps[if maps.length = 1 then 0 else min i (maps.length - 1)]'(by split_ifs <;> omega)

theorem mapStored_total (R : Rounding K) (dim : ℕ) {xs ys : List K} (hne : xs ≠ []) (hl : xs.length = ys.length) (x : Flt K) :
    ∃ y, mapStored R dim xs ys x = .ok y := by
  unfold mapStored
  cases x with
  | nan => exact ⟨_, rfl⟩
  | inf s => exact ⟨_, rfl⟩
  | fin x =>
    rcases processR_cases R dim xs ys hne hl x with ⟨_, e⟩ | ⟨_, _, e⟩ | ⟨_, _, j, hj, _, _, e⟩ <;>
    · rw [e]
      exact ⟨_, rfl⟩

/-- The position in the table. -/
theorem mapped_normalize (R : Rounding K) (maps : List (List K × List K)) (h : 0 < maps.length)
    (hc : maps.length = 1 ∨ 3 ≤ maps.length) (dims : List ℕ) (hd : dims.length = maps.length) (d : Depth) (m : ℕ) (i : ℕ)
    (hi : i < 3) (x : Flt K) : ∃ dim, ∀ y, mapStored R dim (Spec.mapOf maps h i).1 (Spec.mapOf maps h i).2 x = .ok y →
      lutNormalizeR R ((dims.zip maps).map fun p => ⟨p.1, p.2.1.map .fin, p.2.2.map .fin⟩) d (.ok (m + 1)) i x
        = .ok (R single (R double (y / .fin (((m + 1 : ℕ) : K) - 1)))) := by
  have hlen : ((dims.zip maps).map fun p => (⟨p.1, p.2.1.map .fin, p.2.2.map .fin⟩ : IndexMap K)).length = maps.length := by
    simp [hd]
  have hget : ∀ (k : ℕ) (hk : k < maps.length), pyGet ((dims.zip maps).map fun p =>
      (⟨p.1, p.2.1.map .fin, p.2.2.map .fin⟩ : IndexMap K)) k
      = .ok ⟨dims[k]'(by omega), maps[k].1.map .fin, maps[k].2.map .fin⟩ := by
    intro k hk
    rw [pyGet_of_lt (by rw [hlen]; exact hk)]
    simp
  have key : ∀ (k : ℕ) (hk : k < maps.length) (y : Flt K), mapStored R (dims[k]'(by omega)) maps[k].1 maps[k].2 x = .ok y →
      ∃ w, IndexMap.processR R ⟨dims[k]'(by omega), maps[k].1.map .fin, maps[k].2.map .fin⟩ x = .ok w ∧ R single w = y := by
    intro k hk y hy
    unfold mapStored at hy
    generalize IndexMap.processR R ⟨dims[k]'(by omega), maps[k].1.map .fin, maps[k].2.map .fin⟩ x = e at hy
    cases e with
    | error e => exact absurd hy (by simp [Except.map])
    | ok w => exact ⟨w, rfl, Except.ok.inj hy⟩
  rcases hc with hc | hc
  · refine ⟨dims[0]'(by omega), fun y hy => ?_⟩
    have hm : Spec.mapOf maps h i = maps[0] := by simp [Spec.mapOf, hc]
    rw [hm] at hy
    obtain ⟨w, h1, h2⟩ := key 0 h y hy
    unfold lutNormalizeR
    rw [hlen, if_neg (by omega), if_pos h, hget 0 h]
    simp only [py_ok_bind, h1, h2, py_pure]
  · have hil : i < maps.length := by omega
    refine ⟨dims[i]'(by omega), fun y hy => ?_⟩
    have hm : Spec.mapOf maps h i = maps[i] := by
      unfold Spec.mapOf
      congr 1
      rw [if_neg (by omega)]
      omega
    rw [hm] at hy
    obtain ⟨w, h1, h2⟩ := key i hil y hy
    unfold lutNormalizeR
    rw [hlen, if_pos (by omega), hget i hil]
    simp only [py_ok_bind, h1, h2, py_pure]

/-- The node, for any rounding, in terms of what index maps and a lookup give. -/
theorem mappedR_node (R : Rounding K) (t : Fmt) (b : Base K) (maps : List (List K × List K)) (a : Arr K) (h : MappedLut b maps a)
    (N : ℕ → Flt K → Flt K) (d0 : ℕ) (h0 : pyGet a.dims 0 = .ok d0)
    (hN : ∀ i < 3, ∀ d x, lutNormalizeR R b.indexMaps d (.ok d0) i x = .ok (N i x))
    (F : ℕ → Flt K → Flt K) (hF : ∀ i x, a.lookup1DLinearR R x i = .ok (F i x)) (stride : ℕ) (hs : 0 < stride)
    (pixels : List (List (Flt K))) (hp : ∀ p ∈ pixels, p.length = stride) :
    ∃ r, lut1dProcessR R t b pixels.flatten stride = .ok r ∧
      r.out = (pixels.map (Spec.mapColour fun i x => R single (F i (N i x)))).flatten := by
  obtain ⟨v2, e2⟩ : ∃ v, b.attrE "outBitDepth" = .ok v := by
    obtain ⟨v, hv⟩ := Option.isSome_iff_exists.mp h.outDepth
    exact ⟨some v, by simp [Base.attrE, Dict.getE, hv]⟩
  obtain ⟨v1, e1⟩ : ∃ v, b.attrE "inBitDepth" = .ok v := by
    obtain ⟨v, hv⟩ := Option.isSome_iff_exists.mp h.inDepth
    exact ⟨some v, by simp [Base.attrE, Dict.getE, hv]⟩
  unfold lut1dProcessR
  simp only [e1, e2, h.array, py_ok_bind, if_neg h.linear, h.noHalf, h0, Bool.false_eq_true,
    if_false]
  rw [viewLoop_pixels stride hs _ (Spec.mapColour fun i x => R single (F i (N i x)))
    pixels hp]
  · exact ⟨_, rfl, rfl⟩
  · intro p hp'
    rw [chanLoop_ok _ _ (fun i x => R single (F i (N i x))) p (by omega)]
    · unfold Spec.mapColour
      congr 1
      apply List.ext_getElem (by simp)
      intro i h1 h2
      have : i < p.length := by simpa using h2
      simp [this]
    · intro i hi hi3
      simp only [hN i (by omega), py_ok_bind, hF, py_pure]
  · intro p hp'
    simp [Spec.mapColour, hp p hp']

/-- The position in a table of `m + 1` entries of an index. -/
theorem index_pos {m : ℕ} (hm : 0 < m) {y : K} (hy : Spec.IsSingle y) (h0 : 0 ≤ y) :
    ∃ p, ieee single (ieee double (.fin y / .fin (((m + 1 : ℕ) : K) - 1))) = .fin p ∧ Spec.IsSingle p ∧ 0 ≤ p ∧
      (y = 0 → p = 0) ∧ ((m : K) ≤ y → 1 ≤ p) ∧ (y ≤ m → p ≤ 1) ∧
      |p - y / m| ≤ |y / m| * (9 / 8 * (1 / 2 ^ 24)) + 2 ^ (-148 : ℤ) := by
  have hm1 : (1 : K) ≤ m := by exact_mod_cast hm
  have hm0 : (0 : K) < m := by linarith
  have e0 : ((m + 1 : ℕ) : K) - 1 = m := by push_cast; ring
  have hq0 : 0 ≤ y / m := div_nonneg h0 hm0.le
  have hqy : y / m ≤ y := div_le_self h0 hm1
  have hfin : ieee double (.fin (y / m)) = .fin (double.near (y / m)) := by
    refine double_fin_big ?_
    rw [abs_of_nonneg hq0]
    exact hqy.trans ((lt_of_abs_lt hy.lt).le.trans (pow_le_pow_right₀ one_le_two (by norm_num)))
  have hup : double.near (y / m) ≤ y + |y| / 2 ^ 26 := by
    refine (Fmt.near_mono double hqy).trans ?_
    rw [abs_of_nonneg h0]
    rcases hy.eta with hz | hη
    · rw [hz, Fmt.near_zero]
      simp
    · have e := (abs_le.mp (double_rounder.err y)).2
      rw [abs_of_nonneg h0] at e hη
      generalize (2 : K) ^ (-1075 : ℤ) = η at *
      have : y * (1 / 2 ^ 53) + 1 / 2 ^ 53 * (y / 2) ≤ y / 2 ^ 26 := by
        norm_num
        linarith
      linarith
  have hz : Spec.IsSingle (0 : K) := by
    have := isSingle_nat (K := K) (k := 0) (by norm_num)
    simpa using this
  obtain ⟨s1, s2, s3⟩ := single_round (r := double.near (y / m)) hz hy (by
    simpa using Fmt.near_nonneg double hq0) hup
  rw [e0, Flt.fin_div hm0.ne', hfin]
  refine ⟨_, s1, isSingle_near s1, s2, fun e => ?_, fun h => ?_, fun h => ?_, near_twice (double_rounder.err _)⟩
  · rw [e, zero_div, Fmt.near_zero, Fmt.near_zero]
  · have := Fmt.near_mono single (Fmt.near_mono double ((one_le_div hm0).mpr h))
    rwa [double_one, single_one] at this
  · have := Fmt.near_mono single (Fmt.near_mono double ((div_le_one hm0).mpr h))
    rwa [double_one, single_one] at this

/-- C127: a linear LUT1D with one index map, or with one for each channel, in IEEE arithmetic.  Each
colour channel of each pixel is mapped; a number of `float32` gives a number of `float32` between two entries of the column, which is
the first entry if the index is 0 and the last one if it is the last; if no output of the map is beyond the
last entry, it is within `(3 J m + B) / 2^23 + 2^-150` of the exact interpolation at the exact index, `J` being the largest difference of
neighbouring entries, `B` the largest entry and `m + 1` the number of entries.  Infinities and NaN stay as they
are. -/
theorem C127_lut (t : Fmt) (b : Base K) (maps : List (List K × List K)) (a : Arr K) (h : MappedLut b maps a)
    (hpos : 0 < maps.length) (hc : maps.length = 1 ∨ 3 ≤ maps.length) (hmaps : ∀ p ∈ maps, Spec.IndexKnots p.1 p.2) {m c : ℕ}
    (V : Fin (m + 1) → Fin (c + 1) → K) (hT : Table1D a V) (hV : ∀ i j, Spec.IsSingle (V i j)) (hm0 : 0 < m)
    (hm : m < 2 ^ 53) (stride : ℕ) (hs : 0 < stride) (pixels : List (List (Flt K))) (hp : ∀ p ∈ pixels, p.length = stride) :
    ∃ (r : Res K) (F : ℕ → Flt K → Flt K), lut1dProcessR ieee t b pixels.flatten stride = .ok r ∧
      r.out = (pixels.map (Spec.mapColour F)).flatten ∧
      (∀ i s, i < 3 → F i (.inf s) = .inf s) ∧ (∀ i < 3, F i .nan = .nan) ∧
      ∀ i < 3, ∀ x xs ys, Spec.mapOf maps hpos i = (xs, ys) → Spec.IsSingle x → ∃ y, F i (.fin x) = .fin y ∧ Spec.IsSingle y ∧
        (∃ k, V k (Spec.column c i) ≤ y) ∧ (∃ k, y ≤ V k (Spec.column c i)) ∧
        (∀ (h0 : 0 < xs.length) (h0' : 0 < ys.length), x ≤ xs[0] → ys[0] = 0 → y = V 0 (Spec.column c i)) ∧
        (∀ (h0 : 0 < xs.length) (h0' : 0 < ys.length), xs[xs.length - 1] ≤ x → ys[ys.length - 1] = m →
          y = V (Fin.last m) (Spec.column c i)) ∧
        ∀ J B : K, (∀ (k : ℕ) (hk : k + 1 ≤ m), |V ⟨k + 1, by omega⟩ (Spec.column c i) - V ⟨k, by omega⟩ (Spec.column c i)| ≤ J) →
          (∀ k, |V k (Spec.column c i)| ≤ B) → (∀ z ∈ ys, z ≤ m) →
          ∀ (l : ℕ) (hl : l + 1 < xs.length) (hl' : l + 1 < ys.length), xs[l] ≤ x → x ≤ xs[l + 1] →
          ∀ (k : ℕ) (hk : k + 1 ≤ m), (k : K) ≤ Spec.affine xs[l] xs[l + 1] ys[l] ys[l + 1] x →
            Spec.affine xs[l] xs[l + 1] ys[l] ys[l + 1] x ≤ (k + 1 : ℕ) →
            |y - Spec.affine (k : K) (k + 1 : ℕ) (V ⟨k, by omega⟩ (Spec.column c i))
              (V ⟨k + 1, by omega⟩ (Spec.column c i)) (Spec.affine xs[l] xs[l + 1] ys[l] ys[l + 1] x)|
              ≤ (3 * J * m + B) / 2 ^ 23 + 2 ^ (-150 : ℤ) := by
  have hF := fun i x => linearR_total hT ieee x i
  choose F hF using hF
  obtain ⟨dims, hd, hmapsE⟩ := h.maps
  have hmem : ∀ i, Spec.mapOf maps hpos i ∈ maps := fun i => List.getElem_mem _
  have h0 : pyGet a.dims 0 = .ok (m + 1) := by
    obtain ⟨rest, hd⟩ := hT.dims
    rw [hd]; rfl
  have hN : ∀ i x, ∃ w, i < 3 → (∃ dim y, mapStored ieee dim (Spec.mapOf maps hpos i).1 (Spec.mapOf maps hpos i).2 x = .ok y ∧
      w = ieee single (ieee double (y / .fin (((m + 1 : ℕ) : K) - 1)))) ∧
      ∀ d, lutNormalizeR ieee b.indexMaps d (.ok (m + 1)) i x = .ok w := by
    intro i x
    by_cases hi : i < 3
    · obtain ⟨dim, hdim⟩ := mapped_normalize ieee maps hpos hc dims hd none m i hi x
      have hk := hmaps _ (hmem i)
      obtain ⟨y, hy⟩ := mapStored_total ieee dim hk.nonempty hk.length x
      refine ⟨_, fun _ => ⟨⟨dim, y, hy, rfl⟩, fun d => ?_⟩⟩
      rw [hmapsE]
      have := hdim y hy
      unfold lutNormalizeR at this ⊢
      have hlen : 0 < ((dims.zip maps).map fun p => (⟨p.1, p.2.1.map .fin, p.2.2.map .fin⟩ : IndexMap K)).length := by
        simp [hd]
        exact hpos
      simp only [hlen, if_true] at this ⊢
      exact this
    · exact ⟨.nan, fun hc => absurd hc hi⟩
  choose N hN using hN
  obtain ⟨r, hr, ho⟩ := mappedR_node ieee t b maps a h N (m + 1) h0 (fun i hi d x => (hN i x hi).2 d) F hF stride hs pixels hp
  have hm' : (0 : K) < m := Nat.cast_pos.mpr hm0
  have em : ((m + 1 : ℕ) : K) - 1 = m := by push_cast; ring
  refine ⟨r, _, hr, ho, fun i s hi => ?_, fun i hi => ?_, fun i hi x xs ys hxy hx => ?_⟩
  · have e1 : ieee single (Flt.inf s : Flt K) = .inf s := Fmt.round_inf single s
    have e2 : ieee double (Flt.inf s : Flt K) = .inf s := Fmt.round_inf double s
    obtain ⟨⟨dim, y, hy, hw⟩, _⟩ := hN i (.inf s) hi
    rw [(C127_nonfinite dim _ _).2 s] at hy
    have e3 : N i (.inf s) = .inf s := by
      rw [hw, ← Except.ok.inj hy, em, show (Flt.inf s : Flt K) / .fin (m : K) = .inf s by
          show Flt.div _ _ = _
          simp [Flt.div, not_lt.mpr hm'.le]]
      rw [e2, e1]
    have := (hF i (.inf s)).symm.trans (linearR_inf hT hm0 s i)
    simp only [e3, e1, Except.ok.inj this]
  · have e1 : ieee single (Flt.nan : Flt K) = .nan := Fmt.round_nan single (by decide)
    have e2 : ieee double (Flt.nan : Flt K) = .nan := Fmt.round_nan double (by decide)
    obtain ⟨⟨dim, y, hy, hw⟩, _⟩ := hN i .nan hi
    rw [(C127_nonfinite dim _ _).1] at hy
    have e3 : N i .nan = .nan := by
      rw [hw, ← Except.ok.inj hy, show (Flt.nan : Flt K) / .fin (((m + 1 : ℕ) : K) - 1) = .nan from rfl, e2, e1]
    have := (hF i .nan).symm.trans (linearR_nan hT i)
    simp only [e3, e1, Except.ok.inj this]
  have hk : Spec.IndexKnots xs ys := by
    have := hmaps _ (hmem i)
    rwa [hxy] at this
  obtain ⟨⟨dim, w, hw, hNw⟩, _⟩ := hN i (.fin x) hi
  rw [hxy] at hw
  obtain ⟨z, hz, hzs, z0, z1, _, z2⟩ := C127_map dim hk hx
  have hwz : w = .fin z := Except.ok.inj (hw.symm.trans hz)
  have hz0 : 0 ≤ z := by
    obtain ⟨_, _, e, hle⟩ := C127_monotone dim hk (x := x) (x' := x) hx hx le_rfl
    have h0 := hk.pos
    have hl := hk.length
    rcases mapStored_cases dim hk hx with ⟨_, e⟩ | ⟨_, _, e⟩ | ⟨_, _, j, hj, ha, hb, e⟩
    · rw [Flt.fin.inj (Except.ok.inj (hz.symm.trans e))]
      exact (hk.outputs _ (List.getElem_mem _)).2
    · rw [Flt.fin.inj (Except.ok.inj (hz.symm.trans e))]
      exact (hk.outputs _ (List.getElem_mem _)).2
    · exact (hk.outputs _ (List.getElem_mem _)).2.trans (z2 j hj ha.le hb).1
  obtain ⟨p, hpe, hps, hp0, hpz, hone, hone', herr⟩ := index_pos hm0 hzs hz0
  have hNp : N i (.fin x) = .fin p := by rw [hNw, hwz, hpe]
  have hpb : |p| ≤ 2 ^ 130 := hps.lt.le.trans (pow_le_pow_right₀ one_le_two (by norm_num))
  have hrow := (hF i (.fin p)).symm.trans (linearR_table hT hV (lt_of_lt_of_le hm (by norm_num)) hpb i)
  have hFx : ieee single (F i (N i (.fin x)))
      = single.round (.fin (rowF (fun k => V k (Spec.column c i)) (posF m p))) := by
    rw [hNp, Except.ok.inj hrow]
    rfl
  obtain ⟨klo, hklo⟩ := Finite.exists_min fun k => V k (Spec.column c i)
  obtain ⟨khi, hkhi⟩ := Finite.exists_max fun k => V k (Spec.column c i)
  obtain ⟨h1, h2, h3⟩ := rowF_mem (fun k => V k (Spec.column c i)) (posF m p) _ _ (hV klo (Spec.column c i))
    (hV khi (Spec.column c i)) ⟨hklo _, hkhi _⟩ ⟨hklo _, hkhi _⟩
  refine ⟨_, hFx.trans h1, isSingle_near h1, ⟨klo, h2⟩, ⟨khi, h3⟩, fun q0 q0' hx0 hy0 => ?_, fun q0 q0' hx1 hy1 => ?_, ?_⟩
  · have hz' : z = 0 := (z0 hx0).trans hy0
    have hT0 : posF m p = 0 := by rw [hpz hz', posF, zero_mul, Fmt.near_zero]
    have c1 : clampRow m ⌊posF m p⌋ = 0 := clampRow_neg (by rw [hT0, Int.floor_zero])
    have c2 : clampRow m ⌈posF m p⌉ = 0 := clampRow_neg (by rw [hT0, Int.ceil_zero])
    obtain ⟨_, g2, g3⟩ := rowF_mem (fun k => V k (Spec.column c i)) (posF m p) _ _ (hV 0 (Spec.column c i))
      (hV 0 (Spec.column c i)) (by rw [c1]; exact ⟨le_rfl, le_rfl⟩) (by rw [c2]; exact ⟨le_rfl, le_rfl⟩)
    exact le_antisymm g3 g2
  · have hz' : z = m := (z1 hx1).trans hy1
    have hTm : (m : K) ≤ posF m p := by
      have := Fmt.near_mono double (le_mul_of_one_le_left hm'.le (hone hz'.symm.le))
      rwa [double_nat m hm] at this
    have c1 : clampRow m ⌊posF m p⌋ = Fin.last m := clampRow_big (Int.le_floor.mpr (by simpa using hTm))
    have c2 : clampRow m ⌈posF m p⌉ = Fin.last m :=
      clampRow_big ((Int.le_floor.mpr (by simpa using hTm)).trans (Int.floor_le_ceil _))
    obtain ⟨_, g2, g3⟩ := rowF_mem (fun k => V k (Spec.column c i)) (posF m p) _ _ (hV (Fin.last m) (Spec.column c i))
      (hV (Fin.last m) (Spec.column c i)) (by rw [c1]; exact ⟨le_rfl, le_rfl⟩) (by rw [c2]; exact ⟨le_rfl, le_rfl⟩)
    exact le_antisymm g3 g2
  · intro J B hJ hB hym l hl hl' hxl hxl' k hk' hk1 hk2
    obtain ⟨_, zh, ze⟩ := z2 l hl hxl hxl'
    have hzm : z ≤ m := zh.trans (hym _ (List.getElem_mem _))
    have hq0 : 0 ≤ z / m := div_nonneg hz0 hm'.le
    have hq1 : z / m ≤ 1 := (div_le_one hm').mpr hzm
    obtain ⟨p1, p2, p3⟩ := posF_near hm0 hm hp0 (hone' hzm) hq0 hq1 herr
    have hJ0 : 0 ≤ J := (abs_nonneg _).trans (hJ k hk')
    rw [div_mul_cancel₀ _ hm'.ne'] at p3
    have key := rowF_near (fun k => V k (Spec.column c i)) (fun k => hV k _) J B hJ hB hJ0 p1 p2 hz0 hzm p3
    have hE0 : 0 ≤ Spec.affine xs[l] xs[l + 1] ys[l] ys[l + 1] x := (Nat.cast_nonneg k).trans hk1
    have hEm : Spec.affine xs[l] xs[l + 1] ys[l] ys[l + 1] x ≤ m := hk2.trans (by exact_mod_cast hk')
    have hlip := lerpRow_lipschitz (fun k => V k (Spec.column c i)) J hJ hz0 hzm hE0 hEm
    rw [lerpRow_between _ k hk' hk1 hk2] at hlip
    have hye : ys[l + 1] ≤ m := hym _ (List.getElem_mem _)
    have hμ : (2 : K) ^ (-150 : ℤ) ≤ m / 2 ^ 23 := by
      refine le_trans (zpow_le_zpow_right₀ one_le_two (show (-150 : ℤ) ≤ -23 by norm_num)) ?_
      have e : (2 : K) ^ (-23 : ℤ) = 1 / 2 ^ 23 := by norm_num
      rw [e]
      exact div_le_div_of_nonneg_right (by exact_mod_cast hm0) (by positivity)
    have hd1 : |z - Spec.affine xs[l] xs[l + 1] ys[l] ys[l + 1] x| ≤ 2 * (m / 2 ^ 23) := by
      refine ze.trans ?_
      have : ys[l + 1] / 2 ^ 23 ≤ (m : K) / 2 ^ 23 := div_le_div_of_nonneg_right hye (by positivity)
      linarith
    have hJm := mul_le_mul_of_nonneg_left hd1 hJ0
    have hJm0 : 0 ≤ J * m := mul_nonneg hJ0 hm'.le
    generalize (2 : K) ^ (-150 : ℤ) = μ at *
    generalize Spec.affine xs[l] xs[l + 1] ys[l] ys[l + 1] x = E at *
    have e2 : Spec.affine (k : K) (k + 1 : ℕ) (V ⟨k, by omega⟩ (Spec.column c i)) (V ⟨k + 1, by omega⟩ (Spec.column c i)) E
        = V ⟨k, by omega⟩ (Spec.column c i) + (E - k) * (V ⟨k + 1, by omega⟩ (Spec.column c i) - V ⟨k, by omega⟩ (Spec.column c i)) := by
      unfold Spec.affine
      push_cast
      rw [add_sub_cancel_left, div_one]
    rw [e2]
    refine (abs_sub_le _ (lerpRow (fun k => V k (Spec.column c i)) z) _).trans ((add_le_add key (hlip.trans hJm)).trans ?_)
    have e3 : J * (2 * ((m : K) / 2 ^ 23)) = 2 * (J * m) / 2 ^ 23 := by ring
    have e4 : (3 * J * m + B) / 2 ^ 23 = (J * m + B) / 2 ^ 23 + 2 * (J * m) / 2 ^ 23 := by ring
    rw [e3, e4]
    linarith

/-! ### Instances -/

/-- Knots of 10-bit video: black, a toe, white. -/
def videoKnots : List ℚ × List ℚ := ([64, 100, 940], [0, 1 / 2, 3])

theorem videoKnots_ok : Spec.IndexKnots videoKnots.1 videoKnots.2 where
  nonempty := by decide
  length := rfl
  inputs := by unfold Spec.IsDouble; decide +kernel
  outputs := by unfold Spec.IsSingle; decide +kernel
  increasing := by decide +kernel
  monotone := by decide +kernel

/-- A code after the toe. -/
example : mapStored ieee 3 videoKnots.1 videoKnots.2 (.fin 101) = .ok (.fin (8438540 / 2 ^ 24)) := by
  decide +kernel

example : ∃ y, mapStored ieee 3 videoKnots.1 videoKnots.2 (.fin 101) = .ok (.fin y) ∧ 1 / 2 ≤ y ∧ y ≤ 3 ∧
    |y - (1 / 2 + 5 / 1680)| ≤ 1 / 2 ^ 21 := by
  obtain ⟨y, h1, _, _, _, _, h⟩ := C127_map 3 videoKnots_ok (x := 101) (by unfold Spec.IsSingle; decide +kernel)
  obtain ⟨a, b, c⟩ := h 1 (by decide) (by norm_num [videoKnots]) (by norm_num [videoKnots])
  refine ⟨y, h1, a, b, ?_⟩
  have e : Spec.affine (100 : ℚ) 940 (1 / 2) 3 101 = 1 / 2 + 5 / 1680 := by norm_num [Spec.affine]
  have c' : |y - Spec.affine (100 : ℚ) 940 (1 / 2) 3 101| ≤ 3 / 2 ^ 23 + 2 ^ (-150 : ℤ) := c
  rw [e] at c'
  refine c'.trans ?_
  norm_num

/-- Outputs may not decrease towards a number that is lost beside the others: the second input gives 0. -/
example : mapStored ieee 3 ([0, 1, 2] : List ℚ) [1, 1 / 2 ^ 60, 1 / 2 ^ 60] (.fin 1) = .ok (.fin 0) := by
  decide +kernel

/-- Four entries, with an index map that gives the entry of every code. -/
def mapped4 : Base ℚ where
  attrs := [("inBitDepth", .str "8i"), ("outBitDepth", .str "8i"), ("interpolation", .str "linear")]
  elements := [.indexMap ⟨4, [.fin 0, .fin 1, .fin 2, .fin 3], [.fin 0, .fin 1, .fin 2, .fin 3]⟩,
    .array { dims := [4, 1], values := [.fin 255, .fin 170, .fin 85, .fin 0] }]

theorem mapped4_maps : MappedLut mapped4 [([0, 1, 2, 3], [0, 1, 2, 3])]
    { dims := [4, 1], values := [.fin 255, .fin 170, .fin 85, .fin 0] } where
  inDepth := by decide
  outDepth := by decide
  linear := by decide
  noHalf := rfl
  maps := ⟨[4], rfl, rfl⟩
  array := rfl

theorem mapped4_knots : Spec.IndexKnots ([0, 1, 2, 3] : List ℚ) [0, 1, 2, 3] where
  nonempty := by decide
  length := rfl
  inputs := by unfold Spec.IsDouble; decide +kernel
  outputs := by unfold Spec.IsSingle; decide +kernel
  increasing := by decide +kernel
  monotone := by decide +kernel

/-- C127_lut on it: code 3 gives the last entry. -/
example : ∃ (r : Res ℚ) (F : ℕ → Flt ℚ → Flt ℚ), lut1dProcessR ieee double mapped4 [.fin 1, .fin 3, .fin 200, .inf true] 2 = .ok r ∧
    r.out = [F 0 (.fin 1), F 1 (.fin 3), F 0 (.fin 200), F 1 (.inf true)] ∧ F 1 (.fin 3) = .fin 0 ∧ F 1 (.inf true) = .inf true := by
  obtain ⟨r, F, h1, h2, h3, _, h5⟩ := C127_lut double mapped4 _ _ mapped4_maps (by decide) (.inl rfl)
    (by simpa using mapped4_knots) _ inversion4_table (fun i _ => inversion4_single i) (by norm_num) (by norm_num) 2 (by norm_num)
    [[.fin 1, .fin 3], [.fin 200, .inf true]] (by simp)
  obtain ⟨y, hy, _, _, _, _, hlast, _⟩ := h5 1 (by norm_num) 3 _ _ rfl (by unfold Spec.IsSingle; decide +kernel)
  refine ⟨r, F, h1, h2, ?_, h3 1 true (by norm_num)⟩
  rw [hy, hlast (by decide) (by decide) (by norm_num) (by norm_num)]
  norm_num

/-- C123 is false with index maps too: an index that the map gives exactly does not give its entry; the code 2 has index 2
and entry 85, but the index divided by 3 and multiplied by 3 is above 2, and an 8-bit image keeps 84. -/
theorem C123_index_false : ∃ (b : Base ℚ) (a : Arr ℚ) (V : Fin 4 → Fin 1 → ℚ), MappedLut b [([0, 1, 2, 3], [0, 1, 2, 3])] a ∧
    Table1D (m := 3) (c := 0) a V ∧ (∀ i j, Spec.IsSingle (V i j)) ∧
    mapStored ieee 4 ([0, 1, 2, 3] : List ℚ) [0, 1, 2, 3] (.fin 2) = .ok (.fin 2) ∧ V 2 0 = 85 ∧
    (lut1dProcessR ieee double b [.fin 2] 1).map (·.out) = .ok [.fin (85 - 1 / 2 ^ 17)] ∧
    storeUInt 8 0 (.fin (85 - 1 / 2 ^ 17) : Flt ℚ) = .ok 84 :=
  ⟨mapped4, _, _, mapped4_maps, inversion4_table, fun i _ => inversion4_single i, by decide +kernel, by norm_num,
    by decide +kernel, by decide +kernel⟩

/-- C123, an 8-bit image through the same node: 2 becomes 84. -/
theorem C123_indexImage_false : filterImage storedArith 2 (some ⟨.uint8, 2, 2, 1, some 8, .ints [0, 1, 2, 3]⟩)
    [.leaf .lut1d mapped4] none 2 [0, 1, 0, 1] = .ok (some ⟨.uint8, 2, 2, 1, some 8, .ints [255, 170, 84, 0]⟩) := by
  decide +kernel

end CLF
