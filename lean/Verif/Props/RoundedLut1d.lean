import Verif.Lemmas.RoundedPos
import Verif.Props.Nodes
import Verif.Model.Image

set_option linter.unusedSectionVars false

/-! # Properties C122, C123: one-dimensional LUTs in IEEE arithmetic -/

namespace CLF

variable {K : Type} [Field K] [LinearOrder K] [IsStrictOrderedRing K] [FloorRing K]

/-- Every value has a lookup. -/
theorem linearR_total {m c : ℕ} {a : Arr K} {V : Fin (m + 1) → Fin (c + 1) → K} (h : Table1D a V) (R : Rounding K) (p : Flt K) (ch : ℕ) : ∃ y, a.lookup1DLinearR R p ch = .ok y := by
  obtain ⟨rest, hd⟩ := h.dims
  have h0 : pyGet a.dims 0 = .ok (m + 1) := by rw [hd]; rfl
  unfold Arr.lookup1DLinearR
  simp only [h0, py_ok_bind]
  generalize R double (p * .fin (((m + 1 : ℕ) : K) - 1)) = q
  cases q with
  | nan => exact ⟨_, rfl⟩
  | inf s => exact ⟨_, rfl⟩
  | fin x =>
    simp only [lookup1D_table a _ rest hd h.values h.columns, py_ok_bind, py_pure]
    exact ⟨_, rfl⟩

/-- The node, for any rounding, in terms of what a lookup gives. -/
theorem lut1dR_node (R : Rounding K) (t : Fmt) (b : Base K) (din : AVal) (a : Arr K) (h : PlainLut b din a)
    (F : ℕ → Flt K → Flt K) (hF : ∀ i x, a.lookup1DLinearR R x i = .ok (F i x)) (stride : ℕ) (hs : 0 < stride)
    (pixels : List (List (Flt K))) (hp : ∀ p ∈ pixels, p.length = stride) :
    ∃ r, lut1dProcessR R t b pixels.flatten stride = .ok r ∧
      r.out = (pixels.map (Spec.mapColour fun i x => R single (F i (R single (toUnitR R x (some din)))))).flatten := by
  obtain ⟨v2, e2⟩ : ∃ v, b.attrE "outBitDepth" = .ok v := by
    obtain ⟨v, hv⟩ := Option.isSome_iff_exists.mp h.outDepth
    exact ⟨some v, by simp [Base.attrE, Dict.getE, hv]⟩
  have e1 : b.attrE "inBitDepth" = .ok (some din) := by
    simp [Base.attrE, Dict.getE, h.inDepth]
  unfold lut1dProcessR
  simp only [e1, e2, h.array, py_ok_bind, if_neg h.linear, h.noHalf, h.noMaps, Bool.false_eq_true,
    if_false]
  rw [viewLoop_pixels stride hs _ (Spec.mapColour fun i x => R single (F i (R single (toUnitR R x (some din)))))
    pixels hp]
  · exact ⟨_, rfl, rfl⟩
  · intro p hp'
    rw [chanLoop_ok _ _ (fun i x => R single (F i (R single (toUnitR R x (some din))))) p (by omega)]
    · unfold Spec.mapColour
      congr 1
      apply List.ext_getElem (by simp)
      intro i h1 h2
      have : i < p.length := by simpa using h2
      simp [this]
    · intro i hi _
      simp only [lutNormalizeR, List.length_nil, Nat.not_lt_zero, if_false, py_pure, py_ok_bind, hF]
  · intro p hp'
    simp [Spec.mapColour, hp p hp']

/-- C122: a linear 1D LUT of `float32` entries in IEEE arithmetic.  The node maps each colour channel of
each pixel; a finite value of `float32` gives a finite value of `float32` that
lies between two entries of the column, is the first entry for values at or below 0 and the last one for
values at or above full scale, and is within `(J m + B) / 2^23 + 2^-150` of the exact interpolation, `J` being the
largest difference of neighbouring entries, `B` the largest entry and `m + 1` the number of entries.
Infinities and NaN stay as they are. -/
theorem C122_linear (t : Fmt) (b : Base K) (din : AVal) (a : Arr K) (h : PlainLut b din a) {m c : ℕ}
    (V : Fin (m + 1) → Fin (c + 1) → K) (hT : Table1D a V) (hV : ∀ i j, Spec.IsSingle (V i j)) (hm0 : 0 < m)
    (hm : m < 2 ^ 53) (stride : ℕ) (hs : 0 < stride) (pixels : List (List (Flt K))) (hp : ∀ p ∈ pixels, p.length = stride) :
    ∃ (r : Res K) (F : ℕ → Flt K → Flt K), lut1dProcessR ieee t b pixels.flatten stride = .ok r ∧
      r.out = (pixels.map (Spec.mapColour F)).flatten ∧
      (∀ i s, F i (.inf s) = .inf s) ∧ (∀ i, F i .nan = .nan) ∧
      ∀ i x, Spec.IsSingle x → ∃ y, F i (.fin x) = .fin y ∧ Spec.IsSingle y ∧
        (∃ k, V k (Spec.column c i) ≤ y) ∧ (∃ k, y ≤ V k (Spec.column c i)) ∧
        (x ≤ 0 → y = V 0 (Spec.column c i)) ∧
        (Spec.fullScale (some din) ≤ x → y = V (Fin.last m) (Spec.column c i)) ∧
        ∀ J B : K, (∀ (k : ℕ) (hk : k + 1 ≤ m), |V ⟨k + 1, by omega⟩ (Spec.column c i) - V ⟨k, by omega⟩ (Spec.column c i)| ≤ J) →
          (∀ k, |V k (Spec.column c i)| ≤ B) →
          ∀ (k : ℕ) (hk : k + 1 ≤ m), (k : K) / m ≤ x / Spec.fullScale (some din) →
            x / Spec.fullScale (some din) ≤ (k + 1 : ℕ) / m →
            |y - Spec.affine ((k : K) / m) ((k + 1 : ℕ) / m) (V ⟨k, by omega⟩ (Spec.column c i))
              (V ⟨k + 1, by omega⟩ (Spec.column c i)) (x / Spec.fullScale (some din))|
              ≤ (J * m + B) / 2 ^ 23 + 2 ^ (-150 : ℤ) := by
  have hF := fun i x => linearR_total hT ieee x i
  choose F hF using hF
  obtain ⟨r, hr, ho⟩ := lut1dR_node ieee t b din a h F hF stride hs pixels hp
  have hfs : (0 : K) < Spec.fullScale (some din) := fullScale_pos _
  have hm' : (0 : K) < m := Nat.cast_pos.mpr hm0
  refine ⟨r, _, hr, ho, fun i s => ?_, fun i => ?_, fun i x hx => ?_⟩
  · have e1 : ieee single (Flt.inf s : Flt K) = .inf s := Fmt.round_inf single s
    have e2 : ieee double (Flt.inf s : Flt K) = .inf s := Fmt.round_inf double s
    have e3 : toUnitR ieee (Flt.inf s : Flt K) (some din) = .inf s := by
      rcases toUnitR_cases ieee (Flt.inf s : Flt K) (some din) with ⟨e, _⟩ | ⟨e, _⟩
      · rw [e, show (Flt.inf s : Flt K) / .fin (Spec.fullScale (some din)) = .inf s by
          show Flt.div _ _ = _
          simp [Flt.div, not_lt.mpr hfs.le]]
        exact e2
      · exact e
    have := (hF i (.inf s)).symm.trans (linearR_inf hT hm0 s i)
    simp only [e3, e1, Except.ok.inj this]
  · have e1 : ieee single (Flt.nan : Flt K) = .nan := Fmt.round_nan single (by decide)
    have e2 : ieee double (Flt.nan : Flt K) = .nan := Fmt.round_nan double (by decide)
    have e3 : toUnitR ieee (Flt.nan : Flt K) (some din) = .nan := by
      rcases toUnitR_cases ieee (Flt.nan : Flt K) (some din) with ⟨e, _⟩ | ⟨e, _⟩
      · rw [e, show (Flt.nan : Flt K) / .fin (Spec.fullScale (some din)) = .nan from rfl]
        exact e2
      · exact e
    have := (hF i .nan).symm.trans (linearR_nan hT i)
    simp only [e3, e1, Except.ok.inj this]
  obtain ⟨p, hpe, hps, hle, hge, hone, hone', herr⟩ := unit_pos (some din) hx
  have hpb : |p| ≤ 2 ^ 130 := hps.lt.le.trans (pow_le_pow_right₀ one_le_two (by norm_num))
  have hrow := (hF i (.fin p)).symm.trans (linearR_table hT hV (lt_of_lt_of_le hm (by norm_num)) hpb i)
  have hFx : ieee single (F i (ieee single (toUnitR ieee (.fin x) (some din))))
      = single.round (.fin (rowF (fun k => V k (Spec.column c i)) (posF m p))) := by
    rw [hpe, Except.ok.inj hrow]
    rfl
  have hfin : ∀ k, ∃ lo, V lo (Spec.column c i) ≤ V k (Spec.column c i) := fun k => ⟨k, le_rfl⟩
  obtain ⟨klo, hklo⟩ := Finite.exists_min fun k => V k (Spec.column c i)
  obtain ⟨khi, hkhi⟩ := Finite.exists_max fun k => V k (Spec.column c i)
  obtain ⟨h1, h2, h3⟩ := rowF_mem (fun k => V k (Spec.column c i)) (posF m p) _ _ (hV klo (Spec.column c i))
    (hV khi (Spec.column c i)) ⟨hklo _, hkhi _⟩ ⟨hklo _, hkhi _⟩
  refine ⟨_, hFx.trans h1, isSingle_near h1, ⟨klo, h2⟩, ⟨khi, h3⟩, fun hx0 => ?_, fun hx1 => ?_, ?_⟩
  · have hT0 : posF m p ≤ 0 := double_rounder.nonpos (mul_nonpos_of_nonpos_of_nonneg (hle hx0) hm'.le)
    have c1 : clampRow m ⌊posF m p⌋ = 0 := clampRow_neg (by
      have : (⌊posF m p⌋ : K) ≤ 0 := (Int.floor_le _).trans hT0
      exact_mod_cast this)
    have c2 : clampRow m ⌈posF m p⌉ = 0 := clampRow_neg (Int.ceil_le.mpr (by simpa using hT0))
    obtain ⟨_, g2, g3⟩ := rowF_mem (fun k => V k (Spec.column c i)) (posF m p) _ _ (hV 0 (Spec.column c i))
      (hV 0 (Spec.column c i)) (by rw [c1]; exact ⟨le_rfl, le_rfl⟩) (by rw [c2]; exact ⟨le_rfl, le_rfl⟩)
    exact le_antisymm g3 g2
  · have hTm : (m : K) ≤ posF m p := by
      have := Fmt.near_mono double (le_mul_of_one_le_left hm'.le (hone hx1))
      rwa [double_nat m hm] at this
    have c1 : clampRow m ⌊posF m p⌋ = Fin.last m := clampRow_big (Int.le_floor.mpr (by simpa using hTm))
    have c2 : clampRow m ⌈posF m p⌉ = Fin.last m :=
      clampRow_big ((Int.le_floor.mpr (by simpa using hTm)).trans (Int.floor_le_ceil _))
    obtain ⟨_, g2, g3⟩ := rowF_mem (fun k => V k (Spec.column c i)) (posF m p) _ _ (hV (Fin.last m) (Spec.column c i))
      (hV (Fin.last m) (Spec.column c i)) (by rw [c1]; exact ⟨le_rfl, le_rfl⟩) (by rw [c2]; exact ⟨le_rfl, le_rfl⟩)
    exact le_antisymm g3 g2
  · intro J B hJ hB k hk hk1 hk2
    have hq0 : 0 ≤ x / Spec.fullScale (some din) := le_trans (by positivity) hk1
    have hq1 : x / Spec.fullScale (some din) ≤ 1 := by
      refine hk2.trans ((div_le_one hm').mpr ?_)
      exact_mod_cast hk
    have hx0 : 0 ≤ x := by
      by_contra hc
      exact absurd hq0 (not_le.mpr (div_neg_of_neg_of_pos (not_le.mp hc) hfs))
    obtain ⟨p1, p2, p3⟩ := posF_near hm0 hm (hge hx0) (hone' ((div_le_one hfs).mp hq1)) hq0 hq1 herr
    have hJ0 : 0 ≤ J := (abs_nonneg _).trans (hJ k hk)
    have key := rowF_near (fun k => V k (Spec.column c i)) (fun k => hV k _) J B hJ hB hJ0 p1 p2
      (mul_nonneg hq0 hm'.le) (mul_le_of_le_one_left hm'.le hq1) p3
    rw [lerpRow_between _ k hk ((div_le_iff₀ hm').mp hk1) ((le_div_iff₀ hm').mp hk2)] at key
    convert key using 3
    unfold Spec.affine
    push_cast
    field_simp
    ring

/-- An inversion of 8-bit code values. -/
def inversion4 : Base ℚ where
  attrs := [("inBitDepth", .str "8i"), ("outBitDepth", .str "8i"), ("interpolation", .str "linear")]
  elements := [.array { dims := [4, 1], values := [.fin 255, .fin 170, .fin 85, .fin 0] }]

theorem inversion4_plain : PlainLut inversion4 (.str "8i") { dims := [4, 1], values := [.fin 255, .fin 170, .fin 85, .fin 0] } :=
  ⟨rfl, rfl, by decide, rfl, rfl, rfl⟩

theorem inversion4_table : Table1D (m := 3) (c := 0)
    ({ dims := [4, 1], values := [.fin 255, .fin 170, .fin 85, .fin 0] } : Arr ℚ) (fun k _ => 255 - 85 * ((k : ℕ) : ℚ)) where
  dims := ⟨[], rfl⟩
  values := by decide +kernel
  columns := .inl rfl

theorem isSingle_code (n : ℕ) (h : n < 2 ^ 24) : Spec.IsSingle (n : K) := single_nat n h

theorem inversion4_single (k : Fin 4) : Spec.IsSingle (255 - 85 * ((k : ℕ) : ℚ)) := by
  fin_cases k
  · exact_mod_cast isSingle_code (K := ℚ) 255 (by norm_num)
  · have := isSingle_code (K := ℚ) 170 (by norm_num)
    norm_num at this ⊢
    exact this
  · have := isSingle_code (K := ℚ) 85 (by norm_num)
    norm_num at this ⊢
    exact this
  · have := isSingle_code (K := ℚ) 0 (by norm_num)
    norm_num at this ⊢
    exact this

/-- C122 on an inversion of code values. -/
example : ∃ (r : Res ℚ) (F : ℕ → Flt ℚ → Flt ℚ), lut1dProcessR ieee double inversion4 [.fin 1, .fin 100, .fin 200, .inf true] 2 = .ok r ∧
    r.out = [F 0 (.fin 1), F 1 (.fin 100), F 0 (.fin 200), F 1 (.inf true)] ∧ F 1 (.inf true) = .inf true := by
  obtain ⟨r, F, h1, h2, h3, _⟩ := C122_linear double inversion4 _ _ inversion4_plain _ inversion4_table
    (fun i _ => inversion4_single i) (by norm_num) (by norm_num) 2 (by norm_num)
    [[.fin 1, .fin 100], [.fin 200, .inf true]] (by simp)
  exact ⟨r, F, h1, h2, h3 1 true⟩

/-- C123 is false: the third of four entries of an 8-bit inversion is 85, but its code value 170 gives
the number of `float32` before 85, of which an 8-bit image keeps 84. -/
theorem C123_code_false : ∃ (b : Base ℚ) (a : Arr ℚ) (V : Fin 4 → Fin 1 → ℚ), PlainLut b (.str "8i") a ∧
    Table1D (m := 3) (c := 0) a V ∧ (∀ i j, Spec.IsSingle (V i j)) ∧
    (170 : ℚ) / Spec.fullScale (some (.str "8i")) = 2 / 3 ∧ V 2 0 = 85 ∧
    (lut1dProcessR ieee double b [.fin 170] 1).map (·.out) = .ok [.fin (85 - 1 / 2 ^ 17)] ∧
    storeUInt 8 0 (.fin (85 - 1 / 2 ^ 17) : Flt ℚ) = .ok 84 :=
  ⟨inversion4, _, _, inversion4_plain, inversion4_table, fun i _ => inversion4_single i,
    by norm_num [Spec.fullScale, Spec.bits], by norm_num, by decide +kernel, by decide +kernel⟩

/-- Rounding of what is stored only. -/
def storedArith : Arith ℚ := ⟨single.round, ratArith.pow, ratArith.log10⟩

/-- C123, an 8-bit image through the same node: 170 becomes 84. -/
theorem C123_image_false : filterImage storedArith 2 (some ⟨.uint8, 2, 2, 1, some 8, .ints [0, 170, 255, 85]⟩)
    [.leaf .lut1d inversion4] none 2 [0, 1, 0, 1] = .ok (some ⟨.uint8, 2, 2, 1, some 8, .ints [255, 84, 0, 170]⟩) := by
  decide +kernel

/-- C123, what holds: the value of entry `k` differs from it by no more than `(J m + B) / 2^23 + 2^-150`.
Missing: equality. -/
theorem C123_code_partial (t : Fmt) (b : Base K) (din : AVal) (a : Arr K) (h : PlainLut b din a) {m c : ℕ}
    (V : Fin (m + 1) → Fin (c + 1) → K) (hT : Table1D a V) (hV : ∀ i j, Spec.IsSingle (V i j)) (hm0 : 0 < m)
    (hm : m < 2 ^ 53) (x J B : K) (hx : Spec.IsSingle x) (k : Fin (m + 1)) (hk : x / Spec.fullScale (some din) = (k : ℕ) / m)
    (hJ : ∀ (k : ℕ) (hk : k + 1 ≤ m) (j : Fin (c + 1)), |V ⟨k + 1, by omega⟩ j - V ⟨k, by omega⟩ j| ≤ J)
    (hB : ∀ k j, |V k j| ≤ B) :
    ∃ r y, lut1dProcessR ieee t b [.fin x] 1 = .ok r ∧ r.out = [.fin y] ∧
      |y - V k (Spec.column c 0)| ≤ (J * m + B) / 2 ^ 23 + 2 ^ (-150 : ℤ) := by
  obtain ⟨r, F, h1, h2, _, _, h5⟩ := C122_linear t b din a h V hT hV hm0 hm 1 one_pos [[.fin x]] (by simp)
  obtain ⟨y, hy, _, _, _, _, _, hn⟩ := h5 0 x hx
  refine ⟨r, y, h1, by rw [h2]; simpa [Spec.mapColour] using hy, ?_⟩
  have hm' : (0 : K) < m := Nat.cast_pos.mpr hm0
  rcases Nat.lt_or_ge (k : ℕ) m with hlt | hge
  · have := hn J B (fun k hk => hJ k hk _) (fun k => hB k _) k hlt hk.symm.le (by
      rw [hk]
      exact div_le_div_of_nonneg_right (by push_cast; linarith) hm'.le)
    rw [hk] at this
    simpa [Spec.affine] using this
  · obtain ⟨n, rfl⟩ : ∃ n, m = n + 1 := ⟨m - 1, by omega⟩
    have hkm : (k : ℕ) = n + 1 := by have := k.2; omega
    have := hn J B (fun k hk => hJ k hk _) (fun k => hB k _) n le_rfl (by
      rw [hk, hkm]
      exact div_le_div_of_nonneg_right (by push_cast; linarith) hm'.le) (by rw [hk, hkm])
    rw [hk, hkm] at this
    have e : V ⟨n + 1, by omega⟩ (Spec.column c 0) = V k (Spec.column c 0) := by
      congr 1
      ext
      exact hkm.symm
    rw [e] at this
    have e2 : Spec.affine ((n : K) / ((n + 1 : ℕ) : K)) ((n + 1 : ℕ) / ((n + 1 : ℕ) : K)) (V ⟨n, by omega⟩ (Spec.column c 0))
        (V k (Spec.column c 0)) ((n + 1 : ℕ) / ((n + 1 : ℕ) : K)) = V k (Spec.column c 0) := by
      unfold Spec.affine
      have hd : ((n + 1 : ℕ) : K) / ((n + 1 : ℕ) : K) - n / ((n + 1 : ℕ) : K) ≠ 0 := by
        rw [← sub_div]
        push_cast
        rw [add_sub_cancel_left]
        have := hm'.ne'
        push_cast at this
        exact one_div_ne_zero this
      rw [mul_div_cancel₀ _ hd]
      ring
    rwa [e2] at this

/-- C123_code_partial on the inversion of code values: the error at 170 is at most `2^-13`. -/
example : ∃ r y, lut1dProcessR ieee double inversion4 [.fin 170] 1 = .ok r ∧ r.out = [.fin y] ∧ |y - 85| ≤ 1 / 2 ^ 13 := by
  obtain ⟨r, y, h1, h2, h3⟩ := C123_code_partial double inversion4 _ _ inversion4_plain _ inversion4_table
    (fun i _ => inversion4_single i) (by norm_num) (by norm_num) 170 85 255
    (by exact_mod_cast isSingle_code (K := ℚ) 170 (by norm_num)) 2 (by norm_num [Spec.fullScale, Spec.bits])
    (by intro k hk j; push_cast; rw [show (255 : ℚ) - 85 * (k + 1) - (255 - 85 * k) = -85 by ring]; norm_num)
    (by intro k j; fin_cases k <;> norm_num)
  refine ⟨r, y, h1, h2, ?_⟩
  norm_num at h3 ⊢
  refine h3.trans ?_
  norm_num

/-- C123, what holds: with a float depth and a table of `2^n + 1` entries, the value `k / 2^n` gives entry `k`.
Missing: other depths and sizes. -/
theorem C123_binary_partial (t : Fmt) (b : Base K) (din : AVal) (a : Arr K) (h : PlainLut b din a)
    (hd : Spec.bits (some din) = none) {n c : ℕ}
    (V : Fin (2 ^ n + 1) → Fin (c + 1) → K) (hT : Table1D a V) (hV : ∀ i j, Spec.IsSingle (V i j)) (hn : n ≤ 23)
    (k : Fin (2 ^ n + 1)) :
    ∃ r, lut1dProcessR ieee t b [.fin ((k : ℕ) / 2 ^ n)] 1 = .ok r ∧ r.out = [.fin (V k (Spec.column c 0))] := by
  have hF := fun i x => linearR_total hT ieee x i
  choose F hF using hF
  obtain ⟨r, hr, ho⟩ := lut1dR_node ieee t b din a h F hF 1 one_pos [[.fin ((k : ℕ) / 2 ^ n)]] (by simp)
  refine ⟨r, hr, ?_⟩
  rw [ho]
  have hfs : (Spec.fullScale (some din) : K) = 1 := by
    unfold Spec.fullScale
    rw [hd]
  have hk23 : 2 ^ n ≤ 2 ^ 23 := Nat.pow_le_pow_right (by norm_num) hn
  have hk : (k : ℕ) ≤ 2 ^ n := Nat.lt_succ_iff.mp k.2
  have hx : Spec.IsSingle ((k : ℕ) / 2 ^ n : K) := by
    have e := Fmt.near_short (K := K) single k (-n) (by
      have : single.mant + 1 = 24 := rfl
      rw [this]
      omega) (by rw [single_bias, single_mant]; omega)
    have e1 : ((k : ℕ) : K) * 2 ^ (-n : ℤ) = (k : ℕ) / 2 ^ n := by rw [zpow_neg, zpow_natCast, div_eq_mul_inv]
    rw [e1] at e
    have e2 : |((k : ℕ) / 2 ^ n : K)| ≤ 1 := by
      rw [abs_of_nonneg (by positivity), div_le_one (by positivity)]
      exact_mod_cast hk
    have := single_fin (e2.trans (one_le_pow₀ one_le_two : (1 : K) ≤ 2 ^ 125))
    rw [e] at this
    exact this
  have hu : ieee single (toUnitR ieee (.fin (((k : ℕ) : K) / 2 ^ n)) (some din)) = .fin ((k : ℕ) / 2 ^ n : K) := by
    rcases toUnitR_cases ieee (.fin ((k : ℕ) / 2 ^ n : K)) (some din) with ⟨_, h255⟩ | ⟨e, _⟩
    · rw [hfs] at h255
      norm_num at h255
    · rw [e]
      exact hx
  have hpb : |((k : ℕ) / 2 ^ n : K)| ≤ 2 ^ 130 := hx.lt.le.trans (pow_le_pow_right₀ one_le_two (by norm_num))
  have hrow := Except.ok.inj ((hF 0 (.fin (((k : ℕ) : K) / 2 ^ n))).symm.trans
    (linearR_table hT hV (lt_of_le_of_lt hk23 (by norm_num)) hpb 0))
  have hpos : posF (2 ^ n) ((k : ℕ) / 2 ^ n : K) = (k : ℕ) := by
    unfold posF
    rw [Nat.cast_pow, Nat.cast_ofNat, div_mul_cancel₀ _ (by positivity)]
    exact double_nat _ (by omega)
  rw [hpos] at hrow
  have c1 : clampRow (2 ^ n) ⌊((k : ℕ) : K)⌋ = k := by rw [Int.floor_natCast, clampRow_of hk]
  have c2 : clampRow (2 ^ n) ⌈((k : ℕ) : K)⌉ = k := by rw [Int.ceil_natCast, clampRow_of hk]
  obtain ⟨g1, g2, g3⟩ := rowF_mem (fun k => V k (Spec.column c 0)) ((k : ℕ) : K) _ _ (hV k (Spec.column c 0))
    (hV k (Spec.column c 0)) (by rw [c1]; exact ⟨le_rfl, le_rfl⟩) (by rw [c2]; exact ⟨le_rfl, le_rfl⟩)
  have : ieee single (F 0 (.fin ((k : ℕ) / 2 ^ n))) = .fin (V k (Spec.column c 0)) := by
    rw [hrow, ← le_antisymm g3 g2]
    exact g1
  simp [Spec.mapColour, hu, this]

/-- A half-way entry of a float table. -/
example : ∃ r, lut1dProcessR ieee double
    ({ attrs := [("inBitDepth", .str "16f"), ("outBitDepth", .str "8i")],
       elements := [.array { dims := [3, 1], values := [.fin 255, .fin 85, .fin 0] }] } : Base ℚ) [.fin (1 / 2)] 1 = .ok r ∧
    r.out = [.fin 85] := by
  obtain ⟨r, h1, h2⟩ := C123_binary_partial (K := ℚ) double
    { attrs := [("inBitDepth", .str "16f"), ("outBitDepth", .str "8i")],
      elements := [.array { dims := [3, 1], values := [.fin 255, .fin 85, .fin 0] }] } (.str "16f") _
    ⟨rfl, rfl, by decide, rfl, rfl, rfl⟩ rfl (n := 1) (c := 0) (fun k _ => ![255, 85, 0] k)
    ⟨⟨[], rfl⟩, by decide +kernel, .inl rfl⟩ (by
      intro i j
      fin_cases i
      · exact_mod_cast isSingle_code (K := ℚ) 255 (by norm_num)
      · exact_mod_cast isSingle_code (K := ℚ) 85 (by norm_num)
      · exact_mod_cast isSingle_code (K := ℚ) 0 (by norm_num)) (by norm_num) 1
  refine ⟨r, ?_, h2⟩
  simpa using h1

end CLF
