import Verif.Lemmas.Lut1d
import Mathlib.LinearAlgebra.Matrix.Notation

/-! # Properties C14–C17: linear one-dimensional LUTs -/

set_option linter.unusedSectionVars false

namespace CLF

variable {K : Type} [Field K] [LinearOrder K] [IsStrictOrderedRing K] [FloorRing K]

/-- `a` is a table with rows `V 0, …, V m`, of one or three columns. -/
structure Table1D {m c : ℕ} (a : Arr K) (V : Fin (m + 1) → Fin (c + 1) → K) : Prop where
  dims : ∃ rest, a.dims = (m + 1) :: (c + 1) :: rest
  values : a.values = Spec.rowMajor fun i j => .fin (V i j)
  columns : c = 0 ∨ c = 2

theorem Table1D.lookup {m c : ℕ} {a : Arr K} {V : Fin (m + 1) → Fin (c + 1) → K}
    (h : Table1D a V) (x : K) (ch : ℕ) :
    a.lookup1DLinear (.fin x) ch
      = .ok (.fin (lerpRow (fun k => V k (Spec.column c ch)) (x * m))) := by
  obtain ⟨rest, hd⟩ := h.dims
  exact lookup1DLinear_table a V rest hd h.values h.columns x ch

/-- A linear lookup in a finite table never fails. -/
theorem Table1D.total {m c : ℕ} {a : Arr K} {V : Fin (m + 1) → Fin (c + 1) → K}
    (h : Table1D a V) : ∀ i x, ∃ y, a.lookup1DLinear x i = .ok y := by
  intro i x
  obtain ⟨rest, hd⟩ := h.dims
  have h0 : pyGet a.dims 0 = .ok (m + 1) := by rw [hd]; rfl
  cases x with
  | fin x => exact ⟨_, h.lookup x i⟩
  | inf s =>
    have : ∃ y : Flt K, (Flt.inf s : Flt K) * .fin (((m + 1 : ℕ) : K) - 1) = y ∧
        (y = .nan ∨ ∃ s', y = .inf s') := by
      refine ⟨_, rfl, ?_⟩
      show Flt.mul _ _ = _ ∨ ∃ s', Flt.mul _ _ = _
      simp only [Flt.mul]
      split_ifs
      · exact .inl rfl
      · exact .inr ⟨_, rfl⟩
    obtain ⟨y, hy, h'⟩ := this
    simp only [Arr.lookup1DLinear, h0, py_ok_bind, hy]
    rcases h' with rfl | ⟨s', rfl⟩
    · exact ⟨_, rfl⟩
    · exact ⟨_, rfl⟩
  | nan =>
    simp only [Arr.lookup1DLinear, h0, py_ok_bind, Flt.nan_mul]
    exact ⟨_, rfl⟩

/-- C14: at position `k / m` the lookup returns row `k` of its column. -/
theorem C14_sample {m c : ℕ} (hm : 0 < m) (a : Arr K) (V : Fin (m + 1) → Fin (c + 1) → K)
    (h : Table1D a V) (k : Fin (m + 1)) (ch : ℕ) :
    a.lookup1DLinear (.fin ((k : ℕ) / m)) ch = .ok (.fin (V k (Spec.column c ch))) := by
  have hm' : (m : K) ≠ 0 := Nat.cast_ne_zero.mpr hm.ne'
  rw [h.lookup, div_mul_cancel₀ _ hm', lerpRow_nat _ _ (Nat.lt_succ_iff.mp k.2)]

/-- C14: positions at or below 0 give the first row, at or above 1 the last. -/
theorem C14_saturates {m c : ℕ} (a : Arr K) (V : Fin (m + 1) → Fin (c + 1) → K)
    (h : Table1D a V) (x : K) (ch : ℕ) :
    (x ≤ 0 → a.lookup1DLinear (.fin x) ch = .ok (.fin (V 0 (Spec.column c ch)))) ∧
    (1 ≤ x → a.lookup1DLinear (.fin x) ch = .ok (.fin (V (Fin.last m) (Spec.column c ch)))) := by
  have hm : (0 : K) ≤ m := Nat.cast_nonneg m
  constructor
  · intro hx
    rw [h.lookup, lerpRow_below _ (mul_nonpos_of_nonpos_of_nonneg hx hm)]; rfl
  · intro hx
    rw [h.lookup, lerpRow_above _ (le_mul_of_one_le_left hm hx)]; rfl

/-- C14: between two samples the lookup is their affine interpolation. -/
theorem C14_between {m c : ℕ} (hm : 0 < m) (a : Arr K) (V : Fin (m + 1) → Fin (c + 1) → K)
    (h : Table1D a V) (k : ℕ) (hk : k < m) (ch : ℕ) (x : K)
    (h1 : (k : K) / m ≤ x) (h2 : x ≤ (k + 1 : ℕ) / m) :
    a.lookup1DLinear (.fin x) ch
      = .ok (.fin (Spec.affine ((k : K) / m) ((k + 1 : ℕ) / m)
          (V ⟨k, by omega⟩ (Spec.column c ch)) (V ⟨k + 1, by omega⟩ (Spec.column c ch)) x)) := by
  have hm' : (0 : K) < m := Nat.cast_pos.mpr hm
  rw [h.lookup, lerpRow_between _ k hk ((div_le_iff₀ hm').mp h1) ((le_div_iff₀ hm').mp h2)]
  congr 2
  unfold Spec.affine
  push_cast
  field_simp
  ring

/-- `b` is a LUT1D node without index map, half domain or cubic interpolation,
holding the array `a` and reading depth `din`. -/
structure PlainLut (b : Base K) (din : AVal) (a : Arr K) : Prop where
  inDepth : b.attrs.get? "inBitDepth" = some din
  outDepth : (b.attrs.get? "outBitDepth").isSome
  linear : b.styleOf "interpolation" ≠ .str "cubic"
  noHalf : b.flag "halfDomain" = false
  noMaps : b.indexMaps = []
  array : b.array = .ok a

/-- C14: the node looks each colour channel of each pixel up, after scaling by the
input depth; other channels are returned as they are. -/
theorem C14_node (A : Arith K) (hA : A.Exact) (b : Base K) (din : AVal) (a : Arr K)
    (h : PlainLut b din a) (F : ℕ → Flt K → Flt K)
    (hF : ∀ i x, a.lookup1DLinear x i = .ok (F i x))
    (stride : ℕ) (hs : 0 < stride) (pixels : List (List (Flt K)))
    (hp : ∀ p ∈ pixels, p.length = stride) :
    ∃ r, lut1dProcess A b pixels.flatten stride = .ok r ∧
      r.out = (pixels.map (Spec.mapColour fun i x => F i (Spec.convert (some din) none x))).flatten := by
  obtain ⟨v2, e2⟩ : ∃ v, b.attrE "outBitDepth" = .ok v := by
    obtain ⟨v, hv⟩ := Option.isSome_iff_exists.mp h.outDepth
    exact ⟨some v, by simp [Base.attrE, Dict.getE, hv]⟩
  have e1 : b.attrE "inBitDepth" = .ok (some din) := by
    simp [Base.attrE, Dict.getE, h.inDepth]
  have hconv : ∀ x : Flt K, bitDepthToNormalized x (some din) = Spec.convert (some din) none x := by
    intro x
    cases x <;> simp [Spec.convert, bitDepthSize_eq_fullScale, Spec.fullScale, Spec.bits]
  unfold lut1dProcess
  simp only [e1, e2, h.array, py_ok_bind, if_neg h.linear, h.noHalf, h.noMaps, Bool.false_eq_true,
    if_false]
  rw [viewLoop_pixels stride hs _ (Spec.mapColour fun i x => F i (Spec.convert (some din) none x))
    pixels hp]
  · exact ⟨_, rfl, rfl⟩
  · intro p hp'
    rw [chanLoop_ok _ _ (fun i x => F i (Spec.convert (some din) none x)) p (by omega)]
    · unfold Spec.mapColour
      congr 1
      apply List.ext_getElem (by simp)
      intro i h1 h2
      have : i < p.length := by simpa using h2
      simp [this]
    · intro i hi _
      simp only [lutNormalize, List.length_nil, Nat.not_lt_zero, if_false, py_pure, py_ok_bind, hA _,
        hF, hconv]
  · intro p hp'
    simp [Spec.mapColour, hp p hp']

/-- C15: every finite position gives a value between two entries of its column. -/
theorem C15_bounded {m c : ℕ} (a : Arr K) (V : Fin (m + 1) → Fin (c + 1) → K) (h : Table1D a V)
    (x : K) (ch : ℕ) :
    ∃ y, a.lookup1DLinear (.fin x) ch = .ok (.fin y) ∧
      (∃ k, V k (Spec.column c ch) ≤ y) ∧ (∃ k, y ≤ V k (Spec.column c ch)) :=
  ⟨_, h.lookup x ch, lerpRow_mem _ _⟩

/-- C15: if the column is non-decreasing, so is the lookup. -/
theorem C15_monotone {m c : ℕ} (a : Arr K) (V : Fin (m + 1) → Fin (c + 1) → K) (h : Table1D a V)
    (ch : ℕ) (hV : ∀ i j, i ≤ j → V i (Spec.column c ch) ≤ V j (Spec.column c ch)) (x x' : K)
    (hxx : x ≤ x') :
    ∃ y y', a.lookup1DLinear (.fin x) ch = .ok (.fin y) ∧
      a.lookup1DLinear (.fin x') ch = .ok (.fin y') ∧ y ≤ y' :=
  ⟨_, _, h.lookup x ch, h.lookup x' ch,
    lerpRow_mono _ (fun i j hij => hV i j hij)
      (mul_le_mul_of_nonneg_right hxx (Nat.cast_nonneg m))⟩

/-- The node `simpleSampledLUT` builds, and the table in it. -/
theorem sampled_table (id tid inD outD : AVal) (m c : ℕ) (hc : c = 0 ∨ c = 2)
    (f : K → K) (fl : Flt K → Py (Flt K)) (hf : ∀ x, fl (.fin x) = .ok (.fin (f x))) :
    ∃ b a, simpleSampledLUT id tid (c + 1) (m + 2) fl inD outD = .ok b ∧ PlainLut b inD a ∧
      Table1D a (fun (k : Fin (m + 1 + 1)) (_ : Fin (c + 1)) => f ((k : ℕ) / ((m + 1 : ℕ) : K))) := by
  have hrow : (List.range (m + 2)).mapM (fun (i : ℕ) => do
      let sample ← pyDivF (.fin (i : K)) (.fin (((m + 2 : ℕ) : K) - 1))
      (List.range (c + 1)).mapM fun _ => fl sample)
      = .ok (List.ofFn fun k : Fin (m + 1 + 1) => List.ofFn fun _ : Fin (c + 1) =>
          Flt.fin (f ((k : ℕ) / ((m + 1 : ℕ) : K)))) := by
    apply range_mapM_ofFn (m + 2)
    intro i
    have e : ((m + 2 : ℕ) : K) - 1 = ((m + 1 : ℕ) : K) := by push_cast; ring
    have hne : ((m + 1 : ℕ) : K) ≠ 0 := Nat.cast_ne_zero.mpr (by omega)
    rw [e, pyDivF_fin hne, py_ok_bind]
    exact range_mapM_ofFn (c + 1) _ _ (fun _ => hf _)
  unfold simpleSampledLUT
  rw [hrow]
  simp only [py_ok_bind, lut1dSetArray]
  have hlen : (List.ofFn fun k : Fin (m + 1 + 1) => List.ofFn fun _ : Fin (c + 1) =>
          Flt.fin (f ((k : ℕ) / ((m + 1 : ℕ) : K)))).flatten.length = (m + 2) * (c + 1) := by
    rw [List.length_flatten, List.map_ofFn]
    simp [Function.comp_def]
    ring
  rw [hlen]
  have hdiv : pyDivNat ((m + 2) * (c + 1)) (c + 1) = .ok (m + 2) := by
    simp [pyDivNat]
  rw [hdiv]
  simp only [py_ok_bind, py_pure]
  refine ⟨_, _, rfl, ⟨rfl, rfl, ?_, rfl, rfl, rfl⟩, ⟨[], rfl⟩, rfl, hc⟩
  show AVal.str "linear" ≠ .str "cubic"
  decide

/-- C16: the LUT sampled from `f` with resolution `m + 2` returns `f (k / (m+1))`
in every colour channel whose value is the code value of `k / (m+1)`. -/
theorem C16_samples (A : Arith K) (hA : A.Exact) (id tid inD outD : AVal) (m c : ℕ)
    (hc : c = 0 ∨ c = 2) (f : K → K) (fl : Flt K → Py (Flt K))
    (hf : ∀ x, fl (.fin x) = .ok (.fin (f x))) :
    ∃ b, simpleSampledLUT id tid (c + 1) (m + 2) fl inD outD = .ok b ∧
      ∀ (stride : ℕ), 0 < stride → ∀ pixels : List (List (Fin (m + 2))),
        (∀ p ∈ pixels, p.length = stride) → stride ≤ 3 →
        ∃ r, lut1dProcess A b (pixels.map fun p => p.map fun (k : Fin (m + 2)) =>
            Flt.fin ((k : ℕ) / ((m + 1 : ℕ) : K) * Spec.fullScale (some inD))).flatten stride = .ok r ∧
          r.out = (pixels.map fun p => p.map fun (k : Fin (m + 2)) =>
            Flt.fin (f ((k : ℕ) / ((m + 1 : ℕ) : K)))).flatten := by
  obtain ⟨b, a, hb, hl, ht⟩ := sampled_table id tid inD outD m c hc f fl hf
  refine ⟨b, hb, fun stride hs pixels hp h3 => ?_⟩
  have hF := ht.total
  choose F hF using hF
  obtain ⟨r, hr, ho⟩ := C14_node A hA b inD a hl F hF stride hs
    (pixels.map fun p => p.map fun (k : Fin (m + 2)) =>
      Flt.fin ((k : ℕ) / ((m + 1 : ℕ) : K) * Spec.fullScale (some inD))) (by
      intro p hp'
      obtain ⟨q, hq, rfl⟩ := List.mem_map.mp hp'
      simpa using hp q hq)
  refine ⟨r, hr, ?_⟩
  rw [ho, List.map_map]
  congr 1
  apply List.map_congr_left
  intro p hp'
  apply List.ext_getElem (by simp [Spec.mapColour])
  intro i h1 h2
  have hi : i < 3 := by
    have := hp p hp'
    simp at h2; omega
  simp only [Function.comp, Spec.mapColour, List.getElem_mapIdx, hi, if_true, List.getElem_map,
    convert_fin]
  have hfs : (Spec.fullScale none : K) = 1 := rfl
  rw [hfs, mul_one, mul_div_cancel_right₀ _ (fullScale_ne (K := K) _)]
  have := C14_sample (K := K) (m := m + 1) (c := c) (by omega) a _ ht (p[i]'(by simpa using h2)) i
  rw [hF] at this
  exact Except.ok.inj this

/-- The lookup in an identity table is a clamp. -/
theorem identity_lookup (m c : ℕ) (a : Arr K) (ht : Table1D a
    (fun (k : Fin (m + 1 + 1)) (_ : Fin (c + 1)) => _root_.id ((k : ℕ) / ((m + 1 : ℕ) : K)) ))
    (x : K) (ch : ℕ) : a.lookup1DLinear (.fin x) ch = .ok (.fin (min 1 (max 0 x))) := by
  have hm1 : (0 : K) < ((m + 1 : ℕ) : K) := Nat.cast_pos.mpr (by omega)
  rcases row_cases (m + 1) (x * ((m + 1 : ℕ) : K)) with h | h | ⟨k, hk, h1, h2⟩
  · have hx : x ≤ 0 := by
      by_contra hc
      exact absurd h (not_le.mpr (mul_pos (lt_of_not_ge hc) hm1))
    rw [(C14_saturates a _ ht x ch).1 hx, max_eq_left hx, min_eq_right zero_le_one]
    simp
  · have hx : 1 ≤ x := by
      by_contra hc
      have : x * ((m + 1 : ℕ) : K) < 1 * ((m + 1 : ℕ) : K) :=
        mul_lt_mul_of_pos_right (lt_of_not_ge hc) hm1
      rw [one_mul] at this
      exact absurd h (not_le.mpr this)
    rw [(C14_saturates a _ ht x ch).2 hx, max_eq_right (zero_le_one.trans hx), min_eq_left hx]
    simp only [Fin.val_last, _root_.id]
    rw [div_self hm1.ne']
  · rw [ht.lookup, lerpRow_between _ k hk h1.le h2]
    have hx0 : 0 ≤ x := by
      have : (0 : K) ≤ k := Nat.cast_nonneg k
      by_contra hc
      have := mul_neg_of_neg_of_pos (lt_of_not_ge hc) hm1
      linarith
    have hx1 : x ≤ 1 := by
      by_contra hc
      have h3 : 1 * ((m + 1 : ℕ) : K) < x * ((m + 1 : ℕ) : K) :=
        mul_lt_mul_of_pos_right (lt_of_not_ge hc) hm1
      have h4 : ((k + 1 : ℕ) : K) ≤ ((m + 1 : ℕ) : K) := by exact_mod_cast hk
      linarith
    rw [max_eq_right hx0, min_eq_right hx1]
    congr 2
    simp only [_root_.id]
    push_cast at hm1 ⊢
    field_simp
    ring

/-- C16: the LUT sampled from the identity clamps to [0, 1] (after scaling by the
input depth), on every finite pixel. -/
theorem C16_identity (A : Arith K) (hA : A.Exact) (id tid inD outD : AVal) (m c : ℕ)
    (hc : c = 0 ∨ c = 2) :
    ∃ b, simpleSampledLUT id tid (c + 1) (m + 2) (fun x : Flt K => .ok x) inD outD = .ok b ∧
      ∀ (stride : ℕ), 0 < stride → ∀ pixels : List (List K), (∀ p ∈ pixels, p.length = stride) →
        ∃ r, lut1dProcess A b (pixels.map fun p => p.map Flt.fin).flatten stride = .ok r ∧
          r.out = (pixels.map fun p => (Spec.mapColour
            (fun _ x => min 1 (max 0 (x / Spec.fullScale (some inD)))) p).map Flt.fin).flatten := by
  obtain ⟨b, a, hb, hl, ht⟩ := sampled_table id tid inD outD m c hc _root_.id
    (fun x : Flt K => .ok x) (fun x => rfl)
  refine ⟨b, hb, fun stride hs pixels hp => ?_⟩
  have hF := ht.total
  choose F hF using hF
  obtain ⟨r, hr, ho⟩ := C14_node A hA b inD a hl F hF stride hs
    (pixels.map fun p => p.map Flt.fin) (by
      intro p hp'
      obtain ⟨q, hq, rfl⟩ := List.mem_map.mp hp'
      simpa using hp q hq)
  refine ⟨r, hr, ?_⟩
  rw [ho, List.map_map]
  congr 1
  apply List.map_congr_left
  intro p hp'
  apply List.ext_getElem (by simp [Spec.mapColour])
  intro i h1 h2
  have hfs : (Spec.fullScale none : K) = 1 := rfl
  simp only [Function.comp, Spec.mapColour, List.getElem_mapIdx, List.getElem_map, convert_fin,
    hfs, mul_one]
  split_ifs with hi
  · have := identity_lookup m c a ht (p[i]'(by simpa [Spec.mapColour] using h2) /
      Spec.fullScale (some inD)) i
    rw [hF] at this
    exact Except.ok.inj this
  · rfl

/-- C17: NaN gives NaN; for tables of at least two rows an infinity gives the same
infinity.  (Whatever the entries.) -/
theorem C17_nonfinite (a : Arr K) (d : ℕ) (rest : List ℕ) (hd : a.dims = d :: rest) (ch : ℕ) :
    a.lookup1DLinear .nan ch = .ok .nan ∧
    (2 ≤ d → ∀ s, a.lookup1DLinear (.inf s) ch = .ok (.inf s)) := by
  have h0 : pyGet a.dims 0 = .ok d := by rw [hd]; rfl
  constructor
  · simp only [Arr.lookup1DLinear, h0, py_ok_bind, Flt.nan_mul]; rfl
  · intro h2 s
    have hd2 : (2 : K) ≤ d := by exact_mod_cast h2
    have hne : (d : K) - 1 ≠ 0 := by intro h; linarith
    have hnn : ¬ (d : K) - 1 < 0 := by intro h; linarith
    simp only [Arr.lookup1DLinear, h0, py_ok_bind]
    have : (Flt.inf s : Flt K) * .fin ((d : K) - 1) = .inf s := by
      show Flt.mul _ _ = _
      simp only [Flt.mul, hne, if_false, hnn, decide_false, Bool.xor_false]
    rw [this]; rfl

/-! ### Two columns -/

/-- C76, what the lookup does in a two-column table: at position `k / m` every channel
gets the `k`-th value of the text, which is the right one only for `k = 0`, channel 0.
Missing: the entry of row `k` and the channel's own column. -/
theorem C76_actual_partial {m : ℕ} (hm : 0 < m) (a : Arr K) (V : Fin (m + 1) → Fin 2 → K)
    (hd : a.dims = [m + 1, 2]) (hv : a.values = Spec.rowMajor fun i j => .fin (V i j))
    (k : ℕ) (hk : k ≤ m) (ch : ℕ) :
    a.lookup1DLinear (.fin (k / m)) ch
      = .ok (.fin (V ⟨k / 2, by omega⟩ ⟨k % 2, Nat.mod_lt _ (by omega)⟩)) := by
  have hm' : (m : K) ≠ 0 := Nat.cast_ne_zero.mpr hm.ne'
  have h0 : pyGet a.dims 0 = .ok (m + 1) := by rw [hd]; rfl
  have em : ((m + 1 : ℕ) : K) - 1 = m := by push_cast; ring
  have e : ((Flt.fin ((k : K) / m)) * .fin (((m + 1 : ℕ) : K) - 1)) = .fin (k : K) := by
    rw [em, Flt.fin_mul, div_mul_cancel₀ _ hm']
  have hg := rowMajor_get (fun i j => Flt.fin (V i j)) (k / 2) (k % 2) (by omega)
    (Nat.mod_lt _ (by omega))
  have hkk : k % 2 + k / 2 * 2 = k := by omega
  rw [hkk] at hg
  have hl : a.lookup1D (k : ℤ) ch = .ok (.fin (V ⟨k / 2, by omega⟩ ⟨k % 2, Nat.mod_lt _ (by omega)⟩)) := by
    have h1 : ¬ (k : ℤ) < 0 := by omega
    have h2 : ¬ ((m + 1 : ℕ) : ℤ) ≤ k := by omega
    simp only [Arr.lookup1D, hd, pyGet_zero, pyGet_succ, py_ok_bind, hv, if_neg h1, if_neg h2]
    rw [if_neg (by omega), pyIdx_natCast]
    exact hg
  simp only [Arr.lookup1DLinear, h0, py_ok_bind, e, Int.floor_natCast, Int.ceil_natCast, hl,
    Int.cast_natCast, sub_self, py_pure, Flt.fin_sub, sub_zero]
  simp

/-- C76 is false: for every number of rows there is a two-column table whose entry in
row 1, column 0 is not returned at position `1 / m`. -/
theorem C76_false {m : ℕ} (hm : 0 < m) :
    ∃ (a : Arr K) (V : Fin (m + 1) → Fin 2 → K), a.dims = [m + 1, 2] ∧
      a.values = Spec.rowMajor (fun i j => .fin (V i j)) ∧
      a.lookup1DLinear (.fin (((1 : ℕ) : K) / m)) 0 ≠ .ok (.fin (V ⟨1, by omega⟩ 0)) := by
  refine ⟨⟨[m + 1, 2], Spec.rowMajor fun (i : Fin (m + 1)) (_ : Fin 2) => .fin ((i : ℕ) : K), false,
    false, "string"⟩, fun i _ => ((i : ℕ) : K), rfl, rfl, ?_⟩
  rw [C76_actual_partial hm _ (fun i _ => ((i : ℕ) : K)) rfl rfl 1 hm 0]
  simp

/-! ### Instances -/

/-- A three-row, three-column table. -/
def exampleTable : Arr ℚ where
  dims := [3, 3]
  values := [0, 1, 2, 3, 4, 5, 6, 8, 10].map .fin

example : Table1D exampleTable (fun k j => !![(0 : ℚ), 1, 2; 3, 4, 5; 6, 8, 10] k j) :=
  ⟨⟨[], rfl⟩, rfl, .inr rfl⟩

/-- A LUT1D node around it. -/
def exampleLut : Base ℚ where
  attrs := [("inBitDepth", .str "10i"), ("outBitDepth", .str "16f"), ("interpolation", .str "linear")]
  elements := [.array exampleTable]

example : PlainLut exampleLut (.str "10i") exampleTable :=
  ⟨rfl, rfl, by decide, rfl, rfl, rfl⟩

end CLF
