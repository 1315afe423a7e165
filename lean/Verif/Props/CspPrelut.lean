import Verif.Props.Csp

/-! # Property C75: CSP preluts -/

set_option linter.unusedSectionVars false

namespace CLF

variable {K : Type} [Field K] [LinearOrder K] [IsStrictOrderedRing K] [FloorRing K]

/-! ### A range followed by a table -/

theorem onCurve_grid {m : ℕ} {lo hi : K} (h : lo < hi) (s : Fin (m + 1 + 1) → K)
    (k : Fin (m + 1 + 1)) : Spec.OnCurve lo hi s (Spec.grid (m + 1) lo hi k) (s k) := by
  rcases Fin.eq_castSucc_or_eq_last k with ⟨j, rfl⟩ | rfl
  · refine ⟨j, le_rfl, (grid_lt h (Nat.lt_succ_self _)).le, ?_⟩
    simp [Spec.affine]
  · refine ⟨Fin.last m, (grid_lt h (by simp)).le, le_of_eq (by simp), ?_⟩
    have hne := (sub_pos.mpr (grid_lt (m := m) h (Nat.lt_succ_self m))).ne'
    simp only [Fin.val_last, Fin.succ_last, Spec.affine]
    field_simp
    ring

/-- The normalising range and a table evaluate the polyline through the table's rows. -/
theorem rangeLut_curve (A : Arith K) (hA : A.Exact) (compat : ℕ) {m c : ℕ}
    (V : Fin (m + 1 + 1) → Fin (c + 1) → K) {lo hi : K} (h : lo < hi) (id : String) (b : Base K)
    (a : Arr K) (ha : b.array = .ok a) (ht : Table1D a V)
    (d1 : b.attrs.get? "inBitDepth" = some float16) (d2 : b.attrs.get? "outBitDepth" = some float16)
    (d3 : b.attrs.get? "bypass" = none) (d4 : b.styleOf "interpolation" ≠ .str "cubic")
    (d5 : b.flag "halfDomain" = false) (d6 : b.indexMaps = [])
    (pairs : List ((Fin 3 → K) × (Fin 3 → K)))
    (hp : ∀ p ∈ pairs, ∀ i : Fin 3,
      Spec.OnCurve lo hi (fun k => V k (Spec.column c i)) (p.1 i) (p.2 i)) :
    (do
      let w ← (boundedRange id (.fin lo) (.fin hi) (.fin 0) (.fin 1)).outOf A compat 3
        (pixelValues (pairs.map Prod.fst))
      (Node.leaf .lut1d b).outOf A compat 3 w) = .ok (pixelValues (pairs.map Prod.snd)) := by
  have hlut : (Node.leaf .lut1d b).outOf A compat 3 (pixelValues (pairs.map fun p i =>
      (p.1 i - lo) / (hi - lo))) = .ok (pixelValues (pairs.map Prod.snd)) := by
    have hch : ∃ G : Fin 3 → K → K, ∀ p ∈ pairs, ∀ i : Fin 3,
        G i ((p.1 i - lo) / (hi - lo)) = p.2 i ∧
        a.lookup1DLinear (.fin ((p.1 i - lo) / (hi - lo))) i
          = .ok (.fin (G i ((p.1 i - lo) / (hi - lo)))) := by
      refine ⟨fun i t => match a.lookup1DLinear (.fin t) i with | .ok (.fin y) => y | _ => 0,
        fun p hp' i => ?_⟩
      have e := table_onCurve ht i ((onCurve_unit h _ _ _).mp (hp p hp' i))
      simp only [e, and_self]
    obtain ⟨G, hG⟩ := hch
    rw [lut1d_pixels A compat b float16 float16 a d1 d2 ha G]
    · rw [List.map_map]
      congr 2
      apply List.map_congr_left
      intro p hp'
      funext i
      exact (hG p hp' i).1
    · intro q hq i
      obtain ⟨p, hp', rfl⟩ := List.mem_map.mp hq
      have hn : (bitDepthToNormalized (.fin ((p.1 i - lo) / (hi - lo))) (some float16) : Flt K)
          = .fin ((p.1 i - lo) / (hi - lo)) := by
        rw [toNormalized_fin, bitDepthSize_eq_fullScale,
          show (Spec.fullScale (some float16) : K) = 1 from rfl, div_one]
      simp only [d6, lutNormalize, List.length_nil, Nat.not_lt_zero, if_false, py_pure, py_ok_bind,
        hA _, hn, if_neg d4, d5, Bool.false_eq_true, (hG p hp' i).2]
  have hfst : ∀ p ∈ pairs, ∀ i, lo ≤ p.1 i ∧ p.1 i ≤ hi :=
    fun p hp' i => onCurve_mem h (hp p hp' i)
  rw [boundedRange_pixels A hA compat 3 _ h.ne, py_ok_bind, ← hlut, List.map_map]
  congr 2
  apply List.map_congr_left
  intro p hp'
  funext i
  obtain ⟨m1, m2⟩ := affine_unit_mem h (hfst p hp' i).1 (hfst p hp' i).2
  simp only [Function.comp, affine_unit]
  rw [max_eq_right m1, min_eq_right m2]

/-! ### C75 -/

/-- A polyline with increasing points is a function. -/
theorem onPolyline_unique {m : ℕ} {X Y : Fin (m + 1) → K} (hX : StrictMono X) {x y z : K}
    (h1 : Spec.OnPolyline X Y x y) (h2 : Spec.OnPolyline X Y x z) : y = z := by
  have key : ∀ (j k : Fin m) (_ : j < k) (_ : x ≤ X j.succ) (_ : X k.castSucc ≤ x),
      Spec.affine (X j.castSucc) (X j.succ) (Y j.castSucc) (Y j.succ) x
        = Spec.affine (X k.castSucc) (X k.succ) (Y k.castSucc) (Y k.succ) x := by
    intro j k hjk e1 e2
    have hle : X j.succ ≤ X k.castSucc := hX.monotone (by
      rw [Fin.le_def]; simp; omega)
    have hx : x = X j.succ := le_antisymm e1 (hle.trans e2)
    have hk : k.castSucc = j.succ := hX.injective (le_antisymm (by rw [← hx]; exact e2) hle)
    have hne : X j.succ - X j.castSucc ≠ 0 := (sub_pos.mpr (hX Fin.castSucc_lt_succ)).ne'
    rw [hk, hx]
    unfold Spec.affine
    field_simp
    ring
  obtain ⟨j, a1, a2, rfl⟩ := h1
  obtain ⟨k, b1, b2, rfl⟩ := h2
  rcases lt_trichotomy j k with h | h | h
  · exact key j k h a2 b1
  · rw [h]
  · exact (key k j h b2 a1).symm

/-- A prelut as the reader holds it. -/
def prelutOf {n : ℕ} (X Y : Fin n → K) : Prelut K :=
  (List.ofFn fun k => .fin (X k), List.ofFn fun k => .fin (Y k))

theorem pyGet_ofFn {α : Type} {n : ℕ} (f : Fin n → α) (i : ℕ) (hi : i < n) :
    pyGet (List.ofFn f) i = .ok (f ⟨i, hi⟩) := by
  rw [pyGet_of_lt (by simpa using hi)]
  simp

theorem rowMajor_one {n : ℕ} (X : Fin n → K) :
    (List.ofFn fun k => Flt.fin (X k)) = Spec.rowMajor fun k (_ : Fin 1) => Flt.fin (X k) := by
  unfold Spec.rowMajor
  have : (fun i : Fin n => List.ofFn fun _ : Fin 1 => Flt.fin (X i)) = fun i => [Flt.fin (X i)] := by
    funext i
    simp
  have h2 : (List.ofFn fun i => [Flt.fin (X i)])
      = (List.ofFn fun i => Flt.fin (X i)).map fun x => [x] := by
    rw [List.map_ofFn]
    rfl
  rw [this, h2, ← List.flatMap_def]
  simp

/-- The value the code takes from a prelut lies on the polyline. -/
theorem prelutAt_spec {m : ℕ} (X Y : Fin (m + 2) → K) (hX : StrictMono X) {v : K} (h0 : X 0 ≤ v)
    (h1 : v ≤ X (Fin.last (m + 1))) :
    ∃ y, prelutAt (m + 2) (prelutOf X Y) (.fin v) = .ok (.fin y) ∧
      Spec.OnPolyline (m := m + 1) X Y v y := by
  obtain ⟨r, hr, e, _, h2, h3⟩ := inverseSearch_spec (fun k (_ : Fin 1) => X k) 0 v (m + 1) 0 none (by omega)
  rw [← List.range_eq_range', ← rowMajor_one] at e
  have e : inverseSearch (List.ofFn fun k => Flt.fin (X k)) 1 0 (.fin v) none
      (List.range (m + 2)) = .ok r := e
  have hpos : 0 < r := by
    rcases Nat.eq_zero_or_pos r with rfl | h
    · rcases h3 with h3 | h3
      · exact absurd h0 (not_le.mpr h3)
      · omega
    · exact h
  obtain ⟨k, rfl⟩ : ∃ k, r = k + 1 := ⟨r - 1, by omega⟩
  have hk : k < m + 1 := by omega
  have hlt : X ⟨k, by omega⟩ < X ⟨k + 1, hr⟩ := hX (by simp [Fin.lt_def])
  have hne : X ⟨k + 1, hr⟩ - X ⟨k, by omega⟩ ≠ 0 := (sub_pos.mpr hlt).ne'
  have hmin : min (m + 2 - 1) (k + 1) = k + 1 := by omega
  have hle : X ⟨k, by omega⟩ ≤ v := h2 k (by omega) (by omega) (by omega)
  have hge : v ≤ X ⟨k + 1, hr⟩ := by
    rcases h3 with h3 | h3
    · exact h3.le
    · have : (⟨k + 1, hr⟩ : Fin (m + 2)) = Fin.last (m + 1) := by ext; simp; omega
      rw [this]; exact h1
  refine ⟨_, ?_, ⟨k, hk⟩, hle, hge, rfl⟩
  unfold prelutAt
  simp only [prelutOf, e, py_ok_bind, hmin, Nat.add_sub_cancel, pyGet_ofFn _ k (show k < m + 2 by omega),
    pyGet_ofFn _ (k + 1) hr, Flt.fin_sub, pyDivF_fin hne, Flt.fin_mul, Flt.fin_add, py_pure]
  congr 2
  unfold Spec.affine
  simp only [Fin.castSucc_mk, Fin.succ_mk]
  ring

/-- C75: what preluts of three or more entries, the same number in every channel, with strictly
increasing inputs over the same range [lo, hi], are read as: nodes that evaluate, at every
colour of the range, the polylines through the points at which the prelut curves are
resampled. -/
theorem C75_resampled (A : Arith K) (hA : A.Exact) (compat : ℕ) {m : ℕ}
    (X Y : Fin 3 → Fin (m + 3) → K) (hX : ∀ i, StrictMono (X i)) {lo hi : K}
    (hlo : ∀ i, X i 0 = lo) (hhi : ∀ i, X i (Fin.last (m + 2)) = hi) :
    ∃ ns, ∃ T : Fin 3 → Fin (2 * m + 6) → K,
      cspPrelut (prelutOf (X 0) (Y 0)) (prelutOf (X 1) (Y 1)) (prelutOf (X 2) (Y 2)) = .ok ns ∧
      (∀ i (k : Fin (2 * m + 6)),
        Spec.OnPolyline (m := m + 2) (X i) (Y i) (Spec.grid (2 * m + 5) lo hi k) (T i k)) ∧
      ∀ pairs : List ((Fin 3 → K) × (Fin 3 → K)),
        (∀ p ∈ pairs, ∀ i : Fin 3, Spec.OnCurve (m := 2 * m + 5) lo hi (T i) (p.1 i) (p.2 i)) →
        processList A compat ns (pixelValues (pairs.map Prod.fst)) 3
          = .ok (pixelValues (pairs.map Prod.snd)) := by
  have hlt : lo < hi := by
    rw [← hlo 0, ← hhi 0]
    exact hX 0 (by simp [Fin.lt_def])
  have hM : (0 : K) < ((2 * m + 5 : ℕ) : K) := Nat.cast_pos.mpr (by omega)
  have hin : ∀ (k : ℕ), k ≤ 2 * m + 5 → lo ≤ Spec.grid (2 * m + 5) lo hi k ∧
      Spec.grid (2 * m + 5) lo hi k ≤ hi := by
    intro k hk
    have hk' : ((k : ℕ) : K) ≤ ((2 * m + 5 : ℕ) : K) := Nat.cast_le.mpr hk
    have hs : 0 < (hi - lo) / ((2 * m + 5 : ℕ) : K) := div_pos (sub_pos.mpr hlt) hM
    unfold Spec.grid
    constructor
    · have := mul_nonneg (Nat.cast_nonneg (α := K) k) hs.le
      linarith
    · have := mul_le_mul_of_nonneg_right hk' hs.le
      rw [mul_div_cancel₀ _ hM.ne'] at this
      linarith
  have hval : ∀ (i : Fin 3) (k : Fin (2 * m + 4 + 1 + 1)), ∃ y,
      prelutAt (m + 3) (prelutOf (X i) (Y i)) (.fin (Spec.grid (2 * m + 5) lo hi k)) = .ok (.fin y) ∧
      Spec.OnPolyline (m := m + 2) (X i) (Y i) (Spec.grid (2 * m + 5) lo hi k) y := by
    intro i k
    obtain ⟨q1, q2⟩ := hin k (by omega)
    exact prelutAt_spec (m := m + 1) (X i) (Y i) (hX i) (by rw [hlo]; exact q1) (by rw [hhi]; exact q2)
  choose T hT hTon using hval
  have hrows : (List.range ((m + 3) * 2)).mapM (fun (k : ℕ) => do
      let input ← pyDivF (.fin (k : K)) (.fin ((((m + 3) * 2 : ℕ) : K) - 1))
      let ranged := input * (Flt.fin hi - Flt.fin lo) + Flt.fin lo
      [prelutOf (X 0) (Y 0), prelutOf (X 1) (Y 1), prelutOf (X 2) (Y 2)].mapM fun p =>
        prelutAt (m + 3) p ranged)
      = .ok (List.ofFn fun k : Fin (2 * m + 4 + 1 + 1) => List.ofFn fun i : Fin 3 => Flt.fin (T i k)) := by
    rw [show (m + 3) * 2 = 2 * m + 4 + 1 + 1 by ring]
    apply range_mapM_ofFn
    intro k
    have e : ((2 * m + 4 + 1 + 1 : ℕ) : K) - 1 = ((2 * m + 5 : ℕ) : K) := by push_cast; ring
    have e2 : (k : ℕ) / ((2 * m + 5 : ℕ) : K) * (hi - lo) + lo = Spec.grid (2 * m + 5) lo hi k := by
      unfold Spec.grid; ring
    rw [e, pyDivF_fin hM.ne', py_ok_bind]
    simp only [Flt.fin_sub, Flt.fin_mul, Flt.fin_add, e2, py_mapM_cons, hT, py_ok_bind, py_mapM_nil,
      py_pure]
    rfl
  have hlen : (List.ofFn fun k : Fin (2 * m + 4 + 1 + 1) => List.ofFn fun i : Fin 3 =>
      Flt.fin (T i k)).flatten.length = (2 * m + 4 + 1 + 1) * 3 :=
    rowMajor_length (fun (k : Fin (2 * m + 4 + 1 + 1)) (i : Fin 3) => Flt.fin (T i k))
  have hdiv : pyDivNat ((2 * m + 4 + 1 + 1) * 3) 3 = .ok (2 * m + 4 + 1 + 1) := by
    simp [pyDivNat]
  have p1 : ∀ x : Flt K, Flt.pmin x x = x := by intro x; unfold Flt.pmin; split <;> rfl
  have p2 : ∀ x : Flt K, Flt.pmax x x = x := by intro x; unfold Flt.pmax; split <;> rfl
  have f0 : ∀ i, pyGet (prelutOf (X i) (Y i)).1 0 = .ok (.fin lo) := by
    intro i
    rw [← hlo i]
    exact pyGet_ofFn _ 0 (by omega)
  have fl : ∀ i, (prelutOf (X i) (Y i)).1.length = m + 3 := by intro i; simp [prelutOf]
  have f1 : ∀ i, pyIdx (prelutOf (X i) (Y i)).1 (-1) = .ok (.fin hi) := by
    intro i
    have hl := last_row (fun k (_ : Fin 1) => X i k) 0
    rw [← rowMajor_one] at hl
    rw [← hhi i]
    exact hl
  have run : cspPrelut (prelutOf (X 0) (Y 0)) (prelutOf (X 1) (Y 1)) (prelutOf (X 2) (Y 2)) = (do
      let lut ← lut1dSetArray (newLut1d float16 float16 (.str "prelut_lut1d") (.str "prelut_lut1d")) 3
        (List.ofFn fun k : Fin (2 * m + 4 + 1 + 1) => List.ofFn fun i : Fin 3 => Flt.fin (T i k)).flatten
      pure [boundedRange "prelut_range" (.fin lo) (.fin hi) (.fin 0) (.fin 1), .leaf .lut1d lut]) := by
    unfold cspPrelut
    simp only [f0, f1, fl, py_ok_bind, p1, p2, max_self]
    rw [if_pos (by omega), hrows]
    rfl
  rw [run]
  simp only [lut1dSetArray, hlen, hdiv, py_ok_bind, py_pure]
  refine ⟨_, T, rfl, hTon, fun pairs hp => ?_⟩
  have b1 : (boundedRange "prelut_range" (.fin lo) (.fin hi) (.fin 0) (.fin 1) : Node K).attr "bypass"
      = none := rfl
  rw [processList_two A hA compat 3 _ _ b1 rfl]
  refine rangeLut_curve (c := 2) A hA compat (fun k i => T i k) hlt "prelut_range" _ _ rfl
    ⟨⟨[], rfl⟩, rfl, .inr rfl⟩ rfl rfl rfl ?_ rfl rfl pairs ?_
  · show AVal.str "linear" ≠ .str "cubic"
    decide
  · intro p hp' i
    have hcol : Spec.column 2 i = i := by ext; simp [Spec.column]; omega
    rw [hcol]
    exact hp p hp' i

/-- C75, as far as it holds: preluts of three or more entries, the same number in every
channel, with strictly increasing inputs over the same range [lo, hi], are read as nodes
that evaluate the prelut curves at the resampled positions.  Missing: preluts of two
entries, whose outputs are ignored, and channels with different entry counts, which cannot
be read (`C75_false`). -/
theorem C75_curve_partial (A : Arith K) (hA : A.Exact) (compat : ℕ) {m : ℕ}
    (X Y : Fin 3 → Fin (m + 3) → K) (hX : ∀ i, StrictMono (X i)) {lo hi : K}
    (hlo : ∀ i, X i 0 = lo) (hhi : ∀ i, X i (Fin.last (m + 2)) = hi) :
    ∃ ns, cspPrelut (prelutOf (X 0) (Y 0)) (prelutOf (X 1) (Y 1)) (prelutOf (X 2) (Y 2)) = .ok ns ∧
      ∀ pairs : List ((Fin 3 → K) × (Fin 3 → K)),
        (∀ p ∈ pairs, ∀ i : Fin 3,
          (∃ k ≤ 2 * m + 5, p.1 i = Spec.grid (2 * m + 5) lo hi k) ∧
          Spec.OnPolyline (m := m + 2) (X i) (Y i) (p.1 i) (p.2 i)) →
        processList A compat ns (pixelValues (pairs.map Prod.fst)) 3
          = .ok (pixelValues (pairs.map Prod.snd)) := by
  have hlt : lo < hi := by
    rw [← hlo 0, ← hhi 0]
    exact hX 0 (by simp [Fin.lt_def])
  obtain ⟨ns, T, h1, h2, h3⟩ := C75_resampled A hA compat X Y hX hlo hhi
  refine ⟨ns, h1, fun pairs hp => h3 pairs fun p hp' i => ?_⟩
  obtain ⟨⟨k, hk, e⟩, hon⟩ := hp p hp' i
  rw [e] at hon ⊢
  rw [onPolyline_unique (hX i) hon (h2 i ⟨k, by omega⟩)]
  exact onCurve_grid hlt (T i) ⟨k, by omega⟩

/-- A prelut of three entries (inputs 0, 1, 4): the positions are 0, 4/5, …, 4. -/
example : ∃ ns, cspPrelut (prelutOf ![0, 1, 4] ![0, 1, 2]) (prelutOf ![0, 2, 4] ![0, 1, 0])
      (prelutOf ![0, 3, 4] ![(0 : ℚ), 1, 5]) = .ok ns ∧
    processList ratArith 2 ns (pixelValues [![8 / 5, 4 / 5, 16 / 5]]) 3
      = .ok (pixelValues [![6 / 5, 2 / 5, 9 / 5]]) := by
  obtain ⟨ns, h1, h2⟩ := C75_curve_partial (K := ℚ) ratArith (fun _ => rfl) 2 (m := 0)
    ![![0, 1, 4], ![0, 2, 4], ![0, 3, 4]] ![![0, 1, 2], ![0, 1, 0], ![0, 1, 5]] (by
      intro i
      rw [Fin.strictMono_iff_lt_succ]
      fin_cases i <;> intro j <;> fin_cases j <;> simp <;> norm_num) (lo := 0) (hi := 4)
    (by intro i; fin_cases i <;> rfl) (by intro i; fin_cases i <;> rfl)
  refine ⟨ns, h1, h2 [(![8 / 5, 4 / 5, 16 / 5], ![6 / 5, 2 / 5, 9 / 5])] ?_⟩
  intro p hp i
  rw [List.mem_singleton] at hp
  subst hp
  fin_cases i
  · exact ⟨⟨2, by norm_num, by norm_num [Spec.grid]⟩, 1, by norm_num [Fin.succ], by norm_num [Fin.succ],
      by norm_num [Spec.affine, Fin.succ]⟩
  · exact ⟨⟨1, by norm_num, by norm_num [Spec.grid]⟩, 0, by norm_num [Fin.succ], by norm_num [Fin.succ],
      by norm_num [Spec.affine, Fin.succ]⟩
  · exact ⟨⟨4, by norm_num, by norm_num [Spec.grid]⟩, 1, by norm_num [Fin.succ], by norm_num [Fin.succ],
      by norm_num [Spec.affine, Fin.succ]⟩

/-- C75, the two-entry case: outputs from 0 to 1 are what the nodes give on the input range. -/
theorem C75_two_partial (A : Arith K) (hA : A.Exact) (compat : ℕ) {lo hi : K} (h : lo < hi) :
    ∃ ns, cspPrelut (prelutOf ![lo, hi] ![0, 1]) (prelutOf ![lo, hi] ![0, 1])
        (prelutOf ![lo, hi] ![0, 1]) = .ok ns ∧
      ∀ pairs : List ((Fin 3 → K) × (Fin 3 → K)),
        (∀ p ∈ pairs, ∀ i : Fin 3, Spec.OnPolyline (m := 1) ![lo, hi] ![0, 1] (p.1 i) (p.2 i)) →
        processList A compat ns (pixelValues (pairs.map Prod.fst)) 3
          = .ok (pixelValues (pairs.map Prod.snd)) := by
  refine ⟨_, cspPrelut_two (.fin lo) (.fin hi) _ _ _, fun pairs hp => ?_⟩
  rw [processList_one A hA compat 3 _ rfl, boundedRange_pixels A hA compat 3 _ h.ne, List.map_map]
  refine congrArg (fun z => Except.ok (pixelValues z)) (List.map_congr_left fun p hp' => ?_)
  funext i
  obtain ⟨k, h1, h2, h3⟩ := hp p hp' i
  obtain rfl : k = 0 := Subsingleton.elim _ _
  have h1 : lo ≤ p.1 i := h1
  have h2 : p.1 i ≤ hi := h2
  have h3 : p.2 i = Spec.affine lo hi 0 1 (p.1 i) := h3
  obtain ⟨m1, m2⟩ := affine_unit_mem h h1 h2
  simp only [Function.comp]
  rw [h3, affine_unit, max_eq_right m1, min_eq_right m2]

example : ∃ ns, cspPrelut (prelutOf ![-1, 3] ![0, 1]) (prelutOf ![-1, 3] ![0, 1])
      (prelutOf ![(-1 : ℚ), 3] ![0, 1]) = .ok ns ∧
    processList ratArith 2 ns (pixelValues [![-1, 1, 2]]) 3 = .ok (pixelValues [![0, 1 / 2, 3 / 4]]) := by
  obtain ⟨ns, h1, h2⟩ := C75_two_partial (K := ℚ) ratArith (fun _ => rfl) 2 (lo := -1) (hi := 3) (by norm_num)
  refine ⟨ns, h1, h2 [(![-1, 1, 2], ![0, 1 / 2, 3 / 4])] ?_⟩
  intro p hp i
  rw [List.mem_singleton] at hp
  subst hp
  refine ⟨0, ?_⟩
  fin_cases i <;> norm_num [Fin.succ, Spec.affine]

theorem py_map_error {α β : Type} {x : Py α} {f : α → β} {e : PyErr} (h : x.map f = .error e) :
    x = .error e := by
  cases x with
  | error a => exact congrArg Except.error (Except.error.inj h)
  | ok a => exact absurd h (by simp [Except.map])

/-- C75 is false.  The prelut from [0, 1] to [0, 1/2] has two entries and is read as the
identity on [0, 1].  Preluts of three and four entries over the same range cannot be read
together, nor can preluts whose ranges start at different values. -/
theorem C75_false :
    (cspPrelut (prelutOf ![0, 1] ![0, 1 / 2]) (prelutOf ![0, 1] ![0, 1 / 2])
        (prelutOf ![(0 : ℚ), 1] ![0, 1 / 2]) >>= fun ns =>
      processList ratArith 2 ns (pixelValues [![1, 1, 1]]) 3) = .ok (pixelValues [![1, 1, 1]]) ∧
    cspPrelut (prelutOf ![0, 1, 2] ![0, 1, 2]) (prelutOf ![0, 1 / 2, 1, 2] ![0, 1 / 2, 1, 2])
        (prelutOf ![(0 : ℚ), 1, 2] ![0, 1, 2]) = .error .indexError ∧
    cspPrelut (prelutOf ![0, 1, 2] ![0, 1, 2]) (prelutOf ![1, 2, 3] ![0, 1, 2])
        (prelutOf ![(0 : ℚ), 1, 2] ![0, 1, 2]) = .error .zeroDivision := by
  refine ⟨?_, ?_, ?_⟩
  · decide +kernel
  · exact py_map_error (f := List.length) (by decide +kernel)
  · exact py_map_error (f := List.length) (by decide +kernel)

end CLF
